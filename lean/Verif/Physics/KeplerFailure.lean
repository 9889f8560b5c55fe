import Verif.Physics.KeplerProps

/-!
C55: when the completion of the elements of a conic fails, and the completion of its orientation.
-/

set_option linter.unusedSimpArgs false
set_option linter.unusedVariables false
set_option linter.unusedSectionVars false

namespace Principia.Physics.Kepler

open Real Fl

variable {x : ConicElements} {μ : Fl}

/-- Proves that a category is empty, or specified. -/
local macro "category" : tactic => `(tactic| first
  | (refine Or.inl fun g hg => ?_; cases g <;> first | rfl | (exfalso; revert hg; decide))
  | (refine Or.inr (.all fun g hg => ?_); cases g <;> first | rfl | (exfalso; revert hg; decide))
  | (refine Or.inr (.one .eccentricity rfl fun g hg => ?_); cases g <;> first | (exfalso; revert hg; decide) | (simp [ConicElements.get]; done))
  | (refine Or.inr (.one .asymptoticTrueAnomaly rfl fun g hg => ?_); cases g <;> first | (exfalso; revert hg; decide) | (simp [ConicElements.get]; done))
  | (refine Or.inr (.one .turningAngle rfl fun g hg => ?_); cases g <;> first | (exfalso; revert hg; decide) | (simp [ConicElements.get]; done))
  | (refine Or.inr (.one .semimajorAxis rfl fun g hg => ?_); cases g <;> first | (exfalso; revert hg; decide) | (simp [ConicElements.get]; done))
  | (refine Or.inr (.one .specificEnergy rfl fun g hg => ?_); cases g <;> first | (exfalso; revert hg; decide) | (simp [ConicElements.get]; done))
  | (refine Or.inr (.one .characteristicEnergy rfl fun g hg => ?_); cases g <;> first | (exfalso; revert hg; decide) | (simp [ConicElements.get]; done))
  | (refine Or.inr (.one .meanMotion rfl fun g hg => ?_); cases g <;> first | (exfalso; revert hg; decide) | (simp [ConicElements.get]; done))
  | (refine Or.inr (.one .period rfl fun g hg => ?_); cases g <;> first | (exfalso; revert hg; decide) | (simp [ConicElements.get]; done))
  | (refine Or.inr (.one .hyperbolicMeanMotion rfl fun g hg => ?_); cases g <;> first | (exfalso; revert hg; decide) | (simp [ConicElements.get]; done))
  | (refine Or.inr (.one .hyperbolicExcessVelocity rfl fun g hg => ?_); cases g <;> first | (exfalso; revert hg; decide) | (simp [ConicElements.get]; done))
  | (refine Or.inr (.one .semiminorAxis rfl fun g hg => ?_); cases g <;> first | (exfalso; revert hg; decide) | (simp [ConicElements.get]; done))
  | (refine Or.inr (.one .impactParameter rfl fun g hg => ?_); cases g <;> first | (exfalso; revert hg; decide) | (simp [ConicElements.get]; done))
  | (refine Or.inr (.one .semilatusRectum rfl fun g hg => ?_); cases g <;> first | (exfalso; revert hg; decide) | (simp [ConicElements.get]; done))
  | (refine Or.inr (.one .specificAngularMomentum rfl fun g hg => ?_); cases g <;> first | (exfalso; revert hg; decide) | (simp [ConicElements.get]; done)))

theorem ecc_cases (h : x.ecc.complete.isSome) : CategoryEmpty x 1 ∨ CategorySpecified x 1 := by
  obtain ⟨⟨a, b, c⟩, sma, smi, slr, p, q⟩ := x
  cases a <;> cases b <;> cases c <;> first
    | (simp [EccentricityForms.complete, EccentricityForms.specifications, has] at h; done)
    | category

theorem sma_cases (h : (x.sma.complete μ).isSome) : CategoryEmpty x 2 ∨ CategorySpecified x 2 := by
  obtain ⟨ecc, ⟨a, b, c, d, e, f, g⟩, smi, slr, p, q⟩ := x
  cases a <;> cases b <;> cases c <;> cases d <;> cases e <;> cases f <;> cases g <;> first
    | (simp [SemimajorForms.complete, SemimajorForms.specifications, has] at h; done)
    | category

theorem smi_cases (h : x.smi.complete.isSome) : CategoryEmpty x 3 ∨ CategorySpecified x 3 := by
  obtain ⟨ecc, sma, ⟨a, b⟩, slr, p, q⟩ := x
  cases a <;> cases b <;> category

theorem slr_cases (h : (x.slr.complete μ).isSome) : CategoryEmpty x 4 ∨ CategorySpecified x 4 := by
  obtain ⟨ecc, sma, smi, ⟨a, b⟩, p, q⟩ := x
  cases a <;> cases b <;> category

theorem pe_cases : CategoryEmpty x 5 ∨ CategorySpecified x 5 := by
  obtain ⟨ecc, sma, smi, slr, p, q⟩ := x
  cases p <;> category

theorem ap_cases : CategoryEmpty x 6 ∨ CategorySpecified x 6 := by
  obtain ⟨ecc, sma, smi, slr, p, q⟩ := x
  cases q <;> category

theorem ecc_shape (h : CategorySpecified x 1) : ∃ a b c, x.ecc.complete = some ⟨some a, some b, some c⟩ := by
  obtain ⟨⟨a, b, c⟩, sma, smi, slr, p, q⟩ := x
  cases h with
  | one f hf only =>
    have h1 := only .eccentricity rfl
    have h2 := only .asymptoticTrueAnomaly rfl
    have h3 := only .turningAngle rfl
    cases f <;> first
      | exact absurd hf (by decide)
      | (cases a <;> cases b <;> cases c <;> simp [ConicElements.get] at h1 h2 h3 <;> exact ⟨_, _, _, rfl⟩)
  | all every =>
    have h1 := every .eccentricity rfl
    have h2 := every .asymptoticTrueAnomaly rfl
    have h3 := every .turningAngle rfl
    cases a <;> cases b <;> cases c <;> simp [ConicElements.get] at h1 h2 h3
    exact ⟨_, _, _, rfl⟩

theorem sma_shape (μ : Fl) (h : CategorySpecified x 2) :
    ∃ a b c d e f g, x.sma.complete μ = some ⟨some a, some b, some c, some d, some e, some f, some g⟩ := by
  obtain ⟨ecc, ⟨a, b, c, d, e, f, g⟩, smi, slr, p, q⟩ := x
  cases h with
  | one k hf only =>
    have h1 := only .semimajorAxis rfl
    have h2 := only .specificEnergy rfl
    have h3 := only .characteristicEnergy rfl
    have h4 := only .meanMotion rfl
    have h5 := only .period rfl
    have h6 := only .hyperbolicMeanMotion rfl
    have h7 := only .hyperbolicExcessVelocity rfl
    cases k <;> first
      | exact absurd hf (by decide)
      | (simp only [ConicElements.get, reduceCtorEq, iff_false, iff_true, Bool.not_eq_true, Option.isSome_eq_false_iff, Option.isNone_iff_eq_none] at h1 h2 h3 h4 h5 h6 h7
         first | subst h1 | obtain ⟨_, rfl⟩ := Option.isSome_iff_exists.1 h1
         first | subst h2 | obtain ⟨_, rfl⟩ := Option.isSome_iff_exists.1 h2
         first | subst h3 | obtain ⟨_, rfl⟩ := Option.isSome_iff_exists.1 h3
         first | subst h4 | obtain ⟨_, rfl⟩ := Option.isSome_iff_exists.1 h4
         first | subst h5 | obtain ⟨_, rfl⟩ := Option.isSome_iff_exists.1 h5
         first | subst h6 | obtain ⟨_, rfl⟩ := Option.isSome_iff_exists.1 h6
         first | subst h7 | obtain ⟨_, rfl⟩ := Option.isSome_iff_exists.1 h7
         exact ⟨_, _, _, _, _, _, _, rfl⟩)
  | all every =>
    obtain ⟨a', h1⟩ := Option.isSome_iff_exists.1 (every .semimajorAxis rfl)
    obtain ⟨b', h2⟩ := Option.isSome_iff_exists.1 (every .specificEnergy rfl)
    obtain ⟨c', h3⟩ := Option.isSome_iff_exists.1 (every .characteristicEnergy rfl)
    obtain ⟨d', h4⟩ := Option.isSome_iff_exists.1 (every .meanMotion rfl)
    obtain ⟨e', h5⟩ := Option.isSome_iff_exists.1 (every .period rfl)
    obtain ⟨f', h6⟩ := Option.isSome_iff_exists.1 (every .hyperbolicMeanMotion rfl)
    obtain ⟨g', h7⟩ := Option.isSome_iff_exists.1 (every .hyperbolicExcessVelocity rfl)
    simp only [ConicElements.get] at h1 h2 h3 h4 h5 h6 h7
    subst h1 h2 h3 h4 h5 h6 h7
    exact ⟨_, _, _, _, _, _, _, rfl⟩

theorem smi_shape (h : CategorySpecified x 3) : ∃ a b, x.smi.complete = some ⟨some a, some b⟩ := by
  obtain ⟨ecc, sma, ⟨a, b⟩, slr, p, q⟩ := x
  cases h with
  | one f hf only =>
    have h1 := only .semiminorAxis rfl
    have h2 := only .impactParameter rfl
    cases f <;> first
      | exact absurd hf (by decide)
      | (cases a <;> cases b <;> simp [ConicElements.get] at h1 h2 <;> exact ⟨_, _, rfl⟩)
  | all every =>
    have h1 := every .semiminorAxis rfl
    have h2 := every .impactParameter rfl
    cases a <;> cases b <;> simp [ConicElements.get] at h1 h2
    exact ⟨_, _, rfl⟩

theorem slr_shape (μ : Fl) (h : CategorySpecified x 4) : ∃ a b, x.slr.complete μ = some ⟨some a, some b⟩ := by
  obtain ⟨ecc, sma, smi, ⟨a, b⟩, p, q⟩ := x
  cases h with
  | one f hf only =>
    have h1 := only .semilatusRectum rfl
    have h2 := only .specificAngularMomentum rfl
    cases f <;> first
      | exact absurd hf (by decide)
      | (cases a <;> cases b <;> simp [ConicElements.get] at h1 h2 <;> exact ⟨_, _, rfl⟩)
  | all every =>
    have h1 := every .semilatusRectum rfl
    have h2 := every .specificAngularMomentum rfl
    cases a <;> cases b <;> simp [ConicElements.get] at h1 h2
    exact ⟨_, _, rfl⟩

theorem pe_shape (h : CategorySpecified x 5) : ∃ a, x.periapsisDistance = some a := by
  cases h with
  | one f hf only => cases f <;> first | exact absurd hf (by decide) | exact Option.isSome_iff_exists.1 ((only .periapsisDistance rfl).2 rfl)
  | all every => exact Option.isSome_iff_exists.1 (every .periapsisDistance rfl)

theorem ap_shape (h : CategorySpecified x 6) : ∃ a, x.apoapsisDistance = some a := by
  cases h with
  | one f hf only => cases f <;> first | exact absurd hf (by decide) | exact Option.isSome_iff_exists.1 ((only .apoapsisDistance rfl).2 rfl)
  | all every => exact Option.isSome_iff_exists.1 (every .apoapsisDistance rfl)

theorem not_both {k : ℕ} (h : CategoryEmpty x k) (h' : CategorySpecified x k) (hk : ∃ g : Element, g.category = k) : False := by
  cases h' with
  | one f hf only => exact absurd ((only f hf).2 rfl) (by rw [h f hf]; decide)
  | all every =>
    obtain ⟨g, hg⟩ := hk
    exact absurd (every g hg) (by rw [h g hg]; decide)

theorem complete_isSome {y : ConicElements} (h : x.completeByCategory μ = some y) (h2 : y.categories = 2) (h3 : (y.combine.completeByCategory μ).isSome) :
    (x.complete μ).isSome := by
  unfold ConicElements.complete
  rw [h]
  show (if y.categories = 2 then y.combine.completeByCategory μ else none).isSome
  rw [if_pos h2]
  exact h3

/-- C55: the completion succeeds, that is, does not abort the program, exactly if the conic is minimally specified.  This does not depend on the values of the
elements. -/
theorem C55_success (x : ConicElements) (μ : Fl) : (x.complete μ).isSome ↔ MinimallySpecified x := by
  constructor
  · intro h
    have hy : ∃ y, x.completeByCategory μ = some y ∧ y.categories = 2 := by
      unfold ConicElements.complete at h
      cases hb : x.completeByCategory μ with
      | none =>
        rw [hb] at h
        exact Bool.noConfusion h
      | some y =>
        rw [hb] at h
        refine ⟨y, rfl, ?_⟩
        by_contra h2
        change (if y.categories = 2 then y.combine.completeByCategory μ else none).isSome at h
        rw [if_neg h2] at h
        exact absurd h (by decide)
    obtain ⟨y, hy, hn⟩ := hy
    have hall : ∃ e a b l, x.ecc.complete = some e ∧ x.sma.complete μ = some a ∧ x.smi.complete = some b ∧ x.slr.complete μ = some l ∧
        y = { x with ecc := e, sma := a, smi := b, slr := l } := by
      unfold ConicElements.completeByCategory at hy
      cases h1 : x.ecc.complete <;> cases h2 : x.sma.complete μ <;> cases h3 : x.smi.complete <;> cases h4 : x.slr.complete μ <;> rw [h1, h2, h3, h4] at hy <;>
        first
        | exact Option.noConfusion rfl (heq_of_eq hy)
        | exact ⟨_, _, _, _, rfl, rfl, rfl, rfl, (Option.some.inj hy).symm⟩
    obtain ⟨e, a, b, l, h1, h2, h3, h4, rfl⟩ := hall
    have s1 : (CategoryEmpty x 1 ∧ has e.eccentricity = 0) ∨ (CategorySpecified x 1 ∧ has e.eccentricity = 1) := by
      rcases ecc_cases (by rw [h1]; rfl) with h | h
      · refine Or.inl ⟨h, ?_⟩
        rw [ecc_empty h] at h1
        rw [← Option.some.inj h1]
        rfl
      · refine Or.inr ⟨h, ?_⟩
        obtain ⟨_, _, _, h'⟩ := ecc_shape h
        rw [← Option.some.inj (h'.symm.trans h1)]
        rfl
    have s2 : (CategoryEmpty x 2 ∧ has a.semimajorAxis = 0) ∨ (CategorySpecified x 2 ∧ has a.semimajorAxis = 1) := by
      rcases sma_cases (μ := μ) (by rw [h2]; rfl) with h | h
      · refine Or.inl ⟨h, ?_⟩
        rw [sma_empty h] at h2
        rw [← Option.some.inj h2]
        rfl
      · refine Or.inr ⟨h, ?_⟩
        obtain ⟨_, _, _, _, _, _, _, h'⟩ := sma_shape μ h
        rw [← Option.some.inj (h'.symm.trans h2)]
        rfl
    have s3 : (CategoryEmpty x 3 ∧ has b.semiminorAxis = 0) ∨ (CategorySpecified x 3 ∧ has b.semiminorAxis = 1) := by
      rcases smi_cases (by rw [h3]; rfl) with h | h
      · refine Or.inl ⟨h, ?_⟩
        rw [smi_empty h] at h3
        rw [← Option.some.inj h3]
        rfl
      · refine Or.inr ⟨h, ?_⟩
        obtain ⟨_, _, h'⟩ := smi_shape h
        rw [← Option.some.inj (h'.symm.trans h3)]
        rfl
    have s4 : (CategoryEmpty x 4 ∧ has l.semilatusRectum = 0) ∨ (CategorySpecified x 4 ∧ has l.semilatusRectum = 1) := by
      rcases slr_cases (μ := μ) (by rw [h4]; rfl) with h | h
      · refine Or.inl ⟨h, ?_⟩
        rw [slr_empty h] at h4
        rw [← Option.some.inj h4]
        rfl
      · refine Or.inr ⟨h, ?_⟩
        obtain ⟨_, _, h'⟩ := slr_shape μ h
        rw [← Option.some.inj (h'.symm.trans h4)]
        rfl
    have s5 : (CategoryEmpty x 5 ∧ has x.periapsisDistance = 0) ∨ (CategorySpecified x 5 ∧ has x.periapsisDistance = 1) := by
      rcases pe_cases (x := x) with h | h
      · exact Or.inl ⟨h, by rw [pe_empty h]; rfl⟩
      · obtain ⟨_, h'⟩ := pe_shape h
        exact Or.inr ⟨h, by rw [h']; rfl⟩
    have s6 : (CategoryEmpty x 6 ∧ has x.apoapsisDistance = 0) ∨ (CategorySpecified x 6 ∧ has x.apoapsisDistance = 1) := by
      rcases ap_cases (x := x) with h | h
      · exact Or.inl ⟨h, by rw [ap_empty h]; rfl⟩
      · obtain ⟨_, h'⟩ := ap_shape h
        exact Or.inr ⟨h, by rw [h']; rfl⟩
    change has e.eccentricity + has a.semimajorAxis + has b.semiminorAxis + has l.semilatusRectum + has x.periapsisDistance + has x.apoapsisDistance = 2 at hn
    rcases s1 with ⟨t1, n1⟩ | ⟨t1, n1⟩ <;> rcases s2 with ⟨t2, n2⟩ | ⟨t2, n2⟩ <;> rcases s3 with ⟨t3, n3⟩ | ⟨t3, n3⟩ <;>
      rcases s4 with ⟨t4, n4⟩ | ⟨t4, n4⟩ <;> rcases s5 with ⟨t5, n5⟩ | ⟨t5, n5⟩ <;> rcases s6 with ⟨t6, n6⟩ | ⟨t6, n6⟩ <;>
      rw [n1, n2, n3, n4, n5, n6] at hn <;> first
      | exact absurd hn (by decide)
      | (clear hn n1 n2 n3 n4 n5 n6 h1 h2 h3 h4 hy h
         have all : ∀ j k : ℕ, (∀ l, 1 ≤ l → l ≤ 6 → l ≠ j → l ≠ k → CategoryEmpty x l) → ∀ l ∈ Finset.Icc 1 6, l ≠ j → l ≠ k → CategoryEmpty x l :=
           fun j k h l hl => h l (Finset.mem_Icc.1 hl).1 (Finset.mem_Icc.1 hl).2
         first
         | (refine ⟨1, 2, by decide, by decide, by decide, t1, t2, all _ _ ?_⟩; intro l _ _ hj hk; interval_cases l <;> first | assumption | exact absurd rfl hj | exact absurd rfl hk)
         | (refine ⟨1, 3, by decide, by decide, by decide, t1, t3, all _ _ ?_⟩; intro l _ _ hj hk; interval_cases l <;> first | assumption | exact absurd rfl hj | exact absurd rfl hk)
         | (refine ⟨1, 4, by decide, by decide, by decide, t1, t4, all _ _ ?_⟩; intro l _ _ hj hk; interval_cases l <;> first | assumption | exact absurd rfl hj | exact absurd rfl hk)
         | (refine ⟨1, 5, by decide, by decide, by decide, t1, t5, all _ _ ?_⟩; intro l _ _ hj hk; interval_cases l <;> first | assumption | exact absurd rfl hj | exact absurd rfl hk)
         | (refine ⟨1, 6, by decide, by decide, by decide, t1, t6, all _ _ ?_⟩; intro l _ _ hj hk; interval_cases l <;> first | assumption | exact absurd rfl hj | exact absurd rfl hk)
         | (refine ⟨2, 3, by decide, by decide, by decide, t2, t3, all _ _ ?_⟩; intro l _ _ hj hk; interval_cases l <;> first | assumption | exact absurd rfl hj | exact absurd rfl hk)
         | (refine ⟨2, 4, by decide, by decide, by decide, t2, t4, all _ _ ?_⟩; intro l _ _ hj hk; interval_cases l <;> first | assumption | exact absurd rfl hj | exact absurd rfl hk)
         | (refine ⟨2, 5, by decide, by decide, by decide, t2, t5, all _ _ ?_⟩; intro l _ _ hj hk; interval_cases l <;> first | assumption | exact absurd rfl hj | exact absurd rfl hk)
         | (refine ⟨2, 6, by decide, by decide, by decide, t2, t6, all _ _ ?_⟩; intro l _ _ hj hk; interval_cases l <;> first | assumption | exact absurd rfl hj | exact absurd rfl hk)
         | (refine ⟨3, 4, by decide, by decide, by decide, t3, t4, all _ _ ?_⟩; intro l _ _ hj hk; interval_cases l <;> first | assumption | exact absurd rfl hj | exact absurd rfl hk)
         | (refine ⟨3, 5, by decide, by decide, by decide, t3, t5, all _ _ ?_⟩; intro l _ _ hj hk; interval_cases l <;> first | assumption | exact absurd rfl hj | exact absurd rfl hk)
         | (refine ⟨3, 6, by decide, by decide, by decide, t3, t6, all _ _ ?_⟩; intro l _ _ hj hk; interval_cases l <;> first | assumption | exact absurd rfl hj | exact absurd rfl hk)
         | (refine ⟨4, 5, by decide, by decide, by decide, t4, t5, all _ _ ?_⟩; intro l _ _ hj hk; interval_cases l <;> first | assumption | exact absurd rfl hj | exact absurd rfl hk)
         | (refine ⟨4, 6, by decide, by decide, by decide, t4, t6, all _ _ ?_⟩; intro l _ _ hj hk; interval_cases l <;> first | assumption | exact absurd rfl hj | exact absurd rfl hk)
         | (refine ⟨5, 6, by decide, by decide, by decide, t5, t6, all _ _ ?_⟩; intro l _ _ hj hk; interval_cases l <;> first | assumption | exact absurd rfl hj | exact absurd rfl hk))
  · intro hm
    have key : ∀ j k, j < k → j ∈ Finset.Icc 1 6 → k ∈ Finset.Icc 1 6 → CategorySpecified x j → CategorySpecified x k →
        (∀ l ∈ Finset.Icc 1 6, l ≠ j → l ≠ k → CategoryEmpty x l) → (x.complete μ).isSome := by
      intro j k hjk hj hk sj sk hl
      have e1 : (1 ≠ j ∧ 1 ≠ k) ∨ ∃ a b c, x.ecc.complete = some ⟨some a, some b, some c⟩ := by
        by_cases h : 1 = j
        · exact Or.inr (ecc_shape (h ▸ sj))
        · by_cases h' : 1 = k
          · exact Or.inr (ecc_shape (h' ▸ sk))
          · exact Or.inl ⟨h, h'⟩
      have d1 : 1 ≠ j → 1 ≠ k → x.ecc.complete = some {} := fun h h' => by rw [ecc_empty (hl 1 (by decide) h h')]; rfl
      have d2 : 2 ≠ j → 2 ≠ k → x.sma.complete μ = some {} := fun h h' => by rw [sma_empty (hl 2 (by decide) h h')]; rfl
      have d3 : 3 ≠ j → 3 ≠ k → x.smi.complete = some {} := fun h h' => by rw [smi_empty (hl 3 (by decide) h h')]; rfl
      have d4 : 4 ≠ j → 4 ≠ k → x.slr.complete μ = some {} := fun h h' => by rw [slr_empty (hl 4 (by decide) h h')]; rfl
      have d5 : 5 ≠ j → 5 ≠ k → x.periapsisDistance = none := fun h h' => pe_empty (hl 5 (by decide) h h')
      have d6 : 6 ≠ j → 6 ≠ k → x.apoapsisDistance = none := fun h h' => ap_empty (hl 6 (by decide) h h')
      rw [Finset.mem_Icc] at hj hk
      obtain ⟨hj1, hj2⟩ := hj
      obtain ⟨hk1, hk2⟩ := hk
      interval_cases j <;> interval_cases k <;> first | exact absurd hjk (by decide) | skip
      · obtain ⟨_, _, _, h1⟩ := ecc_shape sj
        obtain ⟨_, _, _, _, _, _, _, h2⟩ := sma_shape μ sk
        exact complete_isSome (complete_of h1 h2 (d3 (by decide) (by decide)) (d4 (by decide) (by decide)) (d5 (by decide) (by decide)) (d6 (by decide) (by decide)) rfl) rfl rfl
      · obtain ⟨_, _, _, h1⟩ := ecc_shape sj
        obtain ⟨_, _, h2⟩ := smi_shape sk
        exact complete_isSome (complete_of h1 (d2 (by decide) (by decide)) h2 (d4 (by decide) (by decide)) (d5 (by decide) (by decide)) (d6 (by decide) (by decide)) rfl) rfl rfl
      · obtain ⟨_, _, _, h1⟩ := ecc_shape sj
        obtain ⟨_, _, h2⟩ := slr_shape μ sk
        exact complete_isSome (complete_of h1 (d2 (by decide) (by decide)) (d3 (by decide) (by decide)) h2 (d5 (by decide) (by decide)) (d6 (by decide) (by decide)) rfl) rfl rfl
      · obtain ⟨_, _, _, h1⟩ := ecc_shape sj
        obtain ⟨_, h2⟩ := pe_shape sk
        exact complete_isSome (complete_of h1 (d2 (by decide) (by decide)) (d3 (by decide) (by decide)) (d4 (by decide) (by decide)) h2 (d6 (by decide) (by decide)) rfl) rfl rfl
      · obtain ⟨_, _, _, h1⟩ := ecc_shape sj
        obtain ⟨_, h2⟩ := ap_shape sk
        exact complete_isSome (complete_of h1 (d2 (by decide) (by decide)) (d3 (by decide) (by decide)) (d4 (by decide) (by decide)) (d5 (by decide) (by decide)) h2 rfl) rfl rfl
      · obtain ⟨_, _, _, _, _, _, _, h1⟩ := sma_shape μ sj
        obtain ⟨_, _, h2⟩ := smi_shape sk
        exact complete_isSome (complete_of (d1 (by decide) (by decide)) h1 h2 (d4 (by decide) (by decide)) (d5 (by decide) (by decide)) (d6 (by decide) (by decide)) rfl) rfl rfl
      · obtain ⟨_, _, _, _, _, _, _, h1⟩ := sma_shape μ sj
        obtain ⟨_, _, h2⟩ := slr_shape μ sk
        exact complete_isSome (complete_of (d1 (by decide) (by decide)) h1 (d3 (by decide) (by decide)) h2 (d5 (by decide) (by decide)) (d6 (by decide) (by decide)) rfl) rfl rfl
      · obtain ⟨_, _, _, _, _, _, _, h1⟩ := sma_shape μ sj
        obtain ⟨_, h2⟩ := pe_shape sk
        exact complete_isSome (complete_of (d1 (by decide) (by decide)) h1 (d3 (by decide) (by decide)) (d4 (by decide) (by decide)) h2 (d6 (by decide) (by decide)) rfl) rfl rfl
      · obtain ⟨_, _, _, _, _, _, _, h1⟩ := sma_shape μ sj
        obtain ⟨_, h2⟩ := ap_shape sk
        exact complete_isSome (complete_of (d1 (by decide) (by decide)) h1 (d3 (by decide) (by decide)) (d4 (by decide) (by decide)) (d5 (by decide) (by decide)) h2 rfl) rfl rfl
      · obtain ⟨_, _, h1⟩ := smi_shape sj
        obtain ⟨_, _, h2⟩ := slr_shape μ sk
        exact complete_isSome (complete_of (d1 (by decide) (by decide)) (d2 (by decide) (by decide)) h1 h2 (d5 (by decide) (by decide)) (d6 (by decide) (by decide)) rfl) rfl rfl
      · obtain ⟨_, _, h1⟩ := smi_shape sj
        obtain ⟨_, h2⟩ := pe_shape sk
        exact complete_isSome (complete_of (d1 (by decide) (by decide)) (d2 (by decide) (by decide)) h1 (d4 (by decide) (by decide)) h2 (d6 (by decide) (by decide)) rfl) rfl rfl
      · obtain ⟨_, _, h1⟩ := smi_shape sj
        obtain ⟨_, h2⟩ := ap_shape sk
        exact complete_isSome (complete_of (d1 (by decide) (by decide)) (d2 (by decide) (by decide)) h1 (d4 (by decide) (by decide)) (d5 (by decide) (by decide)) h2 rfl) rfl rfl
      · obtain ⟨_, _, h1⟩ := slr_shape μ sj
        obtain ⟨_, h2⟩ := pe_shape sk
        exact complete_isSome (complete_of (d1 (by decide) (by decide)) (d2 (by decide) (by decide)) (d3 (by decide) (by decide)) h1 h2 (d6 (by decide) (by decide)) rfl) rfl rfl
      · obtain ⟨_, _, h1⟩ := slr_shape μ sj
        obtain ⟨_, h2⟩ := ap_shape sk
        exact complete_isSome (complete_of (d1 (by decide) (by decide)) (d2 (by decide) (by decide)) (d3 (by decide) (by decide)) h1 (d5 (by decide) (by decide)) h2 rfl) rfl rfl
      · obtain ⟨_, h1⟩ := pe_shape sj
        obtain ⟨_, h2⟩ := ap_shape sk
        exact complete_isSome (complete_of (d1 (by decide) (by decide)) (d2 (by decide) (by decide)) (d3 (by decide) (by decide)) (d4 (by decide) (by decide)) h1 h2 rfl) rfl rfl
    obtain ⟨j, k, hj, hk, hne, sj, sk, hl⟩ := hm
    rcases lt_or_gt_of_ne hne with h | h
    · exact key j k h hj hk sj sk hl
    · exact key k j h hk hj sk sj fun l hl' h1 h2 => hl l hl' h2 h1

/-- C55: the longitude of the periapsis is the sum of the longitude of the ascending node and of the argument of the periapsis.  The completion aborts the program unless
exactly one of the last two is given. -/
theorem C55_orientation (x : Orientation) :
    (x.complete.isSome ↔ x.argumentOfPeriapsis.isSome ≠ x.longitudeOfPeriapsis.isSome) ∧
    ∀ i Ω ω ϖ : ℝ, ϖ = Ω + ω → x.inclination = num i → x.longitudeOfAscendingNode = num Ω →
      (∀ v, x.argumentOfPeriapsis = some v → v = num ω) → (∀ v, x.longitudeOfPeriapsis = some v → v = num ϖ) →
      ∀ y, x.complete = some y → y = ⟨num i, num Ω, some (num ω), some (num ϖ)⟩ := by
  obtain ⟨i, Ω, ω, ϖ⟩ := x
  constructor
  · cases ω <;> cases ϖ <;> simp [Orientation.complete]
  · rintro i Ω ω' ϖ' h rfl rfl h1 h2 y hy
    cases ω with
    | none =>
      cases ϖ with
      | none => exact absurd hy (by simp [Orientation.complete])
      | some v =>
        rw [← Option.some.inj hy]
        obtain rfl := h2 v rfl
        show Orientation.mk _ _ (some (num ϖ' - num Ω)) _ = _
        rw [num_sub, h, add_sub_cancel_left]
    | some v =>
      cases ϖ with
      | none =>
        rw [← Option.some.inj hy]
        obtain rfl := h1 v rfl
        show Orientation.mk _ _ _ (some (num Ω + num ω')) = _
        rw [num_add, h]
      | some w => exact absurd hy (by simp [Orientation.complete])

/-- A circular orbit given by its period and its periapsis distance. -/
example : Describes { sma := { period := some (num (2 * π / √(8 / 2 ^ 3))) }, periapsisDistance := some (num 2) } ⟨8, 2, 0⟩ ∧
    MinimallySpecified { sma := { period := some (num (2 * π / √(8 / 2 ^ 3))) }, periapsisDistance := some (num 2) } ∧ (Conic.mk 8 2 0).IsEllipse := by
  refine ⟨?_, ⟨2, 5, by decide, by decide, by decide, ?_, ?_, ?_⟩, ⟨by norm_num, by norm_num, by norm_num, by norm_num⟩⟩
  · rintro (_ | _ | _ | _ | _ | _ | _ | _ | _ | _ | _ | _ | _ | _ | _ | _) v hv <;> simp only [ConicElements.get, Option.some.injEq, reduceCtorEq] at hv
    · subst hv
      refine ⟨?_, fun h => nomatch h⟩
      show some (Conic.ellipse _ _) = _
      rw [Conic.IsEllipse.ellipse ⟨by norm_num, by norm_num, by norm_num, by norm_num⟩]
    · subst hv
      refine ⟨?_, fun h => nomatch h⟩
      show some (num ((2 : ℝ) * (1 - 0))) = _
      norm_num
  · exact .one .period rfl fun g hg => by cases g <;> first | exact absurd hg (by decide) | simp [ConicElements.get]
  · exact .all fun g hg => by cases g <;> first | rfl | exact absurd hg (by decide)
  · intro l hl h1 h2
    have := (Finset.mem_Icc.1 hl)
    intro g hg
    cases g <;> first | rfl | exact absurd hg.symm h1 | exact absurd hg.symm h2

/-- A hyperbola given by its turning angle and its hyperbolic excess velocity. -/
example : Describes { ecc := { turningAngle := some (num (2 * arcsin (1 / 2))) }, sma := { hyperbolicExcessVelocity := some (num √(4 / -(-1))) } } ⟨4, -1, 2⟩ ∧
    (Conic.mk 4 (-1) 2).IsHyperbola := by
  refine ⟨?_, ⟨by norm_num, by norm_num, by norm_num⟩⟩
  rintro (_ | _ | _ | _ | _ | _ | _ | _ | _ | _ | _ | _ | _ | _ | _ | _) v hv <;> simp only [ConicElements.get, Option.some.injEq, reduceCtorEq] at hv
  · subst hv
    refine ⟨?_, fun h => nomatch h⟩
    show some (Conic.hyperbola _ _) = _
    rw [Conic.IsHyperbola.hyperbola ⟨by norm_num, by norm_num, by norm_num⟩]
  · subst hv
    refine ⟨?_, fun h => nomatch h⟩
    show some (Conic.hyperbola _ _) = _
    rw [Conic.IsHyperbola.hyperbola ⟨by norm_num, by norm_num, by norm_num⟩]

end Principia.Physics.Kepler
