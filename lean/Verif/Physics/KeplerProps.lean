import Verif.Physics.KeplerCombine
import Mathlib.Tactic.IntervalCases

/-!
The properties of C55: the completion of the elements of a conic.
-/

set_option linter.unusedSimpArgs false
set_option linter.unusedVariables false
set_option linter.unusedSectionVars false

namespace Principia.Physics.Kepler

open Real Fl

variable {c : Conic} {x : ConicElements}

theorem ecc_complete_full : c.elements.ecc.complete = some c.elements.ecc := rfl
theorem sma_complete_full (μ : Fl) : c.elements.sma.complete μ = some c.elements.sma := rfl
theorem smi_complete_full : c.elements.smi.complete = some c.elements.smi := rfl
theorem slr_complete_full (μ : Fl) : c.elements.slr.complete μ = some c.elements.slr := rfl

theorem EccentricityForms.complete_one {g : EccentricityForms} (h : g.specifications = 1) : g.complete = some (g.fill) := by
  unfold EccentricityForms.complete
  rw [if_pos (Or.inl h.le), if_pos h]

theorem SemimajorForms.complete_one {μ : Fl} {g : SemimajorForms} (h : g.specifications = 1) : g.complete μ = some (g.fill μ) := by
  unfold SemimajorForms.complete
  rw [if_pos (Or.inl h.le), if_pos h]

theorem SemiminorForms.complete_one {g : SemiminorForms} (h : g.specifications = 1) : g.complete = some (g.fill) := by
  unfold SemiminorForms.complete
  rw [if_pos (Or.inl h.le), if_pos h]

theorem SemilatusForms.complete_one {μ : Fl} {g : SemilatusForms} (h : g.specifications = 1) : g.complete μ = some (g.fill μ) := by
  unfold SemilatusForms.complete
  rw [if_pos (Or.inl h.le), if_pos h]

theorem is_none {α : Type} {o : Option α} (h : ¬o.isSome) : o = none := by
  cases o
  · rfl
  · exact absurd rfl h

/-- The value of the only element of a category. -/
theorem Describes.only (hd : Describes x c) {k : ℕ} (f : Element) (hk : f.category = k) (hs : ∀ g, g.category = k → ((x.get g).isSome ↔ g = f))
    (hf : ∃ g : Element, g.category = k ∧ g ≠ f) :
    ∃ v, x.get f = some v ∧ c.elements.get f = some v ∧ v ≠ nan := by
  obtain ⟨v, hv⟩ := Option.isSome_iff_exists.1 ((hs f hk).2 rfl)
  obtain ⟨h1, h2⟩ := hd f v hv
  refine ⟨v, hv, h1, fun hn => ?_⟩
  obtain ⟨g, hg, hne⟩ := hf
  exact hne ((hs g hg).1 (h2 hn g (hg.trans hk.symm)))

/-- The value of an element of a full category. -/
theorem Describes.all (hd : Describes x c) {f : Element} (hf : (x.get f).isSome) : x.get f = c.elements.get f := by
  obtain ⟨v, hv⟩ := Option.isSome_iff_exists.1 hf
  rw [hv, (hd f v hv).1]

section

variable (hc : c.IsEllipse ∨ c.IsHyperbola) (hd : Describes x c)

include hc hd

theorem ecc_specified (hs : CategorySpecified x 1) : x.ecc.complete = some c.elements.ecc := by
  cases hs with
  | one f hf only =>
    have none' : ∀ g : Element, g.category = 1 → g ≠ f → x.get g = none := fun g hg hne => is_none fun h' => hne ((only g hg).1 h')
    cases f with
    | eccentricity =>
      obtain ⟨v, h1, h2, -⟩ := hd.only _ hf only ⟨.turningAngle, rfl, by decide⟩
      have hv : v = num c.e := (Option.some.inj h2).symm
      have hx : x.ecc = { eccentricity := some (num c.e) } :=
        EccentricityForms.ext (hv ▸ h1) (none' .asymptoticTrueAnomaly rfl (by decide)) (none' .turningAngle rfl (by decide))
      rw [hx]
      rw [EccentricityForms.complete_one rfl]
      rcases hc with hc | hc
      · rw [ecc_ellipse hc]
      · rw [ecc_hyperbola hc]
    | turningAngle =>
      obtain ⟨v, h1, h2, h3⟩ := hd.only _ hf only ⟨.eccentricity, rfl, by decide⟩
      have hv : c.hyperbola (2 * arcsin (1 / c.e)) = v := Option.some.inj h2
      rcases hc with hc | hc
      · exact absurd (hv.symm.trans (hc.hyperbola _)) h3
      · have hx : x.ecc = { turningAngle := some v } :=
          EccentricityForms.ext (none' .eccentricity rfl (by decide)) (none' .asymptoticTrueAnomaly rfl (by decide)) h1
        rw [hx, ← hv]
        rw [EccentricityForms.complete_one rfl]
        rw [ecc_turning hc]
    | asymptoticTrueAnomaly =>
      obtain ⟨v, h1, h2, h3⟩ := hd.only _ hf only ⟨.eccentricity, rfl, by decide⟩
      have hv : c.hyperbola (arccos (-(1 / c.e))) = v := Option.some.inj h2
      rcases hc with hc | hc
      · exact absurd (hv.symm.trans (hc.hyperbola _)) h3
      · have hx : x.ecc = { asymptoticTrueAnomaly := some v } :=
          EccentricityForms.ext (none' .eccentricity rfl (by decide)) h1 (none' .turningAngle rfl (by decide))
        rw [hx, ← hv]
        rw [EccentricityForms.complete_one rfl]
        rw [ecc_asymptotic hc]
    | _ => exact absurd hf (by decide)
  | all every =>
    have hx : x.ecc = c.elements.ecc := EccentricityForms.ext (hd.all (every .eccentricity rfl)) (hd.all (every .asymptoticTrueAnomaly rfl)) (hd.all (every .turningAngle rfl))
    rw [hx]
    rfl

theorem sma_specified (hs : CategorySpecified x 2) : x.sma.complete (num c.μ) = some c.elements.sma := by
  cases hs with
  | one f hf only =>
    have none' : ∀ g : Element, g.category = 2 → g ≠ f → x.get g = none := fun g hg hne => is_none fun h' => hne ((only g hg).1 h')
    cases f with
    | semimajorAxis =>
      obtain ⟨v, h1, h2, -⟩ := hd.only _ hf only ⟨.period, rfl, by decide⟩
      have hx : x.sma = { semimajorAxis := some v } := SemimajorForms.ext h1
        (none' .specificEnergy rfl (by decide)) (none' .characteristicEnergy rfl (by decide)) (none' .meanMotion rfl (by decide)) (none' .period rfl (by decide))
        (none' .hyperbolicMeanMotion rfl (by decide)) (none' .hyperbolicExcessVelocity rfl (by decide))
      rw [hx, ← Option.some.inj h2]
      rw [SemimajorForms.complete_one rfl]
      rcases hc with hc | hc
      · rw [sma_a hc]
      · rw [sma_a' hc]
    | specificEnergy =>
      obtain ⟨v, h1, h2, -⟩ := hd.only _ hf only ⟨.period, rfl, by decide⟩
      have hx : x.sma = { specificEnergy := some v } := SemimajorForms.ext (none' .semimajorAxis rfl (by decide))
        h1 (none' .characteristicEnergy rfl (by decide)) (none' .meanMotion rfl (by decide)) (none' .period rfl (by decide))
        (none' .hyperbolicMeanMotion rfl (by decide)) (none' .hyperbolicExcessVelocity rfl (by decide))
      rw [hx, ← Option.some.inj h2]
      rw [SemimajorForms.complete_one rfl]
      rcases hc with hc | hc
      · rw [sma_energy hc]
      · rw [sma_energy' hc]
    | characteristicEnergy =>
      obtain ⟨v, h1, h2, -⟩ := hd.only _ hf only ⟨.period, rfl, by decide⟩
      have hx : x.sma = { characteristicEnergy := some v } := SemimajorForms.ext (none' .semimajorAxis rfl (by decide))
        (none' .specificEnergy rfl (by decide)) h1 (none' .meanMotion rfl (by decide)) (none' .period rfl (by decide))
        (none' .hyperbolicMeanMotion rfl (by decide)) (none' .hyperbolicExcessVelocity rfl (by decide))
      rw [hx, ← Option.some.inj h2]
      rw [SemimajorForms.complete_one rfl]
      rcases hc with hc | hc
      · rw [sma_c3 hc]
      · rw [sma_c3' hc]
    | meanMotion =>
      obtain ⟨v, h1, h2, h3⟩ := hd.only _ hf only ⟨.period, rfl, by decide⟩
      have hv : c.ellipse √(c.μ / c.a ^ 3) = v := Option.some.inj h2
      rcases hc with hc | hc
      · have hx : x.sma = { meanMotion := some v } := SemimajorForms.ext (none' .semimajorAxis rfl (by decide))
          (none' .specificEnergy rfl (by decide)) (none' .characteristicEnergy rfl (by decide)) h1 (none' .period rfl (by decide))
          (none' .hyperbolicMeanMotion rfl (by decide)) (none' .hyperbolicExcessVelocity rfl (by decide))
        rw [hx, ← hv, hc.ellipse]
        rw [SemimajorForms.complete_one rfl]
        rw [sma_n hc]
      · exact absurd (hv.symm.trans (hc.ellipse _)) h3
    | period =>
      obtain ⟨v, h1, h2, h3⟩ := hd.only _ hf only ⟨.meanMotion, rfl, by decide⟩
      have hv : c.ellipse (2 * π / √(c.μ / c.a ^ 3)) = v := Option.some.inj h2
      rcases hc with hc | hc
      · have hx : x.sma = { period := some v } := SemimajorForms.ext (none' .semimajorAxis rfl (by decide))
          (none' .specificEnergy rfl (by decide)) (none' .characteristicEnergy rfl (by decide)) (none' .meanMotion rfl (by decide)) h1
          (none' .hyperbolicMeanMotion rfl (by decide)) (none' .hyperbolicExcessVelocity rfl (by decide))
        rw [hx, ← hv, hc.ellipse]
        rw [SemimajorForms.complete_one rfl]
        rw [sma_T hc]
      · exact absurd (hv.symm.trans (hc.ellipse _)) h3
    | hyperbolicMeanMotion =>
      obtain ⟨v, h1, h2, h3⟩ := hd.only _ hf only ⟨.period, rfl, by decide⟩
      have hv : c.hyperbola √(c.μ / (-c.a) ^ 3) = v := Option.some.inj h2
      rcases hc with hc | hc
      · exact absurd (hv.symm.trans (hc.hyperbola _)) h3
      · have hx : x.sma = { hyperbolicMeanMotion := some v } := SemimajorForms.ext (none' .semimajorAxis rfl (by decide))
          (none' .specificEnergy rfl (by decide)) (none' .characteristicEnergy rfl (by decide)) (none' .meanMotion rfl (by decide)) (none' .period rfl (by decide))
          h1 (none' .hyperbolicExcessVelocity rfl (by decide))
        rw [hx, ← hv, hc.hyperbola]
        rw [SemimajorForms.complete_one rfl]
        rw [sma_m hc]
    | hyperbolicExcessVelocity =>
      obtain ⟨v, h1, h2, h3⟩ := hd.only _ hf only ⟨.period, rfl, by decide⟩
      have hv : c.hyperbola √(c.μ / -c.a) = v := Option.some.inj h2
      rcases hc with hc | hc
      · exact absurd (hv.symm.trans (hc.hyperbola _)) h3
      · have hx : x.sma = { hyperbolicExcessVelocity := some v } := SemimajorForms.ext (none' .semimajorAxis rfl (by decide))
          (none' .specificEnergy rfl (by decide)) (none' .characteristicEnergy rfl (by decide)) (none' .meanMotion rfl (by decide)) (none' .period rfl (by decide))
          (none' .hyperbolicMeanMotion rfl (by decide)) h1
        rw [hx, ← hv, hc.hyperbola]
        rw [SemimajorForms.complete_one rfl]
        rw [sma_v hc]
    | _ => exact absurd hf (by decide)
  | all every =>
    have hx : x.sma = c.elements.sma := SemimajorForms.ext (hd.all (every .semimajorAxis rfl)) (hd.all (every .specificEnergy rfl)) (hd.all (every .characteristicEnergy rfl))
      (hd.all (every .meanMotion rfl)) (hd.all (every .period rfl)) (hd.all (every .hyperbolicMeanMotion rfl)) (hd.all (every .hyperbolicExcessVelocity rfl))
    rw [hx]
    rfl

theorem smi_specified (hs : CategorySpecified x 3) : x.smi.complete = some c.elements.smi := by
  cases hs with
  | one f hf only =>
    have none' : ∀ g : Element, g.category = 3 → g ≠ f → x.get g = none := fun g hg hne => is_none fun h' => hne ((only g hg).1 h')
    cases f with
    | semiminorAxis =>
      obtain ⟨v, h1, h2, h3⟩ := hd.only _ hf only ⟨.impactParameter, rfl, by decide⟩
      have hv : c.ellipse (c.a * √(1 - c.e ^ 2)) = v := Option.some.inj h2
      rcases hc with hc | hc
      · have hx : x.smi = { semiminorAxis := some v } := SemiminorForms.ext h1 (none' .impactParameter rfl (by decide))
        rw [hx, ← hv, hc.ellipse]
        rw [SemiminorForms.complete_one rfl]
        rw [smi_b hc]
      · exact absurd (hv.symm.trans (hc.ellipse _)) h3
    | impactParameter =>
      obtain ⟨v, h1, h2, h3⟩ := hd.only _ hf only ⟨.semiminorAxis, rfl, by decide⟩
      have hv : c.hyperbola (-c.a * √(c.e ^ 2 - 1)) = v := Option.some.inj h2
      rcases hc with hc | hc
      · exact absurd (hv.symm.trans (hc.hyperbola _)) h3
      · have hx : x.smi = { impactParameter := some v } := SemiminorForms.ext (none' .semiminorAxis rfl (by decide)) h1
        rw [hx, ← hv, hc.hyperbola]
        rw [SemiminorForms.complete_one rfl]
        rw [smi_p hc]
    | _ => exact absurd hf (by decide)
  | all every =>
    have hx : x.smi = c.elements.smi := SemiminorForms.ext (hd.all (every .semiminorAxis rfl)) (hd.all (every .impactParameter rfl))
    rw [hx]
    rfl

theorem slr_specified (hs : CategorySpecified x 4) : x.slr.complete (num c.μ) = some c.elements.slr := by
  cases hs with
  | one f hf only =>
    have none' : ∀ g : Element, g.category = 4 → g ≠ f → x.get g = none := fun g hg hne => is_none fun h' => hne ((only g hg).1 h')
    cases f with
    | semilatusRectum =>
      obtain ⟨v, h1, h2, h3⟩ := hd.only _ hf only ⟨.specificAngularMomentum, rfl, by decide⟩
      have hx : x.slr = { semilatusRectum := some v } := SemilatusForms.ext h1 (none' .specificAngularMomentum rfl (by decide))
      rw [hx, ← Option.some.inj h2]
      rw [SemilatusForms.complete_one rfl]
      rw [slr_l hc]
    | specificAngularMomentum =>
      obtain ⟨v, h1, h2, h3⟩ := hd.only _ hf only ⟨.semilatusRectum, rfl, by decide⟩
      have hx : x.slr = { specificAngularMomentum := some v } := SemilatusForms.ext (none' .semilatusRectum rfl (by decide)) h1
      rw [hx, ← Option.some.inj h2]
      rw [SemilatusForms.complete_one rfl]
      rw [slr_h hc]
    | _ => exact absurd hf (by decide)
  | all every =>
    have hx : x.slr = c.elements.slr := SemilatusForms.ext (hd.all (every .semilatusRectum rfl)) (hd.all (every .specificAngularMomentum rfl))
    rw [hx]
    rfl

theorem pe_specified (hs : CategorySpecified x 5) : x.periapsisDistance = c.elements.periapsisDistance := by
  have : (x.get .periapsisDistance).isSome := by
    cases hs with
    | one f hf only =>
      cases f with
      | periapsisDistance => exact (only _ rfl).2 rfl
      | _ => exact absurd hf (by decide)
    | all every => exact every _ rfl
  exact hd.all this

theorem ap_specified (hs : CategorySpecified x 6) : x.apoapsisDistance = c.elements.apoapsisDistance := by
  have : (x.get .apoapsisDistance).isSome := by
    cases hs with
    | one f hf only =>
      cases f with
      | apoapsisDistance => exact (only _ rfl).2 rfl
      | _ => exact absurd hf (by decide)
    | all every => exact every _ rfl
  exact hd.all this

end

theorem ecc_empty (h : CategoryEmpty x 1) : x.ecc = {} := EccentricityForms.ext (h .eccentricity rfl) (h .asymptoticTrueAnomaly rfl) (h .turningAngle rfl)
theorem sma_empty (h : CategoryEmpty x 2) : x.sma = {} := SemimajorForms.ext (h .semimajorAxis rfl) (h .specificEnergy rfl) (h .characteristicEnergy rfl)
  (h .meanMotion rfl) (h .period rfl) (h .hyperbolicMeanMotion rfl) (h .hyperbolicExcessVelocity rfl)
theorem smi_empty (h : CategoryEmpty x 3) : x.smi = {} := SemiminorForms.ext (h .semiminorAxis rfl) (h .impactParameter rfl)
theorem slr_empty (h : CategoryEmpty x 4) : x.slr = {} := SemilatusForms.ext (h .semilatusRectum rfl) (h .specificAngularMomentum rfl)
theorem pe_empty (h : CategoryEmpty x 5) : x.periapsisDistance = none := h .periapsisDistance rfl
theorem ap_empty (h : CategoryEmpty x 6) : x.apoapsisDistance = none := h .apoapsisDistance rfl

theorem Mid.complete {y : ConicElements} (hc : c.IsEllipse ∨ c.IsHyperbola) (h : Mid c y) : y.completeByCategory (num c.μ) = some c.elements := by
  obtain ⟨h1, h2, h3, h4, h5, h6⟩ := h
  have e1 : y.ecc.complete = some c.elements.ecc := by
    rcases h1 with h1 | h1 <;> rw [h1]
    · rfl
    · rw [EccentricityForms.complete_one rfl]
      rcases hc with hc | hc
      · rw [ecc_ellipse hc]
      · rw [ecc_hyperbola hc]
  have e2 : y.sma.complete (num c.μ) = some c.elements.sma := by
    rcases h2 with h2 | h2 <;> rw [h2]
    · rfl
    · rw [SemimajorForms.complete_one rfl]
      rcases hc with hc | hc
      · rw [sma_a hc]
      · rw [sma_a' hc]
  have e3 : y.smi.complete = some c.elements.smi := by rw [h3]; rfl
  have e4 : y.slr.complete (num c.μ) = some c.elements.slr := by
    rcases h4 with h4 | h4 <;> rw [h4]
    · rfl
    · rw [SemilatusForms.complete_one rfl]
      rw [slr_l hc]
  unfold ConicElements.completeByCategory
  rw [e1, e2, e3, e4]
  show some (ConicElements.mk _ _ _ _ _ _) = _
  rw [h5, h6]

theorem complete_of {μ : Fl} {y : ConicElements} {ecc : EccentricityForms} {sma : SemimajorForms} {smi : SemiminorForms} {slr : SemilatusForms} {pe ap : Option Fl}
    (h1 : x.ecc.complete = some ecc) (h2 : x.sma.complete μ = some sma) (h3 : x.smi.complete = some smi) (h4 : x.slr.complete μ = some slr)
    (h5 : x.periapsisDistance = pe) (h6 : x.apoapsisDistance = ap) (hy : y = ⟨ecc, sma, smi, slr, pe, ap⟩) :
    x.completeByCategory μ = some y := by
  unfold ConicElements.completeByCategory
  rw [h1, h2, h3, h4, hy, ← h5, ← h6]

theorem complete_mid {y : ConicElements} (hc : c.IsEllipse ∨ c.IsHyperbola) (h : x.completeByCategory (num c.μ) = some y) (h2 : y.categories = 2) (hm : Mid c y.combine) :
    x.complete (num c.μ) = some c.elements := by
  unfold ConicElements.complete
  rw [h]
  show (if y.categories = 2 then y.combine.completeByCategory (num c.μ) else none) = _
  rw [if_pos h2, hm.complete hc]

/-- C55: when the elements given are those of an ellipse or of a hyperbola, and determine it minimally, that is, are from two categories, the completion yields all
the elements of that conic. -/
theorem C55_conic (hc : c.IsEllipse ∨ c.IsHyperbola) (hd : Describes x c) (hm : MinimallySpecified x) : x.complete (num c.μ) = some c.elements := by
  have key : ∀ j k, j < k → j ∈ Finset.Icc 1 6 → k ∈ Finset.Icc 1 6 → CategorySpecified x j → CategorySpecified x k →
      (∀ l ∈ Finset.Icc 1 6, l ≠ j → l ≠ k → CategoryEmpty x l) → x.complete (num c.μ) = some c.elements := by
    intro j k hjk hj hk sj sk hl
    have e1 : 1 ≠ j → 1 ≠ k → x.ecc.complete = some {} := fun h h' => by rw [ecc_empty (hl 1 (by decide) h h')]; rfl
    have e2 : 2 ≠ j → 2 ≠ k → x.sma.complete (num c.μ) = some {} := fun h h' => by rw [sma_empty (hl 2 (by decide) h h')]; rfl
    have e3 : 3 ≠ j → 3 ≠ k → x.smi.complete = some {} := fun h h' => by rw [smi_empty (hl 3 (by decide) h h')]; rfl
    have e4 : 4 ≠ j → 4 ≠ k → x.slr.complete (num c.μ) = some {} := fun h h' => by rw [slr_empty (hl 4 (by decide) h h')]; rfl
    have e5 : 5 ≠ j → 5 ≠ k → x.periapsisDistance = none := fun h h' => pe_empty (hl 5 (by decide) h h')
    have e6 : 6 ≠ j → 6 ≠ k → x.apoapsisDistance = none := fun h h' => ap_empty (hl 6 (by decide) h h')
    rw [Finset.mem_Icc] at hj hk
    obtain ⟨hj1, hj2⟩ := hj
    obtain ⟨hk1, hk2⟩ := hk
    interval_cases j <;> interval_cases k <;> first | exact absurd hjk (by decide) | skip
    · exact complete_mid hc (complete_of (ecc_specified hc hd sj) (sma_specified hc hd sk) (e3 (by decide) (by decide)) (e4 (by decide) (by decide))
        (e5 (by decide) (by decide)) (e6 (by decide) (by decide)) rfl) rfl (combine_ea hc)
    · exact complete_mid hc (complete_of (ecc_specified hc hd sj) (e2 (by decide) (by decide)) (smi_specified hc hd sk) (e4 (by decide) (by decide))
        (e5 (by decide) (by decide)) (e6 (by decide) (by decide)) rfl) rfl (combine_eb hc)
    · exact complete_mid hc (complete_of (ecc_specified hc hd sj) (e2 (by decide) (by decide)) (e3 (by decide) (by decide)) (slr_specified hc hd sk)
        (e5 (by decide) (by decide)) (e6 (by decide) (by decide)) rfl) rfl (combine_el hc)
    · exact complete_mid hc (complete_of (ecc_specified hc hd sj) (e2 (by decide) (by decide)) (e3 (by decide) (by decide)) (e4 (by decide) (by decide))
        (pe_specified hc hd sk) (e6 (by decide) (by decide)) rfl) rfl (combine_ep hc)
    · exact complete_mid hc (complete_of (ecc_specified hc hd sj) (e2 (by decide) (by decide)) (e3 (by decide) (by decide)) (e4 (by decide) (by decide))
        (e5 (by decide) (by decide)) (ap_specified hc hd sk) rfl) rfl (combine_eq hc)
    · exact complete_mid hc (complete_of (e1 (by decide) (by decide)) (sma_specified hc hd sj) (smi_specified hc hd sk) (e4 (by decide) (by decide))
        (e5 (by decide) (by decide)) (e6 (by decide) (by decide)) rfl) rfl (combine_ab hc)
    · exact complete_mid hc (complete_of (e1 (by decide) (by decide)) (sma_specified hc hd sj) (e3 (by decide) (by decide)) (slr_specified hc hd sk)
        (e5 (by decide) (by decide)) (e6 (by decide) (by decide)) rfl) rfl (combine_al hc)
    · exact complete_mid hc (complete_of (e1 (by decide) (by decide)) (sma_specified hc hd sj) (e3 (by decide) (by decide)) (e4 (by decide) (by decide))
        (pe_specified hc hd sk) (e6 (by decide) (by decide)) rfl) rfl (combine_ap hc)
    · exact complete_mid hc (complete_of (e1 (by decide) (by decide)) (sma_specified hc hd sj) (e3 (by decide) (by decide)) (e4 (by decide) (by decide))
        (e5 (by decide) (by decide)) (ap_specified hc hd sk) rfl) rfl (combine_aq hc)
    · exact complete_mid hc (complete_of (e1 (by decide) (by decide)) (e2 (by decide) (by decide)) (smi_specified hc hd sj) (slr_specified hc hd sk)
        (e5 (by decide) (by decide)) (e6 (by decide) (by decide)) rfl) rfl (combine_bl hc)
    · exact complete_mid hc (complete_of (e1 (by decide) (by decide)) (e2 (by decide) (by decide)) (smi_specified hc hd sj) (e4 (by decide) (by decide))
        (pe_specified hc hd sk) (e6 (by decide) (by decide)) rfl) rfl (combine_bp hc)
    · exact complete_mid hc (complete_of (e1 (by decide) (by decide)) (e2 (by decide) (by decide)) (smi_specified hc hd sj) (e4 (by decide) (by decide))
        (e5 (by decide) (by decide)) (ap_specified hc hd sk) rfl) rfl (combine_bq hc)
    · exact complete_mid hc (complete_of (e1 (by decide) (by decide)) (e2 (by decide) (by decide)) (e3 (by decide) (by decide)) (slr_specified hc hd sj)
        (pe_specified hc hd sk) (e6 (by decide) (by decide)) rfl) rfl (combine_lp hc)
    · exact complete_mid hc (complete_of (e1 (by decide) (by decide)) (e2 (by decide) (by decide)) (e3 (by decide) (by decide)) (slr_specified hc hd sj)
        (e5 (by decide) (by decide)) (ap_specified hc hd sk) rfl) rfl (combine_lq hc)
    · exact complete_mid hc (complete_of (e1 (by decide) (by decide)) (e2 (by decide) (by decide)) (e3 (by decide) (by decide)) (e4 (by decide) (by decide))
        (pe_specified hc hd sj) (ap_specified hc hd sk) rfl) rfl (combine_pq hc)
  obtain ⟨j, k, hj, hk, hne, sj, sk, hl⟩ := hm
  rcases lt_or_gt_of_ne hne with h | h
  · exact key j k h hj hk sj sk hl
  · exact key k j h hk hj sk sj fun l hl' h1 h2 => hl l hl' h2 h1

end Principia.Physics.Kepler
