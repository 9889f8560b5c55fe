import Verif.Geometry.MapsProps

/-!
C37, continued: permutations, angles, homothecies, conformal maps and affine maps.
-/

set_option linter.unusedSimpArgs false
set_option linter.unusedVariables false
set_option linter.unusedSectionVars false

namespace Principia.Geometry

/-! ### Permutations -/

namespace Permutation

instance (p : Permutation) : Decidable p.Valid := by unfold Valid; infer_instance

theorem valid_cases {p : Permutation} (h : p.Valid) :
    p = ⟨true, XYZ⟩ ∨ p = ⟨true, YZX⟩ ∨ p = ⟨true, ZXY⟩ ∨ p = ⟨false, XZY⟩ ∨ p = ⟨false, ZYX⟩ ∨ p = ⟨false, YXZ⟩ := by
  obtain ⟨same, c⟩ := p
  cases same <;> simp [Valid] at h <;> simp [h]

variable {K : Type}

theorem apply_XYZ (v : R3 K) : apply ⟨true, XYZ⟩ v = some ⟨v.x, v.y, v.z⟩ := rfl
theorem apply_YZX (v : R3 K) : apply ⟨true, YZX⟩ v = some ⟨v.y, v.z, v.x⟩ := rfl
theorem apply_ZXY (v : R3 K) : apply ⟨true, ZXY⟩ v = some ⟨v.z, v.x, v.y⟩ := rfl
theorem apply_XZY (v : R3 K) : apply ⟨false, XZY⟩ v = some ⟨v.x, v.z, v.y⟩ := rfl
theorem apply_ZYX (v : R3 K) : apply ⟨false, ZYX⟩ v = some ⟨v.z, v.y, v.x⟩ := rfl
theorem apply_YXZ (v : R3 K) : apply ⟨false, YXZ⟩ v = some ⟨v.y, v.x, v.z⟩ := rfl

theorem determinant_valid {p : Permutation} (h : p.Valid) : p.determinant = some (if p.same then .Positive else .Negative) := by
  rcases valid_cases h with rfl | rfl | rfl | rfl | rfl | rfl <;> decide

/-- Permutations act on multivectors as orthogonal maps, without any failure. -/
theorem C37_permutation (p : Permutation) (hp : p.Valid) [CommRing K] :
    ∃ f g h, (∀ v : R3 K, p.apply v = some (f v)) ∧ (∀ b : R3 K, p.applyBivector b = some (g b)) ∧ (∀ t : K, p.applyTrivector t = some (h t)) ∧
      OrthogonalAction p.same f g h ∧ p.determinant = some (if p.same then .Positive else .Negative) := by
  have hd := determinant_valid hp
  rcases valid_cases hp with rfl | rfl | rfl | rfl | rfl | rfl
  · refine ⟨fun v => ⟨v.x, v.y, v.z⟩, fun v => ⟨v.x, v.y, v.z⟩, id, apply_XYZ, fun b => ?_, fun t => ?_, OrthogonalAction.ofRotation ?_ ?_ ?_ ?_, hd⟩
    · rw [applyBivector, hd, apply_XYZ]; rfl
    · rw [applyTrivector, hd]; rfl
    all_goals intros; first | (ext <;> simp [R3.cross] <;> ring) | (simp [R3.dot] <;> ring)
  · refine ⟨fun v => ⟨v.y, v.z, v.x⟩, fun v => ⟨v.y, v.z, v.x⟩, id, apply_YZX, fun b => ?_, fun t => ?_, OrthogonalAction.ofRotation ?_ ?_ ?_ ?_, hd⟩
    · rw [applyBivector, hd, apply_YZX]; rfl
    · rw [applyTrivector, hd]; rfl
    all_goals intros; first | (ext <;> simp [R3.cross] <;> ring) | (simp [R3.dot] <;> ring)
  · refine ⟨fun v => ⟨v.z, v.x, v.y⟩, fun v => ⟨v.z, v.x, v.y⟩, id, apply_ZXY, fun b => ?_, fun t => ?_, OrthogonalAction.ofRotation ?_ ?_ ?_ ?_, hd⟩
    · rw [applyBivector, hd, apply_ZXY]; rfl
    · rw [applyTrivector, hd]; rfl
    all_goals intros; first | (ext <;> simp [R3.cross] <;> ring) | (simp [R3.dot] <;> ring)
  all_goals
    have key : ∀ f : R3 K → R3 K, OrthogonalAction true (fun v => -f v) (fun v => -f v) id → OrthogonalAction false f (fun v => -f v) (fun t => -t) := by
      intro f h
      have := h.inversion
      simpa only [R3.neg_neg'] using this
  · refine ⟨fun v => ⟨v.x, v.z, v.y⟩, fun v => -⟨v.x, v.z, v.y⟩, fun t => -t, apply_XZY, fun b => ?_, fun t => ?_,
      key _ (OrthogonalAction.ofRotation ?_ ?_ ?_ ?_), hd⟩
    · rw [applyBivector, hd, apply_XZY]; rfl
    · rw [applyTrivector, hd]; rfl
    all_goals intros; first | (ext <;> simp [R3.cross] <;> ring) | (simp [R3.dot] <;> ring)
  · refine ⟨fun v => ⟨v.z, v.y, v.x⟩, fun v => -⟨v.z, v.y, v.x⟩, fun t => -t, apply_ZYX, fun b => ?_, fun t => ?_,
      key _ (OrthogonalAction.ofRotation ?_ ?_ ?_ ?_), hd⟩
    · rw [applyBivector, hd, apply_ZYX]; rfl
    · rw [applyTrivector, hd]; rfl
    all_goals intros; first | (ext <;> simp [R3.cross] <;> ring) | (simp [R3.dot] <;> ring)
  · refine ⟨fun v => ⟨v.y, v.x, v.z⟩, fun v => -⟨v.y, v.x, v.z⟩, fun t => -t, apply_YXZ, fun b => ?_, fun t => ?_,
      key _ (OrthogonalAction.ofRotation ?_ ?_ ?_ ?_), hd⟩
    · rw [applyBivector, hd, apply_YXZ]; rfl
    · rw [applyTrivector, hd]; rfl
    all_goals intros; first | (ext <;> simp [R3.cross] <;> ring) | (simp [R3.dot] <;> ring)

/-- A permutation of the coordinates determines the permutation of the indices. -/
theorem represents_unique {p : Permutation} {σ τ : Equiv.Perm (Fin 3)} (hσ : p.Represents σ) (hτ : p.Represents τ) : σ = τ := by
  obtain ⟨w, h1, h2⟩ := hσ (Fin 3) ⟨0, 1, 2⟩
  obtain ⟨w', h3, h4⟩ := hτ (Fin 3) ⟨0, 1, 2⟩
  cases h1.symm.trans h3
  have hid : ∀ i : Fin 3, (⟨0, 1, 2⟩ : R3 (Fin 3)).vec i = i := by decide
  ext i
  rw [← hid (σ i), ← hid (τ i), ← h2, ← h4]

/-- The six permutations. -/
theorem represents_table (σ : Equiv.Perm (Fin 3)) (a b c : Fin 3) (p : Permutation) (h0 : σ 0 = a) (h1 : σ 1 = b) (h2 : σ 2 = c)
    (h : ∀ (K : Type) (v : R3 K), p.apply v = some ⟨v.vec a, v.vec b, v.vec c⟩) : p.Represents σ := by
  intro K v
  refine ⟨_, h K v, fun i => ?_⟩
  match i with
  | 0 => rw [h0]; rfl
  | 1 => rw [h1]; rfl
  | 2 => rw [h2]; rfl

/-- The permutation of the indices that corresponds to a permutation. -/
theorem exists_represents {p : Permutation} (hp : p.Valid) :
    ∃ σ : Equiv.Perm (Fin 3), p.Represents σ ∧ (Equiv.Perm.sign σ = if p.same then 1 else -1) := by
  have hsur : ∀ a b c : Fin 3, a ≠ b → b ≠ c → a ≠ c → ∃ σ : Equiv.Perm (Fin 3), σ 0 = a ∧ σ 1 = b ∧ σ 2 = c := by decide +kernel
  have hsign : ∀ σ : Equiv.Perm (Fin 3), Equiv.Perm.sign σ = if σ 1 = σ 0 + 1 then 1 else -1 := by decide +kernel
  rcases valid_cases hp with rfl | rfl | rfl | rfl | rfl | rfl
  · obtain ⟨σ, h0, h1, h2⟩ := hsur 0 1 2 (by decide) (by decide) (by decide)
    exact ⟨σ, represents_table σ 0 1 2 _ h0 h1 h2 fun _ => apply_XYZ, by rw [hsign, h0, h1]; rfl⟩
  · obtain ⟨σ, h0, h1, h2⟩ := hsur 1 2 0 (by decide) (by decide) (by decide)
    exact ⟨σ, represents_table σ 1 2 0 _ h0 h1 h2 fun _ => apply_YZX, by rw [hsign, h0, h1]; rfl⟩
  · obtain ⟨σ, h0, h1, h2⟩ := hsur 2 0 1 (by decide) (by decide) (by decide)
    exact ⟨σ, represents_table σ 2 0 1 _ h0 h1 h2 fun _ => apply_ZXY, by rw [hsign, h0, h1]; rfl⟩
  · obtain ⟨σ, h0, h1, h2⟩ := hsur 0 2 1 (by decide) (by decide) (by decide)
    exact ⟨σ, represents_table σ 0 2 1 _ h0 h1 h2 fun _ => apply_XZY, by rw [hsign, h0, h1]; rfl⟩
  · obtain ⟨σ, h0, h1, h2⟩ := hsur 2 1 0 (by decide) (by decide) (by decide)
    exact ⟨σ, represents_table σ 2 1 0 _ h0 h1 h2 fun _ => apply_ZYX, by rw [hsign, h0, h1]; rfl⟩
  · obtain ⟨σ, h0, h1, h2⟩ := hsur 1 0 2 (by decide) (by decide) (by decide)
    exact ⟨σ, represents_table σ 1 0 2 _ h0 h1 h2 fun _ => apply_YXZ, by rw [hsign, h0, h1]; rfl⟩

/-- A valid permutation permutes the coordinates by a permutation of the indices, and its determinant is the sign of the latter. -/
theorem C37_permutation_sign (p : Permutation) (hp : p.Valid) :
    ∃! σ : Equiv.Perm (Fin 3), p.Represents σ ∧ (Equiv.Perm.sign σ = if p.same then 1 else -1) ∧
      p.determinant = some (if Equiv.Perm.sign σ = 1 then .Positive else .Negative) := by
  obtain ⟨σ, h1, h2⟩ := exists_represents hp
  refine ⟨σ, ⟨h1, h2, ?_⟩, fun τ h => represents_unique h.1 h1⟩
  rw [determinant_valid hp, h2]
  cases p.same <;> simp

/-- Each permutation of the indices is that of exactly one valid permutation. -/
theorem C37_permutation_complete (σ : Equiv.Perm (Fin 3)) : ∃! p : Permutation, p.Valid ∧ p.Represents σ := by
  have hall : ∀ σ : Equiv.Perm (Fin 3), (σ 0 = 0 ∧ σ 1 = 1 ∧ σ 2 = 2) ∨ (σ 0 = 1 ∧ σ 1 = 2 ∧ σ 2 = 0) ∨ (σ 0 = 2 ∧ σ 1 = 0 ∧ σ 2 = 1) ∨
      (σ 0 = 0 ∧ σ 1 = 2 ∧ σ 2 = 1) ∨ (σ 0 = 2 ∧ σ 1 = 1 ∧ σ 2 = 0) ∨ (σ 0 = 1 ∧ σ 1 = 0 ∧ σ 2 = 2) := by decide +kernel
  have hex : ∃ p : Permutation, p.Valid ∧ p.Represents σ := by
    rcases hall σ with h | h | h | h | h | h
    · exact ⟨_, by decide, represents_table σ 0 1 2 ⟨true, XYZ⟩ h.1 h.2.1 h.2.2 fun _ => apply_XYZ⟩
    · exact ⟨_, by decide, represents_table σ 1 2 0 ⟨true, YZX⟩ h.1 h.2.1 h.2.2 fun _ => apply_YZX⟩
    · exact ⟨_, by decide, represents_table σ 2 0 1 ⟨true, ZXY⟩ h.1 h.2.1 h.2.2 fun _ => apply_ZXY⟩
    · exact ⟨_, by decide, represents_table σ 0 2 1 ⟨false, XZY⟩ h.1 h.2.1 h.2.2 fun _ => apply_XZY⟩
    · exact ⟨_, by decide, represents_table σ 2 1 0 ⟨false, ZYX⟩ h.1 h.2.1 h.2.2 fun _ => apply_ZYX⟩
    · exact ⟨_, by decide, represents_table σ 1 0 2 ⟨false, YXZ⟩ h.1 h.2.1 h.2.2 fun _ => apply_YXZ⟩
  obtain ⟨p, hp, hσ⟩ := hex
  refine ⟨p, ⟨hp, hσ⟩, ?_⟩
  rintro q ⟨hq, hσ'⟩
  have hsame : q.apply (⟨0, 1, 2⟩ : R3 (Fin 3)) = p.apply ⟨0, 1, 2⟩ := by
    obtain ⟨w, h1, h2⟩ := hσ (Fin 3) ⟨0, 1, 2⟩
    obtain ⟨w', h3, h4⟩ := hσ' (Fin 3) ⟨0, 1, 2⟩
    rw [h1, h3]
    congr 1
    have := fun i => (h4 i).trans (h2 i).symm
    ext1
    · exact this 0
    · exact this 1
    · exact this 2
  rcases valid_cases hp with rfl | rfl | rfl | rfl | rfl | rfl <;> rcases valid_cases hq with rfl | rfl | rfl | rfl | rfl | rfl <;>
    first | rfl | (exfalso; revert hsame; decide)

/-- The product of two valid permutations exists, is valid and is their composition. -/
theorem C37_permutation_compose (p q : Permutation) (hp : p.Valid) (hq : q.Valid) :
    ∃ r, p.mul q = some r ∧ r.Valid ∧ r.same = (p.same == q.same) ∧ ∀ (K : Type) (v : R3 K), r.apply v = (q.apply v).bind p.apply := by
  rcases valid_cases hp with rfl | rfl | rfl | rfl | rfl | rfl <;> rcases valid_cases hq with rfl | rfl | rfl | rfl | rfl | rfl <;>
    exact ⟨_, rfl, by decide, rfl, fun K v => rfl⟩

/-- The inverse of a valid permutation exists, is valid and undoes it. -/
theorem C37_permutation_inverse (p : Permutation) (hp : p.Valid) :
    identity.Valid ∧ (∀ (K : Type) (v : R3 K), identity.apply v = some v) ∧
      ∃ r, p.inverse = some r ∧ r.Valid ∧ r.same = p.same ∧
        ∀ (K : Type) (v : R3 K), (p.apply v).bind r.apply = some v ∧ (r.apply v).bind p.apply = some v := by
  refine ⟨by decide, fun K v => rfl, ?_⟩
  rcases valid_cases hp with rfl | rfl | rfl | rfl | rfl | rfl <;>
    exact ⟨_, rfl, by decide, rfl, fun K v => ⟨rfl, rfl⟩⟩

/-- Forgetting that a map is a permutation does not change how it acts. -/
theorem C37_permutation_forget (p : Permutation) (hp : p.Valid) :
    ∃ m, p.forgetOrthogonal = some m ∧ m.IsUnit ∧ m.same = p.same ∧
      ∀ v : R3 ℝ, p.apply v = some (m.apply v) ∧ p.applyBivector v = some (m.applyBivector v) := by
  have hh : √(0.5 : ℝ) * √(0.5 : ℝ) = 1 / 2 := by rw [Real.mul_self_sqrt (by norm_num)]; norm_num
  have hh2 : √(1 / 2 : ℝ) ^ 2 = 1 / 2 := Real.sq_sqrt (by norm_num)
  have hd := determinant_valid hp
  rcases valid_cases hp with rfl | rfl | rfl | rfl | rfl | rfl
  · refine ⟨_, rfl, ?_, rfl, fun v => ⟨?_, ?_⟩⟩
    · norm_num [OrthogonalMap.IsUnit, Quat.normSq, R3.normSq, Quat.ofReal]
    · rw [OrthogonalMap.apply_eq, apply_XYZ]; simp [Rotation.apply, R3.cross, Quat.ofReal, R3.ext_iff] 
    · rw [OrthogonalMap.applyBivector_eq, applyBivector, hd, apply_XYZ]; simp [Rotation.apply, R3.cross, Quat.ofReal, R3.ext_iff, Sign.act, Sign.Positive]
  · refine ⟨_, rfl, ?_, rfl, fun v => ⟨?_, ?_⟩⟩
    · norm_num [OrthogonalMap.IsUnit, Quat.normSq, R3.normSq]
    · rw [OrthogonalMap.apply_eq, apply_YZX]; simp [Rotation.apply, R3.cross, R3.ext_iff]; refine ⟨?_, ?_, ?_⟩ <;> ring
    · rw [OrthogonalMap.applyBivector_eq, applyBivector, hd, apply_YZX]; simp [Rotation.apply, R3.cross, R3.ext_iff, Sign.act, Sign.Positive]
      refine ⟨?_, ?_, ?_⟩ <;> ring
  · refine ⟨_, rfl, ?_, rfl, fun v => ⟨?_, ?_⟩⟩
    · norm_num [OrthogonalMap.IsUnit, Quat.normSq, R3.normSq]
    · rw [OrthogonalMap.apply_eq, apply_ZXY]; simp [Rotation.apply, R3.cross, R3.ext_iff]; refine ⟨?_, ?_, ?_⟩ <;> ring
    · rw [OrthogonalMap.applyBivector_eq, applyBivector, hd, apply_ZXY]; simp [Rotation.apply, R3.cross, R3.ext_iff, Sign.act, Sign.Positive]
      refine ⟨?_, ?_, ?_⟩ <;> ring
  · refine ⟨_, rfl, ?_, rfl, fun v => ⟨?_, ?_⟩⟩
    · simp only [OrthogonalMap.IsUnit, Quat.normSq, R3.normSq]; ring_nf; rw [hh2]; norm_num
    · rw [OrthogonalMap.apply_eq, apply_XZY]
      simp only [Bool.false_eq_true, if_false, Rotation.apply, R3.cross, R3.ext_iff, Option.some.injEq, R3.neg_x, R3.neg_y, R3.neg_z, R3.add_x, R3.add_y, R3.add_z,
        R3.smul_x, R3.smul_y, R3.smul_z]
      refine ⟨?_, ?_, ?_⟩ <;> ring_nf <;> rw [hh2] <;> ring
    · rw [OrthogonalMap.applyBivector_eq, applyBivector, hd, apply_XZY]
      simp only [Bool.false_eq_true, if_false, Rotation.apply, R3.cross, R3.ext_iff, Option.some.injEq, R3.neg_x, R3.neg_y, R3.neg_z, R3.add_x, R3.add_y, R3.add_z,
        R3.smul_x, R3.smul_y, R3.smul_z, Sign.act, Sign.Negative, if_true, Option.bind_some, Option.map_some]
      refine ⟨?_, ?_, ?_⟩ <;> ring_nf <;> rw [hh2] <;> ring
  · refine ⟨_, rfl, ?_, rfl, fun v => ⟨?_, ?_⟩⟩
    · simp only [OrthogonalMap.IsUnit, Quat.normSq, R3.normSq]; ring_nf; rw [hh2]; norm_num
    · rw [OrthogonalMap.apply_eq, apply_ZYX]
      simp only [Bool.false_eq_true, if_false, Rotation.apply, R3.cross, R3.ext_iff, Option.some.injEq, R3.neg_x, R3.neg_y, R3.neg_z, R3.add_x, R3.add_y, R3.add_z,
        R3.smul_x, R3.smul_y, R3.smul_z]
      refine ⟨?_, ?_, ?_⟩ <;> ring_nf <;> rw [hh2] <;> ring
    · rw [OrthogonalMap.applyBivector_eq, applyBivector, hd, apply_ZYX]
      simp only [Bool.false_eq_true, if_false, Rotation.apply, R3.cross, R3.ext_iff, Option.some.injEq, R3.neg_x, R3.neg_y, R3.neg_z, R3.add_x, R3.add_y, R3.add_z,
        R3.smul_x, R3.smul_y, R3.smul_z, Sign.act, Sign.Negative, if_true, Option.bind_some, Option.map_some]
      refine ⟨?_, ?_, ?_⟩ <;> ring_nf <;> rw [hh2] <;> ring
  · refine ⟨_, rfl, ?_, rfl, fun v => ⟨?_, ?_⟩⟩
    · simp only [OrthogonalMap.IsUnit, Quat.normSq, R3.normSq]; ring_nf; rw [hh2]; norm_num
    · rw [OrthogonalMap.apply_eq, apply_YXZ]
      simp only [Bool.false_eq_true, if_false, Rotation.apply, R3.cross, R3.ext_iff, Option.some.injEq, R3.neg_x, R3.neg_y, R3.neg_z, R3.add_x, R3.add_y, R3.add_z,
        R3.smul_x, R3.smul_y, R3.smul_z]
      refine ⟨?_, ?_, ?_⟩ <;> ring_nf <;> rw [hh2] <;> ring
    · rw [OrthogonalMap.applyBivector_eq, applyBivector, hd, apply_YXZ]
      simp only [Bool.false_eq_true, if_false, Rotation.apply, R3.cross, R3.ext_iff, Option.some.injEq, R3.neg_x, R3.neg_y, R3.neg_z, R3.add_x, R3.add_y, R3.add_z,
        R3.smul_x, R3.smul_y, R3.smul_z, Sign.act, Sign.Negative, if_true, Option.bind_some, Option.map_some]
      refine ⟨?_, ?_, ?_⟩ <;> ring_nf <;> rw [hh2] <;> ring

end Permutation

/-- The code of a permutation read from a message is not checked, and one that is not that of a permutation makes the application fail. -/
theorem C37_permutation_counterexample : Permutation.apply ⟨true, 63⟩ (⟨1, 2, 3⟩ : R3 Nat) = none ∧ Permutation.inverse ⟨true, 0xFFF⟩ = none := by
  decide

/-! ### Angles -/

theorem normSq_dot (v : R3 ℝ) : v.normSq = v.dot v := rfl

/-- The angle between two vectors is in [0, π]; its cosine and sine are given by the inner and wedge products. -/
theorem C37_angle_between (v w : R3 ℝ) :
    0 ≤ v.angleBetween w ∧ v.angleBetween w ≤ Real.pi ∧ Real.cos (v.angleBetween w) * (v.norm * w.norm) = v.dot w ∧
      Real.sin (v.angleBetween w) * (v.norm * w.norm) = (wedge v w).norm := by
  have hv := Rotation.norm_mul_self v
  have hw := Rotation.norm_mul_self w
  have hv0 : 0 ≤ v.norm := Real.sqrt_nonneg _
  have hw0 : 0 ≤ w.norm := Real.sqrt_nonneg _
  set a := w.norm • v + v.norm • w with ha
  set b := w.norm • v - v.norm • w with hb
  have ha0 : 0 ≤ a.norm := Real.sqrt_nonneg _
  have hb0 : 0 ≤ b.norm := Real.sqrt_nonneg _
  have hx0 : 0 ≤ (wedge v w).norm := Real.sqrt_nonneg _
  have hx : (wedge v w).norm * (wedge v w).norm = v.normSq * w.normSq - v.dot w * v.dot w := by
    rw [Rotation.norm_mul_self]; exact (C37_multivectors v v w).2.2.2.2.2.2.2.2
  have ha2 : a.norm * a.norm = 2 * v.normSq * w.normSq + 2 * (v.norm * w.norm) * v.dot w := by
    rw [Rotation.norm_mul_self]
    have : a.normSq = (w.norm * w.norm) * v.normSq + (v.norm * v.norm) * w.normSq + 2 * (v.norm * w.norm) * v.dot w := by
      simp only [ha, R3.normSq, R3.dot, R3.add_x, R3.add_y, R3.add_z, R3.smul_x, R3.smul_y, R3.smul_z]; ring
    rw [this, hv, hw]; ring
  have hb2 : b.norm * b.norm = 2 * v.normSq * w.normSq - 2 * (v.norm * w.norm) * v.dot w := by
    rw [Rotation.norm_mul_self]
    have : b.normSq = (w.norm * w.norm) * v.normSq + (v.norm * v.norm) * w.normSq - 2 * (v.norm * w.norm) * v.dot w := by
      simp only [hb, R3.normSq, R3.dot, R3.sub_x, R3.sub_y, R3.sub_z, R3.smul_x, R3.smul_y, R3.smul_z]; ring
    rw [this, hv, hw]; ring
  set z : ℂ := ⟨a.norm, b.norm⟩ with hz
  have hangle : v.angleBetween w = 2 * Complex.arg z := rfl
  have hnz : ‖z‖ * ‖z‖ = 4 * (v.norm * w.norm) * (v.norm * w.norm) := by
    rw [Complex.norm_mul_self_eq_normSq, Complex.normSq_apply]
    show a.norm * a.norm + b.norm * b.norm = _
    rw [ha2, hb2, ← hv, ← hw]; ring
  have hc : ‖z‖ * Real.cos z.arg = a.norm := Complex.norm_mul_cos_arg z
  have hs : ‖z‖ * Real.sin z.arg = b.norm := Complex.norm_mul_sin_arg z
  have h0 : 0 ≤ z.arg := Complex.arg_nonneg_iff.2 hb0
  have h1 : z.arg ≤ Real.pi / 2 := (abs_le.1 (Complex.abs_arg_le_pi_div_two_iff.2 ha0)).2
  refine ⟨by rw [hangle]; linarith, by rw [hangle]; linarith, ?_, ?_⟩
  · by_cases hvw : v.norm * w.norm = 0
    · have hx' : (wedge v w).norm * (wedge v w).norm = 0 - v.dot w * v.dot w := by
        rw [hx, ← hv, ← hw, show v.norm * v.norm * (w.norm * w.norm) = (v.norm * w.norm) * (v.norm * w.norm) by ring, hvw, zero_mul]
      rw [hvw, mul_zero]; nlinarith [mul_self_nonneg (v.dot w), mul_self_nonneg (wedge v w).norm]
    · have hpos : 0 < v.norm * w.norm := lt_of_le_of_ne (mul_nonneg hv0 hw0) (Ne.symm hvw)
      have : 4 * (v.norm * w.norm) * (Real.cos (v.angleBetween w) * (v.norm * w.norm)) = 4 * (v.norm * w.norm) * v.dot w := by
        rw [hangle, Real.cos_two_mul, Real.cos_sq']
        have e : (‖z‖ * ‖z‖) * (2 * (1 - Real.sin z.arg ^ 2) - 1) = (‖z‖ * Real.cos z.arg) * (‖z‖ * Real.cos z.arg) - (‖z‖ * Real.sin z.arg) * (‖z‖ * Real.sin z.arg) := by
          linear_combination (-(‖z‖ * ‖z‖)) * Real.cos_sq' z.arg
        rw [hc, hs, ha2, hb2, hnz] at e
        linear_combination e
      exact mul_left_cancel₀ (by positivity) this
  · have hab : (a.norm * b.norm) = 2 * (v.norm * w.norm) * (wedge v w).norm := by
      have hq : (a.norm * b.norm) ^ 2 = (2 * (v.norm * w.norm) * (wedge v w).norm) ^ 2 := by
        have : (2 * (v.norm * w.norm) * (wedge v w).norm) ^ 2 = 4 * (v.norm * v.norm) * (w.norm * w.norm) * ((wedge v w).norm * (wedge v w).norm) := by ring
        rw [this, hx, show (a.norm * b.norm) ^ 2 = (a.norm * a.norm) * (b.norm * b.norm) by ring, ha2, hb2, hv, hw]
        linear_combination (-4 * v.dot w * v.dot w) * ((w.norm * w.norm) * hv + v.normSq * hw)
      exact (pow_left_inj₀ (mul_nonneg ha0 hb0) (by positivity) (by norm_num)).1 hq
    by_cases hvw : v.norm * w.norm = 0
    · have hx' : (wedge v w).norm * (wedge v w).norm = 0 - v.dot w * v.dot w := by
        rw [hx, ← hv, ← hw, show v.norm * v.norm * (w.norm * w.norm) = (v.norm * w.norm) * (v.norm * w.norm) by ring, hvw, zero_mul]
      rw [hvw, mul_zero]; nlinarith [mul_self_nonneg (v.dot w), mul_self_nonneg (wedge v w).norm]
    · have hpos : 0 < v.norm * w.norm := lt_of_le_of_ne (mul_nonneg hv0 hw0) (Ne.symm hvw)
      have : 4 * (v.norm * w.norm) * (Real.sin (v.angleBetween w) * (v.norm * w.norm)) = 4 * (v.norm * w.norm) * (wedge v w).norm := by
        rw [hangle, Real.sin_two_mul]
        have e : (‖z‖ * ‖z‖) * (2 * Real.sin z.arg * Real.cos z.arg) = 2 * ((‖z‖ * Real.cos z.arg) * (‖z‖ * Real.sin z.arg)) := by ring
        rw [hc, hs, hnz, hab] at e
        linear_combination e
      exact mul_left_cancel₀ (by positivity) this

/-- The oriented angle between two vectors orthogonal to an axis is that of the rotation around the axis that brings the former onto the latter. -/
theorem C37_oriented_angle_between (v w n : R3 ℝ) (hn : n.dot n = 1) (hv : n.dot v = 0) (hw : n.dot w = 0) :
    -Real.pi ≤ orientedAngleBetween v w n ∧ orientedAngleBetween v w n ≤ Real.pi ∧ w.norm • rodrigues (orientedAngleBetween v w n) n v = v.norm • w := by
  obtain ⟨h0, h1, hc, hs⟩ := C37_angle_between v w
  have hpi := Real.pi_pos
  set s := (wedge v w).dot n with hsdef
  have hvw : wedge v w = s • n := by
    simp only [R3.dot] at hn hv hw
    ext <;> simp only [hsdef, wedge, R3.cross, R3.dot, R3.smul_x, R3.smul_y, R3.smul_z]
    · linear_combination (-(v.y * w.z - v.z * w.y)) * hn - (n.z * w.y - n.y * w.z) * hv - (n.y * v.z - n.z * v.y) * hw
    · linear_combination (-(v.z * w.x - v.x * w.z)) * hn - (n.x * w.z - n.z * w.x) * hv - (n.z * v.x - n.x * v.z) * hw
    · linear_combination (-(v.x * w.y - v.y * w.x)) * hn - (n.y * w.x - n.x * w.y) * hv - (n.x * v.y - n.y * v.x) * hw
  have hnn : n.norm = 1 := by
    rw [R3.norm, normSq_dot, hn, Real.sqrt_one]
  have hnorm : (wedge v w).norm = |s| := by rw [hvw, Rotation.norm_smul, hnn, mul_one]
  have hcos : Real.cos (orientedAngleBetween v w n) = Real.cos (v.angleBetween w) := by
    simp only [orientedAngleBetween, Sign.act]
    split
    · exact Real.cos_neg _
    · rfl
  have hsin : Real.sin (orientedAngleBetween v w n) * (v.norm * w.norm) = s := by
    rw [hnorm] at hs
    simp only [orientedAngleBetween, Sign.act, Sign.ofReal, decide_eq_true_eq]
    split
    · rename_i hneg
      rw [Real.sin_neg, neg_mul, hs, abs_of_neg hneg]; ring
    · rename_i hneg
      rw [hs, abs_of_nonneg (not_lt.1 hneg)]
  refine ⟨?_, ?_, ?_⟩
  · simp only [orientedAngleBetween, Sign.act]; split <;> linarith
  · simp only [orientedAngleBetween, Sign.act]; split <;> linarith
  · by_cases hv0 : v.norm = 0
    · have := Rotation.norm_eq_zero.1 hv0
      subst this
      rw [hv0]
      ext <;> simp [rodrigues, R3.cross, R3.dot]
    · have hcr : v.norm • (w.norm • rodrigues (orientedAngleBetween v w n) n v) = v.norm • (v.norm • w) := by
        have e1 : v.norm • (w.norm • rodrigues (orientedAngleBetween v w n) n v) =
            (Real.cos (v.angleBetween w) * (v.norm * w.norm)) • v + (Real.sin (orientedAngleBetween v w n) * (v.norm * w.norm)) • n.cross v := by
          rw [rodrigues, hv, mul_zero, hcos]
          ext <;> simp <;> ring
        have e2 : s • n.cross v = (wedge v w).cross v := by
          rw [hvw]; ext <;> simp [R3.cross] <;> ring
        rw [e1, hc, hsin, e2]
        have hvv := Rotation.norm_mul_self v
        simp only [R3.normSq] at hvv
        ext <;> simp only [wedge, R3.cross, R3.dot, R3.add_x, R3.add_y, R3.add_z, R3.smul_x, R3.smul_y, R3.smul_z]
        · linear_combination (-w.x) * hvv
        · linear_combination (-w.y) * hvv
        · linear_combination (-w.z) * hvv
      have hx := congrArg R3.x hcr
      have hy := congrArg R3.y hcr
      have hz := congrArg R3.z hcr
      simp only [R3.smul_x, R3.smul_y, R3.smul_z] at hx hy hz
      ext <;> simp only [R3.smul_x, R3.smul_y, R3.smul_z]
      · exact mul_left_cancel₀ hv0 hx
      · exact mul_left_cancel₀ hv0 hy
      · exact mul_left_cancel₀ hv0 hz

/-! ### Forms -/

/-- Symmetric bilinear forms are transformed so that they take the same values on the transformed vectors. -/
theorem C37_orthogonal_form (m : OrthogonalMap ℝ) (hm : m.IsUnit) (f : M3 ℝ) (hf : f.Symmetric) :
    (m.applyForm f).Symmetric ∧ ∀ v w, (m.applyForm f).form (m.apply v) (m.apply w) = f.form v w := by
  have h1 := C37_signature_form m.makeSignature f hf
  have h2 := Rotation.C36_form m.makeRotation hm _ h1.1
  exact ⟨h2.1, fun v w => (h2.2 _ _).trans (h1.2 v w)⟩

/-! ### Homothecies and conformal maps -/

/-- Homothecies are made if, and only if, the ratio is positive; they multiply vectors by the ratio and leave angular velocities unchanged. -/
theorem C37_homothecy (k l : ℝ) (hk : 0 < k) (hl : 0 < l) :
    ∃ h i : Homothecy, Homothecy.make k = some h ∧ Homothecy.make l = some i ∧ ConformalAction true k h.apply h.applyAngularVelocity ∧
      (∃ m, h.mul i = some m ∧ (∀ v, m.apply v = h.apply (i.apply v)) ∧ m.scale = k * l) ∧
      (∃ j, h.inverse = some j ∧ ∀ v, j.apply (h.apply v) = v ∧ h.apply (j.apply v) = v) ∧
      (∃ c, h.forgetConformal = some c ∧ c.IsUnit ∧ ∀ v, c.apply v = some (h.apply v) ∧ c.applyAngularVelocity v = some (h.applyAngularVelocity v)) := by
  have h1 : ∀ v : R3 ℝ, Rotation.apply ⟨Quat.ofReal 1⟩ v = v := by
    intro v; ext <;> simp [Rotation.apply, R3.cross, Quat.ofReal]
  have hid := fun v : R3 ℝ => ((C37_signature_compose (K := ℝ) Signature.identity Signature.identity rfl rfl).2.2.2.2.2.2.2 v).1
  have hidb : ∀ v : R3 ℝ, Signature.identity.applyBivector v = v := by
    intro v; ext <;> simp [Signature.identity, Signature.ofXY, Signature.applyBivector, Signature.det, Sign.mul, Sign.act, Sign.Positive]
  refine ⟨⟨k⟩, ⟨l⟩, if_pos hk, if_pos hl, ?_, ⟨⟨k * l⟩, if_pos (mul_pos hk hl), fun v => ?_, rfl⟩,
    ⟨⟨1 / k⟩, if_pos (by positivity), fun v => ⟨?_, ?_⟩⟩, ⟨⟨true, k, Quat.ofReal 1⟩, if_pos hk, ⟨?_, hk⟩, fun v => ⟨?_, ?_⟩⟩⟩
  · constructor <;> intros <;>
      first
      | (ext <;> simp [Homothecy.apply, Homothecy.applyAngularVelocity, bivectorTimesVector, R3.cross] <;> ring)
      | (simp [Homothecy.apply, Homothecy.applyAngularVelocity, R3.dot, M3.det] <;> ring)
  · ext <;> simp [Homothecy.apply] <;> ring
  · ext <;> simp [Homothecy.apply] <;> field_simp
  · ext <;> simp [Homothecy.apply] <;> field_simp
  · simp [Quat.ofReal, Quat.normSq, R3.normSq]
  · simp [ConformalMap.apply, Homothecy.make, hk, h1, ConformalMap.makeSignature, hid]
  · simp [ConformalMap.applyAngularVelocity, Homothecy.make, hk, h1, ConformalMap.makeSignature, Homothecy.applyAngularVelocity, hidb]

theorem Homothecy.make_nonpos {k : ℝ} (hk : ¬0 < k) : Homothecy.make k = none := if_neg hk

theorem ConformalMap.apply_eq {m : ConformalMap} (hm : m.IsUnit) (v : R3 ℝ) : m.apply v = some (m.scale • m.orthogonalMap.apply v) := by
  show (Homothecy.make m.scale).map _ = _
  rw [Homothecy.make, if_pos hm.2]; rfl

theorem ConformalMap.applyAngularVelocity_eq {m : ConformalMap} (hm : m.IsUnit) (v : R3 ℝ) :
    m.applyAngularVelocity v = some (m.orthogonalMap.applyBivector v) := by
  show (Homothecy.make m.scale).map _ = _
  rw [Homothecy.make, if_pos hm.2]; rfl

/-- Conformal maps act as similarities. -/
theorem C37_conformal_map (m : ConformalMap) (hm : m.IsUnit) :
    ∃ f g, (∀ v, m.apply v = some (f v)) ∧ (∀ ω, m.applyAngularVelocity ω = some (g ω)) ∧ ConformalAction m.same m.scale f g := by
  obtain ⟨ho, -⟩ := C37_orthogonal_map m.orthogonalMap hm.1
  refine ⟨_, _, ConformalMap.apply_eq hm, ConformalMap.applyAngularVelocity_eq hm, ?_, ?_, ?_, ?_, ho.innerBivectors, ?_⟩
  · intro v w; rw [ho.add]; ext <;> simp <;> ring
  · intro a v; rw [ho.smul]; ext <;> simp <;> ring
  · intro v w; rw [← ho.inner v w]; simp [R3.dot]; ring
  · intro u v w
    have := ho.volume u v w
    have h2 : ∀ a b c : R3 ℝ, M3.det ⟨m.scale • a, m.scale • b, m.scale • c⟩ = m.scale ^ 3 * M3.det ⟨a, b, c⟩ := by
      intro a b c; simp [M3.det]; ring
    rw [h2, this]
    show _ * (if m.same then _ else _) = _
    cases m.same <;> simp
  · intro b v
    rw [ho.action]; ext <;> simp [bivectorTimesVector, R3.cross] <;> ring

/-- The products and the inverses of conformal maps exist, and are compositions and inverses. -/
theorem C37_conformal_compose (l r : ConformalMap) (hl : l.IsUnit) (hr : r.IsUnit) :
    ∃ m, l.mul r = some m ∧ m.IsUnit ∧ m.scale = l.scale * r.scale ∧ (∀ v, m.apply v = (r.apply v).bind l.apply) ∧
      ∀ ω, m.applyAngularVelocity ω = (r.applyAngularVelocity ω).bind l.applyAngularVelocity := by
  have hp : 0 < l.scale * r.scale := mul_pos hl.2 hr.2
  obtain ⟨h1, h2, h3, -⟩ := C37_orthogonal_compose l.orthogonalMap r.orthogonalMap hl.1 hr.1
  have hm : (ConformalMap.mk (l.same == r.same) (l.scale * r.scale) (l.quaternion * r.quaternion)).IsUnit := ⟨h1, hp⟩
  refine ⟨_, if_pos hp, hm, rfl, fun v => ?_, fun ω => ?_⟩
  · rw [ConformalMap.apply_eq hm, ConformalMap.apply_eq hr, Option.bind_some, ConformalMap.apply_eq hl]
    have := h2 v
    congr 1
    show (l.scale * r.scale) • (l.orthogonalMap.mul r.orthogonalMap).apply v = _
    rw [this, (C37_orthogonal_map l.orthogonalMap hl.1).1.smul]
    ext <;> simp <;> ring
  · rw [ConformalMap.applyAngularVelocity_eq hm, ConformalMap.applyAngularVelocity_eq hr, Option.bind_some, ConformalMap.applyAngularVelocity_eq hl]
    exact congrArg some (h3 ω)

theorem Quat.inverse_unit {q : Quat ℝ} (h : q.normSq = 1) : q.inverse = q.conjugate := by
  have : q.re * q.re + q.im.dot q.im = 1 := h
  rw [Quat.inverse, this]
  ext <;> simp [Quat.divScalar, R3.div]

/-- The inverse of a conformal map exists and undoes it. -/
theorem C37_conformal_inverse (m : ConformalMap) (hm : m.IsUnit) :
    (∃ i, m.inverse = some i ∧ i.IsUnit ∧ i.same = m.same ∧ (∀ v, (m.apply v).bind i.apply = some v ∧ (i.apply v).bind m.apply = some v) ∧
        ∀ ω, (m.applyAngularVelocity ω).bind i.applyAngularVelocity = some ω ∧ (i.applyAngularVelocity ω).bind m.applyAngularVelocity = some ω) ∧
      ∃ i, ConformalMap.identity = some i ∧ i.IsUnit ∧ ∀ v, i.apply v = some v := by
  have hs := hm.2
  have hp : 0 < 1 / m.scale := by positivity
  obtain ⟨h1, h2, h3, -, h5⟩ := C37_orthogonal_inverse m.orthogonalMap hm.1
  have hq : m.quaternion.inverse = m.quaternion.conjugate := Quat.inverse_unit hm.1
  have hi : (ConformalMap.mk m.same (1 / m.scale) m.quaternion.inverse).IsUnit := ⟨by rw [hq]; exact h1, hp⟩
  have ho : (ConformalMap.mk m.same (1 / m.scale) m.quaternion.inverse).orthogonalMap = m.orthogonalMap.inverse := by
    rw [hq]; rfl
  refine ⟨⟨_, if_pos hp, hi, rfl, fun v => ⟨?_, ?_⟩, fun ω => ⟨?_, ?_⟩⟩, ⟨⟨true, 1, Quat.ofReal 1⟩, if_pos one_pos, ⟨?_, one_pos⟩, fun v => ?_⟩⟩
  · rw [ConformalMap.apply_eq hm, Option.bind_some, ConformalMap.apply_eq hi, ho, (C37_orthogonal_map m.orthogonalMap.inverse h1).1.smul, (h2 v).1]
    congr 1
    ext <;> simp <;> field_simp
  · rw [ConformalMap.apply_eq hi, Option.bind_some, ConformalMap.apply_eq hm, ho, (C37_orthogonal_map m.orthogonalMap hm.1).1.smul, (h2 v).2]
    congr 1
    ext <;> simp <;> field_simp
  · rw [ConformalMap.applyAngularVelocity_eq hm, Option.bind_some, ConformalMap.applyAngularVelocity_eq hi, ho, (h3 ω).1]
  · rw [ConformalMap.applyAngularVelocity_eq hi, Option.bind_some, ConformalMap.applyAngularVelocity_eq hm, ho, (h3 ω).2]
  · simp [Quat.ofReal, Quat.normSq, R3.normSq]
  · rw [ConformalMap.apply_eq ⟨by simp [Quat.ofReal, Quat.normSq, R3.normSq], one_pos⟩]
    show some ((1 : ℝ) • (OrthogonalMap.identity : OrthogonalMap ℝ).apply v) = some v
    rw [(h5 v).1]
    congr 1
    ext <;> simp

/-- When the orientation is preserved, the determinant of a conformal map is the factor by which it multiplies volumes. -/
theorem C37_conformal_determinant_partial (m : ConformalMap) (hm : m.IsUnit) (hs : m.same = true) (u v w : R3 ℝ) :
    ∃ a b c, m.apply u = some a ∧ m.apply v = some b ∧ m.apply w = some c ∧ M3.det ⟨a, b, c⟩ = m.determinant * M3.det ⟨u, v, w⟩ := by
  obtain ⟨f, g, hf, -, h⟩ := C37_conformal_map m hm
  refine ⟨_, _, _, hf u, hf v, hf w, ?_⟩
  rw [h.volume, hs, if_pos rfl]; rfl

/-- When it is not, the determinant that the library gives has the wrong sign, whatever the map. -/
theorem C37_conformal_determinant_counterexample (m : ConformalMap) (hm : m.IsUnit) (hs : m.same = false) (u v w : R3 ℝ) :
    ∃ a b c, m.apply u = some a ∧ m.apply v = some b ∧ m.apply w = some c ∧ M3.det ⟨a, b, c⟩ = -m.determinant * M3.det ⟨u, v, w⟩ ∧ 0 < m.determinant := by
  obtain ⟨f, g, hf, -, h⟩ := C37_conformal_map m hm
  refine ⟨_, _, _, hf u, hf v, hf w, ?_, pow_pos hm.2 3⟩
  rw [h.volume, hs, if_neg (by simp)]; rfl

/-- Forgetting that a map is orthogonal does not change how it acts. -/
theorem C37_orthogonal_forget (m : OrthogonalMap ℝ) (hm : m.IsUnit) :
    ∃ c, m.forgetConformal = some c ∧ c.IsUnit ∧ c.scale = 1 ∧ c.orthogonalMap = m ∧
      ∀ v, c.apply v = some (m.apply v) ∧ c.applyAngularVelocity v = some (m.applyBivector v) := by
  have hc : (ConformalMap.mk m.same 1 m.quaternion).IsUnit := ⟨hm, one_pos⟩
  refine ⟨_, if_pos one_pos, hc, rfl, rfl, fun v => ⟨?_, ?_⟩⟩
  · rw [ConformalMap.apply_eq hc]
    congr 1
    show (1 : ℝ) • m.apply v = _
    ext <;> simp
  · rw [ConformalMap.applyAngularVelocity_eq hc]; rfl

/-! ### Affine maps -/

theorem R3.add_sub_cancel' (a b : R3 ℝ) : a + b - b = a := by ext <;> simp
theorem R3.sub_add_cancel' (a b : R3 ℝ) : a - b + b = a := by ext <;> simp

/-- Rigid transformations send the origin where they should, transform the differences of points by the linear map, and preserve distances. -/
theorem C37_rigid_transformation (m : AffineMap (OrthogonalMap ℝ)) (hm : m.linearMap.IsUnit) (p q : R3 ℝ) :
    m.apply m.fromOrigin = m.toOrigin ∧ m.apply p - m.apply q = m.linearMap.apply (p - q) ∧
      (m.apply p - m.apply q).dot (m.apply p - m.apply q) = (p - q).dot (p - q) ∧ AffineMap.identity.apply p = p := by
  obtain ⟨ho, -⟩ := C37_orthogonal_map m.linearMap hm
  have hsub : ∀ a b, m.linearMap.apply a - m.linearMap.apply b = m.linearMap.apply (a - b) := by
    intro a b
    have h : m.linearMap.apply (a - b + b) = m.linearMap.apply (a - b) + m.linearMap.apply b := ho.add _ _
    rw [R3.sub_add_cancel'] at h
    rw [h, R3.add_sub_cancel']
  have hd : m.apply p - m.apply q = m.linearMap.apply (p - q) := by
    have : m.apply p - m.apply q = m.linearMap.apply (p - m.fromOrigin) - m.linearMap.apply (q - m.fromOrigin) := by
      ext <;> simp [AffineMap.apply]
    rw [this, hsub]
    congr 1
    ext <;> simp
  refine ⟨?_, hd, by rw [hd, ho.inner], ?_⟩
  · have : m.fromOrigin - m.fromOrigin = (0 : ℝ) • m.fromOrigin := by ext <;> simp
    rw [AffineMap.apply, this, ho.smul]
    ext <;> simp
  · have h := ((C37_orthogonal_inverse m.linearMap hm).2.2.2.2 (p - 0)).1
    rw [AffineMap.apply]
    show (OrthogonalMap.identity : OrthogonalMap ℝ).apply (p - 0) + 0 = p
    rw [h]; ext <;> simp

/-- Products and inverses of rigid transformations are compositions and inverses. -/
theorem C37_rigid_compose (l r : AffineMap (OrthogonalMap ℝ)) (hl : l.linearMap.IsUnit) (hr : r.linearMap.IsUnit) (p : R3 ℝ) :
    (l.mul r).linearMap.IsUnit ∧ (l.mul r).apply p = l.apply (r.apply p) ∧
      l.inverse.linearMap.IsUnit ∧ l.inverse.apply (l.apply p) = p ∧ l.apply (l.inverse.apply p) = p := by
  obtain ⟨h1, h2, -⟩ := C37_orthogonal_compose l.linearMap r.linearMap hl hr
  obtain ⟨i1, i2, -⟩ := C37_orthogonal_inverse l.linearMap hl
  obtain ⟨ho, -⟩ := C37_orthogonal_map l.linearMap hl
  refine ⟨h1, ?_, i1, ?_, ?_⟩
  · have : r.linearMap.apply (p - r.fromOrigin) + r.toOrigin - l.fromOrigin = r.linearMap.apply (p - r.fromOrigin) + (r.toOrigin - l.fromOrigin) := by
      ext <;> simp <;> ring
    simp only [AffineMap.apply, AffineMap.mul]
    rw [h2, this, ho.add]
    ext <;> simp <;> ring
  · simp only [AffineMap.apply, AffineMap.inverse]
    rw [R3.add_sub_cancel', (i2 _).1, R3.sub_add_cancel']
  · simp only [AffineMap.apply, AffineMap.inverse]
    rw [R3.add_sub_cancel', (i2 _).2, R3.sub_add_cancel']

/-- Similarities send the origin where they should and multiply distances by the ratio; forgetting that a transformation is rigid does not change it. -/
theorem C37_similarity (m : AffineMap ConformalMap) (hm : m.linearMap.IsUnit) (p q : R3 ℝ) :
    m.applySimilarity m.fromOrigin = some m.toOrigin ∧
      (∃ a b, m.applySimilarity p = some a ∧ m.applySimilarity q = some b ∧ m.linearMap.apply (p - q) = some (a - b) ∧
        (a - b).dot (a - b) = m.linearMap.scale ^ 2 * (p - q).dot (p - q)) ∧
      ∀ r : AffineMap (OrthogonalMap ℝ), r.linearMap.IsUnit → ∃ s, r.forget = some s ∧ s.linearMap.IsUnit ∧ s.applySimilarity p = some (r.apply p) := by
  obtain ⟨f, g, hf, -, hc⟩ := C37_conformal_map m.linearMap hm
  refine ⟨?_, ?_, ?_⟩
  · have : m.fromOrigin - m.fromOrigin = (0 : ℝ) • m.fromOrigin := by ext <;> simp
    rw [AffineMap.applySimilarity, this, hf, hc.smul, Option.map_some]
    congr 1; ext <;> simp
  · refine ⟨f (p - m.fromOrigin) + m.toOrigin, f (q - m.fromOrigin) + m.toOrigin, ?_, ?_, ?_, ?_⟩
    · rw [AffineMap.applySimilarity, hf]; rfl
    · rw [AffineMap.applySimilarity, hf]; rfl
    all_goals
      have hd : f (p - m.fromOrigin) + m.toOrigin - (f (q - m.fromOrigin) + m.toOrigin) = f (p - q) := by
        have h : f (p - q + (q - m.fromOrigin)) = f (p - q) + f (q - m.fromOrigin) := hc.add _ _
        have e : p - q + (q - m.fromOrigin) = p - m.fromOrigin := by ext <;> simp
        rw [e] at h
        rw [h]; ext <;> simp
    · rw [hf, hd]
    · rw [hd, hc.inner]
  · intro r hr
    obtain ⟨c, h1, h2, -, -, h3⟩ := C37_orthogonal_forget r.linearMap hr
    refine ⟨⟨r.fromOrigin, r.toOrigin, c⟩, by rw [AffineMap.forget, h1]; rfl, h2, ?_⟩
    rw [AffineMap.applySimilarity, (h3 _).1]; rfl

/-- Products and inverses of similarities are compositions and inverses. -/
theorem C37_similarity_compose (l r : AffineMap ConformalMap) (hl : l.linearMap.IsUnit) (hr : r.linearMap.IsUnit) :
    (∃ m, l.mulSimilarity r = some m ∧ m.linearMap.IsUnit ∧ ∀ p, m.applySimilarity p = (r.applySimilarity p).bind l.applySimilarity) ∧
      ∃ i, l.inverseSimilarity = some i ∧ i.linearMap.IsUnit ∧
        ∀ p, (l.applySimilarity p).bind i.applySimilarity = some p ∧ (i.applySimilarity p).bind l.applySimilarity = some p := by
  obtain ⟨f, f', hf, -, hc⟩ := C37_conformal_map l.linearMap hl
  obtain ⟨g, -, hg, -, -⟩ := C37_conformal_map r.linearMap hr
  obtain ⟨m, h1, h2, -, h3, -⟩ := C37_conformal_compose l.linearMap r.linearMap hl hr
  obtain ⟨⟨i, i1, i2, -, i3, -⟩, -⟩ := C37_conformal_inverse l.linearMap hl
  refine ⟨⟨⟨r.fromOrigin, l.toOrigin + f (r.toOrigin - l.fromOrigin), m⟩, ?_, h2, fun p => ?_⟩,
    ⟨⟨l.toOrigin, l.fromOrigin, i⟩, by rw [AffineMap.inverseSimilarity, i1]; rfl, i2, fun p => ⟨?_, ?_⟩⟩⟩
  · rw [AffineMap.mulSimilarity, hf, Option.bind_some, h1]; rfl
  · simp only [AffineMap.applySimilarity]
    rw [h3, hg, Option.bind_some, Option.map_some, Option.bind_some, hf]
    simp only [AffineMap.applySimilarity]
    rw [hf]
    have : g (p - r.fromOrigin) + r.toOrigin - l.fromOrigin = g (p - r.fromOrigin) + (r.toOrigin - l.fromOrigin) := by
      ext <;> simp <;> ring
    rw [this, hc.add, Option.map_some, Option.map_some]
    congr 1
    ext <;> simp <;> ring
  · have h := (i3 (p - l.fromOrigin)).1
    simp only [AffineMap.applySimilarity]
    rw [hf, Option.bind_some] at h
    rw [hf, Option.map_some, Option.bind_some]
    simp only [AffineMap.applySimilarity]
    rw [R3.add_sub_cancel', h, Option.map_some, R3.sub_add_cancel']
  · have h := (i3 (p - l.toOrigin)).2
    obtain ⟨k, -, hk, -, -⟩ := C37_conformal_map i i2
    simp only [AffineMap.applySimilarity]
    rw [hk, Option.bind_some] at h
    rw [hk, Option.map_some, Option.bind_some]
    simp only [AffineMap.applySimilarity]
    rw [R3.add_sub_cancel', h, Option.map_some, R3.sub_add_cancel']

/-! ### Examples -/

/-- A permutation that reverses the orientation. -/
example : (⟨false, Permutation.ZYX⟩ : Permutation).Valid ∧ Permutation.apply ⟨false, Permutation.ZYX⟩ (⟨1, 2, 3⟩ : R3 Nat) = some ⟨3, 2, 1⟩ := by decide

/-- Two vectors and an axis that is orthogonal to them. -/
example : let v : R3 ℝ := ⟨1, 0, 0⟩; let w : R3 ℝ := ⟨1, 1, 0⟩; let n : R3 ℝ := ⟨0, 0, 1⟩; n.dot n = 1 ∧ n.dot v = 0 ∧ n.dot w = 0 := by
  simp [R3.dot]

/-- A conformal map that reverses the orientation, multiplies lengths by 2 and turns. -/
example : (⟨false, 2, ⟨3 / 5, 4 / 5, 0, 0⟩⟩ : ConformalMap).IsUnit := by
  constructor
  · norm_num [Quat.normSq, R3.normSq]
  · norm_num

/-- An orthogonal map that reverses the orientation and turns. -/
example : (⟨false, ⟨3 / 5, 4 / 5, 0, 0⟩⟩ : OrthogonalMap ℝ).IsUnit := by
  norm_num [OrthogonalMap.IsUnit, Quat.normSq, R3.normSq]

end Principia.Geometry
