import Verif.Physics.KeplerMotionSpec
import Verif.Physics.KeplerCategories
import Verif.Geometry.MapsAffine
import Mathlib.Analysis.Calculus.Deriv.Add
import Mathlib.Analysis.Calculus.Deriv.Mul
import Mathlib.Tactic.LinearCombination
import Mathlib.Tactic.FieldSimp

/-!
Lemmas for C56: the frame of the orbit, and the state vectors at a given true anomaly.
-/

set_option linter.unusedSimpArgs false
set_option linter.unusedVariables false
set_option linter.unusedSectionVars false

namespace Principia.Physics.Kepler

open Geometry Real Fl

theorem arg_cs {x y w : ℝ} (hw : 0 < w) (h : x ^ 2 + y ^ 2 = w ^ 2) :
    Real.cos (Complex.arg ⟨x, y⟩) = x / w ∧ Real.sin (Complex.arg ⟨x, y⟩) = y / w := by
  have hn : ‖(⟨x, y⟩ : ℂ)‖ = w := by
    have h1 : ‖(⟨x, y⟩ : ℂ)‖ ^ 2 = w ^ 2 := by
      rw [← Complex.normSq_eq_norm_sq, Complex.normSq_apply, ← h]; ring
    exact (pow_left_inj₀ (norm_nonneg _) hw.le (by norm_num)).1 h1
  have h1 := Complex.norm_mul_cos_arg ⟨x, y⟩
  have h2 := Complex.norm_mul_sin_arg ⟨x, y⟩
  rw [hn] at h1 h2
  constructor
  · rw [eq_div_iff hw.ne']; simpa [mul_comm] using h1
  · rw [eq_div_iff hw.ne']; simpa [mul_comm] using h2

/-- The rotation from the plane of the orbit. -/
noncomputable def Plane.rotation (p : Plane) : Rotation ℝ := Rotation.anglesDefineFromFrame p.Ω p.i p.ω zxz

namespace Plane

variable (p : Plane)

theorem rotation_isUnit : p.rotation.IsUnit := (Rotation.C36_euler p.Ω p.i p.ω 2 0 2 0).1

theorem rotation_apply (w : R3 ℝ) : p.rotation.apply w =
    w.x • p.periapsis + w.y • p.direction (p.ω + π / 2) + w.z • p.normal := by
  refine (Rotation.C36_euler p.Ω p.i p.ω 2 0 2 w).2.1.trans ?_
  ext <;> simp [rodrigues, R3.basisVector, R3.cross, R3.dot, periapsis, direction, node, normal, Real.cos_add, Real.sin_add] <;>
    first
    | ring1
    | linear_combination (-(w.x * Real.sin p.ω + w.y * Real.cos p.ω) * Real.sin p.i) * Real.sin_sq_add_cos_sq p.Ω

theorem apply_periapsis : p.rotation.apply ⟨1, 0, 0⟩ = p.periapsis := by
  rw [rotation_apply]; ext <;> simp

theorem apply_normal : p.rotation.apply ⟨0, 0, 1⟩ = p.normal := by
  rw [rotation_apply]; ext <;> simp

theorem apply_atTrueAnomaly (ν : ℝ) : p.rotation.apply ⟨Real.cos ν, Real.sin ν, 0⟩ = p.atTrueAnomaly ν := by
  rw [rotation_apply, atTrueAnomaly, periapsis]
  ext <;> simp [direction, Real.cos_add, Real.sin_add] <;> ring

theorem apply_smul (a : ℝ) (w : R3 ℝ) : p.rotation.apply (a • w) = a • p.rotation.apply w := (Rotation.C36_linear _ w w a).2

theorem apply_add (w w' : R3 ℝ) : p.rotation.apply (w + w') = p.rotation.apply w + p.rotation.apply w' := (Rotation.C36_linear _ w w' 0).1

theorem apply_neg (w : R3 ℝ) : p.rotation.apply (-w) = -p.rotation.apply w := by
  have h : ∀ w : R3 ℝ, -w = (-1 : ℝ) • w := fun w => by ext <;> simp
  rw [h, h, apply_smul]

theorem apply_sub (w w' : R3 ℝ) : p.rotation.apply (w - w') = p.rotation.apply w - p.rotation.apply w' := by
  have h : ∀ w w' : R3 ℝ, w - w' = w + -w' := fun w w' => by ext <;> simp [sub_eq_add_neg]
  rw [h, h, apply_add, apply_neg]

theorem div_eq (w : R3 ℝ) (a : ℝ) : w.div a = (1 / a) • w := by
  ext <;> simp [R3.div] <;> ring

theorem apply_div (w : R3 ℝ) (a : ℝ) : p.rotation.apply (w.div a) = (p.rotation.apply w).div a := by
  rw [div_eq, div_eq, apply_smul]

theorem apply_cross (w w' : R3 ℝ) : (p.rotation.apply w).cross (p.rotation.apply w') = p.rotation.apply (w.cross w') :=
  Rotation.C36_cross _ p.rotation_isUnit w w'

theorem apply_dot (w w' : R3 ℝ) : (p.rotation.apply w).dot (p.rotation.apply w') = w.dot w' :=
  Rotation.C36_isometry _ p.rotation_isUnit w w'

theorem apply_normSq (w : R3 ℝ) : (p.rotation.apply w).normSq = w.normSq := p.apply_dot w w

theorem apply_norm (w : R3 ℝ) : (p.rotation.apply w).norm = w.norm := by
  rw [R3.norm, apply_normSq, R3.norm]

theorem apply_inj {w w' : R3 ℝ} (h : p.rotation.apply w = p.rotation.apply w') : w = w' := by
  have h1 := (Rotation.C36_inverse p.rotation p.rotation_isUnit w).2.1
  have h2 := (Rotation.C36_inverse p.rotation p.rotation_isUnit w').2.1
  rw [← h1, ← h2, h]

theorem hasDeriv {g : ℝ → R3 ℝ} {g' : R3 ℝ} {t : ℝ} (h : HasDeriv g g' t) : HasDeriv (fun t => p.rotation.apply (g t)) (p.rotation.apply g') t := by
  have h1 : (fun t => p.rotation.apply (g t)) = fun t => (g t).x • p.periapsis + (g t).y • p.direction (p.ω + π / 2) + (g t).z • p.normal := by
    funext t; exact p.rotation_apply _
  rw [h1, rotation_apply]
  constructor
  · exact ((h.x.mul_const p.periapsis.x).add (h.y.mul_const (p.direction (p.ω + π / 2)).x)).add (h.z.mul_const p.normal.x)
  · exact ((h.x.mul_const p.periapsis.y).add (h.y.mul_const (p.direction (p.ω + π / 2)).y)).add (h.z.mul_const p.normal.y)
  · exact ((h.x.mul_const p.periapsis.z).add (h.y.mul_const (p.direction (p.ω + π / 2)).z)).add (h.z.mul_const p.normal.z)

end Plane

/-! ### The state vectors at a given true anomaly -/

/-- The semilatus rectum. -/
noncomputable def Conic.ℓ (c : Conic) : ℝ := c.a * (1 - c.e ^ 2)

/-- The coordinates of the displacement in the plane of the orbit. -/
noncomputable def Conic.planePosition (c : Conic) (cosν sinν : ℝ) : R3 ℝ := (c.ℓ / (1 + c.e * cosν)) • ⟨cosν, sinν, 0⟩

/-- The coordinates of the velocity in the plane of the orbit. -/
noncomputable def Conic.planeVelocity (c : Conic) (cosν sinν : ℝ) : R3 ℝ := √(c.μ / c.ℓ) • ⟨-sinν, c.e + cosν, 0⟩

variable {c : Conic}

theorem ell_pos (h : c.IsEllipse ∨ c.IsHyperbola) : 0 < c.ℓ := slr_pos h

theorem mu_pos (h : c.IsEllipse ∨ c.IsHyperbola) : 0 < c.μ := h.elim (·.μ) (·.μ)

theorem a_ne (h : c.IsEllipse ∨ c.IsHyperbola) : c.a ≠ 0 := h.elim (fun h => h.a.ne') (fun h => h.a.ne)

theorem e_nonneg (h : c.IsEllipse ∨ c.IsHyperbola) : 0 ≤ c.e := h.elim (·.e₀) (fun h => by linarith [h.e])

theorem e_sq_ne (h : c.IsEllipse ∨ c.IsHyperbola) : 1 - c.e ^ 2 ≠ 0 := by
  intro h0
  have := ell_pos h
  rw [Conic.ℓ, h0, mul_zero] at this
  exact lt_irrefl _ this

theorem norm_of_sq {w : R3 ℝ} {x : ℝ} (hx : 0 ≤ x) (h : w.normSq = x ^ 2) : w.norm = x := by
  rw [R3.norm, h, Real.sqrt_sq hx]

theorem planePosition_norm (h : c.IsEllipse ∨ c.IsHyperbola) {C S : ℝ} (hcs : C ^ 2 + S ^ 2 = 1) (hp : 0 < 1 + c.e * C) :
    (c.planePosition C S).norm = c.ℓ / (1 + c.e * C) := by
  have := ell_pos h
  apply norm_of_sq (by positivity)
  simp only [Conic.planePosition, R3.normSq, R3.smul_x, R3.smul_y, R3.smul_z]
  linear_combination (c.ℓ / (1 + c.e * C)) ^ 2 * hcs

theorem speed_sq (h : c.IsEllipse ∨ c.IsHyperbola) {C S : ℝ} (hcs : C ^ 2 + S ^ 2 = 1) (hp : 0 < 1 + c.e * C) :
    2 * (-c.μ / (2 * c.a) + c.μ / (c.ℓ / (1 + c.e * C))) = c.μ / c.ℓ * (1 + 2 * c.e * C + c.e ^ 2) := by
  have h1 := ell_pos h
  have h2 := a_ne h
  have h3 := e_sq_ne h
  have h4 : c.μ / (c.ℓ / (1 + c.e * C)) = c.μ / c.ℓ * (1 + c.e * C) := by field_simp
  have h5 : c.μ / (2 * c.a) = c.μ / c.ℓ * (1 - c.e ^ 2) / 2 := by
    rw [Conic.ℓ]; field_simp
  rw [h4, neg_div, h5]; ring

theorem statesAt_eq (h : c.IsEllipse ∨ c.IsHyperbola) (p : Plane) {ν : ℝ} (hp : 0 < 1 + c.e * Real.cos ν) :
    statesAt (num c.μ) (num c.e) (num p.i) (num p.Ω) (num p.ω) (num (c.a * (1 - c.e ^ 2))) (num (-c.μ / (2 * c.a))) (num ν) =
      .ok (p.rotation.apply (c.planePosition (Real.cos ν) (Real.sin ν))) (p.rotation.apply (c.planeVelocity (Real.cos ν) (Real.sin ν))) := by
  have h1 := ell_pos h
  have h2 := mu_pos h
  have hcs := Real.cos_sq_add_sin_sq ν
  have hw : 0 < 1 + 2 * c.e * Real.cos ν + c.e ^ 2 := by
    have : 1 + 2 * c.e * Real.cos ν + c.e ^ 2 = (1 + c.e * Real.cos ν) ^ 2 + (c.e * Real.sin ν) ^ 2 := by
      linear_combination (-c.e ^ 2) * hcs
    rw [this]; positivity
  set w := √(1 + 2 * c.e * Real.cos ν + c.e ^ 2) with hwdef
  have hw0 : 0 < w := Real.sqrt_pos.2 hw
  have hw2 : w ^ 2 = 1 + 2 * c.e * Real.cos ν + c.e ^ 2 := Real.sq_sqrt hw.le
  obtain ⟨hφc, hφs⟩ := arg_cs (x := 1 + c.e * Real.cos ν) (y := c.e * Real.sin ν) hw0 (by rw [hw2]; linear_combination c.e ^ 2 * hcs)
  have hr : (num (c.a * (1 - c.e ^ 2)) / (num 1 + num c.e * Fl.cos (num ν))) = num (c.ℓ / (1 + c.e * Real.cos ν)) := by
    rw [num_cos, num_mul, num_add, num_div hp.ne']; rfl
  have hr0 : 0 < c.ℓ / (1 + c.e * Real.cos ν) := by positivity
  have hs : Fl.sqrt (num 2 * (num (-c.μ / (2 * c.a)) + num c.μ / num (c.ℓ / (1 + c.e * Real.cos ν)))) = num (√(c.μ / c.ℓ) * w) := by
    rw [num_div hr0.ne', num_add, num_mul, speed_sq h hcs hp]
    apply sqrt_num (by positivity)
    rw [mul_pow, Real.sq_sqrt (by positivity), hw2]
  have hφ : arcTan (num c.e * Fl.sin (num ν)) (num 1 + num c.e * Fl.cos (num ν)) = num (Complex.arg ⟨1 + c.e * Real.cos ν, c.e * Real.sin ν⟩) := rfl
  rw [statesAt]
  simp only [hr, hs, hφ]
  show States.ok ((c.ℓ / (1 + c.e * Real.cos ν)) • p.rotation.apply _) ((√(c.μ / c.ℓ) * w) • p.rotation.apply _) = _
  congr 1
  · rw [← p.apply_smul]; rfl
  · rw [← p.apply_smul, Real.sin_sub, Real.cos_sub, hφc, hφs, Conic.planeVelocity]
    congr 1
    ext
    · simp only [R3.smul_x]
      field_simp
      ring
    · simp only [R3.smul_y]
      field_simp
      linear_combination c.e * hcs
    · simp

theorem onConic (h : c.IsEllipse ∨ c.IsHyperbola) (p : Plane) {C S : ℝ} (hcs : C ^ 2 + S ^ 2 = 1) (hp : 0 < 1 + c.e * C) :
    OnConic c p (p.rotation.apply (c.planePosition C S)) (p.rotation.apply (c.planeVelocity C S)) := by
  have h1 := ell_pos h
  have h2 := mu_pos h
  have hn := planePosition_norm h hcs hp
  have hs : √(c.μ / c.ℓ) ^ 2 = c.μ / c.ℓ := Real.sq_sqrt (by positivity)
  have hl : √(c.μ * c.ℓ) = c.ℓ * √(c.μ / c.ℓ) := by
    rw [show c.μ * c.ℓ = c.ℓ ^ 2 * (c.μ / c.ℓ) by field_simp, Real.sqrt_mul (by positivity), Real.sqrt_sq h1.le]
  have hcr : (c.planePosition C S).cross (c.planeVelocity C S) = (c.ℓ * √(c.μ / c.ℓ)) • ⟨0, 0, 1⟩ := by
    simp only [Conic.planePosition, Conic.planeVelocity]
    ext <;> simp only [R3.cross, R3.smul_x, R3.smul_y, R3.smul_z]
    · ring
    · ring
    · field_simp
      linear_combination hcs
  constructor
  · rw [p.apply_normSq, p.apply_norm, hn]
    have := speed_sq h hcs hp
    have hv : (c.planeVelocity C S).normSq = c.μ / c.ℓ * (1 + 2 * c.e * C + c.e ^ 2) := by
      rw [← hs]
      simp only [Conic.planeVelocity, R3.normSq, R3.smul_x, R3.smul_y, R3.smul_z]
      linear_combination √(c.μ / c.ℓ) ^ 2 * hcs
    rw [hv]; linarith
  · rw [p.apply_cross, hcr, p.apply_smul, p.apply_normal]
    congr 1
    exact hl.symm
  · rw [p.apply_cross, p.apply_cross, p.apply_norm, ← p.apply_div, ← p.apply_div, ← p.apply_sub, ← p.apply_periapsis, ← p.apply_smul]
    congr 1
    rw [hcr, hn]
    have hss : √(c.μ / c.ℓ) * (c.ℓ * √(c.μ / c.ℓ)) = c.μ := by
      have : √(c.μ / c.ℓ) * (c.ℓ * √(c.μ / c.ℓ)) = c.ℓ * √(c.μ / c.ℓ) ^ 2 := by ring
      rw [this, hs]; field_simp
    ext <;> simp only [Conic.planePosition, Conic.planeVelocity, R3.cross, R3.div, R3.sub_x, R3.sub_y, R3.sub_z, R3.smul_x, R3.smul_y, R3.smul_z]
    · have : √(c.μ / c.ℓ) * (c.e + C) * (c.ℓ * √(c.μ / c.ℓ) * 1) = c.μ * (c.e + C) := by linear_combination (c.e + C) * hss
      rw [this]; field_simp; ring
    · have : √(c.μ / c.ℓ) * -S * (c.ℓ * √(c.μ / c.ℓ) * 1) = c.μ * -S := by linear_combination (-S) * hss
      rw [mul_zero, zero_mul, zero_sub, this]; field_simp; ring
    · simp

end Principia.Physics.Kepler
