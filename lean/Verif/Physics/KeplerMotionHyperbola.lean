import Verif.Physics.KeplerMotionEllipse
import Mathlib.Analysis.SpecialFunctions.Trigonometric.DerivHyp
import Mathlib.Analysis.SpecialFunctions.Arsinh

/-!
Lemmas for C56: the motion on a hyperbola.
-/

set_option linter.unusedSimpArgs false
set_option linter.unusedVariables false
set_option linter.unusedSectionVars false

namespace Principia.Physics.Kepler

open Geometry Real Fl

section Hyperbola

variable {e : ℝ}

theorem hyperbolic_bracket (h1 : 1 < e) (M : ℝ) :
    (M - (e * Real.sinh 0 - 0)) * (M - (e * Real.sinh (M / (e - 1)) - M / (e - 1))) ≤ 0 := by
  have he : 0 < e - 1 := by linarith
  obtain ⟨x, hx⟩ : ∃ x, x = M / (e - 1) := ⟨_, rfl⟩
  have hM : M = (e - 1) * x := by rw [hx]; field_simp
  rw [← hx, hM, Real.sinh_zero]
  have : ((e - 1) * x - (e * 0 - 0)) * ((e - 1) * x - (e * Real.sinh x - x)) = (e - 1) * e * (x * (x - Real.sinh x)) := by ring
  rw [this]
  apply mul_nonpos_of_nonneg_of_nonpos (by positivity)
  rcases le_total 0 x with h | h
  · exact mul_nonpos_of_nonneg_of_nonpos h (by linarith [Real.self_le_sinh_iff.2 h])
  · exact mul_nonpos_of_nonpos_of_nonneg h (by linarith [Real.sinh_le_self_iff.2 h])

theorem DH_pos (h1 : 1 < e) (H : ℝ) : 0 < e * Real.cosh H - 1 := by
  have := Real.one_le_cosh H
  nlinarith

theorem hyperbolic_continuous (M : ℝ) : Continuous fun H => M - (e * Real.sinh H - H) := by
  fun_prop

theorem hyperbolic_inverse (h1 : 1 < e) :
    ∃ g : ℝ → ℝ, (∀ M, e * Real.sinh (g M) - g M = M) ∧ (∀ H, g (e * Real.sinh H - H) = H) ∧ ∀ M, HasDerivAt g (e * Real.cosh (g M) - 1)⁻¹ M := by
  apply inverse_deriv (f := fun H => e * Real.sinh H - H) (f' := fun H => e * Real.cosh H - 1)
  · intro H
    exact ((Real.hasDerivAt_sinh H).const_mul e).sub (hasDerivAt_id' H)
  · exact DH_pos h1
  · intro M
    obtain ⟨H, -, hH⟩ := exists_root (hyperbolic_continuous M) (hyperbolic_bracket h1 M)
    exact ⟨H, by linarith⟩

theorem hyperbolicEccentricAnomaly_eq {brent : RootFinder} (hb : IsRootFinder brent) (h1 : 1 < e) {M : ℝ} :
    ∃ H, hyperbolicEccentricAnomaly brent e M = some H ∧ e * Real.sinh H - H = M := by
  rw [hyperbolicEccentricAnomaly]
  obtain ⟨H, -, hH, h⟩ := hb _ _ _ (hyperbolic_continuous M) (hyperbolic_bracket h1 M)
  exact ⟨H, h, by linarith⟩

theorem half_cosh (H : ℝ) : Real.cosh H = Real.cosh (H / 2) ^ 2 + Real.sinh (H / 2) ^ 2 := by
  rw [← Real.cosh_two_mul, mul_div_cancel₀ _ (two_ne_zero)]

theorem half_sinh (H : ℝ) : Real.sinh H = 2 * Real.sinh (H / 2) * Real.cosh (H / 2) := by
  rw [← Real.sinh_two_mul, mul_div_cancel₀ _ (two_ne_zero)]

theorem trueFromHyperbolicEccentric_eq (h1 : 1 < e) (H : ℝ) :
    ∃ ν, trueFromHyperbolicEccentric (num e) (num H) = num ν ∧ Real.cos ν = (e - Real.cosh H) / (e * Real.cosh H - 1) ∧
      Real.sin ν = √(e ^ 2 - 1) * Real.sinh H / (e * Real.cosh H - 1) := by
  have hD := DH_pos h1 H
  have hw : 0 < √(e * Real.cosh H - 1) := Real.sqrt_pos.2 hD
  have hw2 : √(e * Real.cosh H - 1) ^ 2 = e * Real.cosh H - 1 := Real.sq_sqrt hD.le
  have hm : √(e - 1) ^ 2 = e - 1 := Real.sq_sqrt (by linarith)
  have hp : √(e + 1) ^ 2 = e + 1 := Real.sq_sqrt (by linarith)
  have hcs := Real.cosh_sq_sub_sinh_sq (H / 2)
  obtain ⟨hc, hs⟩ := arg_cs (x := √(e - 1) * Real.cosh (H / 2)) (y := √(e + 1) * Real.sinh (H / 2)) hw (by
    rw [hw2, mul_pow, mul_pow, hm, hp, half_cosh H]
    linear_combination -hcs)
  refine ⟨2 * Complex.arg ⟨√(e - 1) * Real.cosh (H / 2), √(e + 1) * Real.sinh (H / 2)⟩, ?_, ?_, ?_⟩
  · rw [trueFromHyperbolicEccentric, num_div two_ne_zero, num_add, num_sub, sqrt_num' (y := e + 1) (by linarith) rfl, sqrt_num' (y := e - 1) (by linarith) rfl]
    rfl
  · rw [Real.cos_two_mul, hc, div_pow, hw2, mul_pow, hm]
    have hD' := hD.ne'
    rw [half_cosh H] at hD' ⊢
    field_simp
    linear_combination (e - 1) * hcs
  · rw [Real.sin_two_mul, hs, hc, show (e ^ 2 - 1 : ℝ) = (e + 1) * (e - 1) by ring, Real.sqrt_mul (by linarith), half_sinh H]
    generalize √(e * Real.cosh H - 1) = w at hw hw2 ⊢
    rw [← hw2]
    field_simp

end Hyperbola

/-! ### The motion -/

/-- The coordinates of the displacement in the plane of the orbit, from the hyperbolic eccentric anomaly. -/
noncomputable def Conic.hyperbolaPosition (c : Conic) (H : ℝ) : R3 ℝ := ⟨-c.a * (c.e - Real.cosh H), -c.a * (√(c.e ^ 2 - 1) * Real.sinh H), 0⟩

/-- The coordinates of the velocity in the plane of the orbit, from the hyperbolic eccentric anomaly. -/
noncomputable def Conic.hyperbolaVelocity (c : Conic) (H : ℝ) : R3 ℝ :=
  ⟨√(c.μ / -c.a) * (-Real.sinh H / (c.e * Real.cosh H - 1)), √(c.μ / -c.a) * (√(c.e ^ 2 - 1) * (Real.cosh H / (c.e * Real.cosh H - 1))), 0⟩

variable {c : Conic}

theorem hyperbola_s (h : c.IsHyperbola) : 0 < c.e ^ 2 - 1 := by
  have := h.e
  nlinarith

theorem hyperbola_cs (h : c.IsHyperbola) (H : ℝ) :
    ((c.e - Real.cosh H) / (c.e * Real.cosh H - 1)) ^ 2 + (√(c.e ^ 2 - 1) * Real.sinh H / (c.e * Real.cosh H - 1)) ^ 2 = 1 := by
  have hD := DH_pos h.e H
  have hs2 : √(c.e ^ 2 - 1) ^ 2 = c.e ^ 2 - 1 := Real.sq_sqrt (hyperbola_s h).le
  have hcs := Real.cosh_sq_sub_sinh_sq H
  rw [div_pow, div_pow, mul_pow, hs2, ← add_div, div_eq_one_iff_eq (by positivity)]
  linear_combination (1 - c.e ^ 2) * hcs

theorem hyperbola_ν_pos (h : c.IsHyperbola) (H : ℝ) : 1 + c.e * ((c.e - Real.cosh H) / (c.e * Real.cosh H - 1)) = (c.e ^ 2 - 1) / (c.e * Real.cosh H - 1) := by
  have hD := DH_pos h.e H
  field_simp
  ring

theorem planePosition_hyperbola (h : c.IsHyperbola) (H : ℝ) :
    c.planePosition ((c.e - Real.cosh H) / (c.e * Real.cosh H - 1)) (√(c.e ^ 2 - 1) * Real.sinh H / (c.e * Real.cosh H - 1)) = c.hyperbolaPosition H := by
  have hD := DH_pos h.e H
  have hs := hyperbola_s h
  rw [Conic.planePosition, hyperbola_ν_pos h, Conic.ℓ, Conic.hyperbolaPosition]
  have : c.a * (1 - c.e ^ 2) / ((c.e ^ 2 - 1) / (c.e * Real.cosh H - 1)) = -c.a * (c.e * Real.cosh H - 1) := by
    rw [show c.a * (1 - c.e ^ 2) = -c.a * (c.e ^ 2 - 1) by ring]
    field_simp
  rw [this]
  ext <;> simp only [R3.smul_x, R3.smul_y, R3.smul_z]
  · field_simp
  · field_simp
  · ring

theorem planeVelocity_hyperbola (h : c.IsHyperbola) (H : ℝ) :
    c.planeVelocity ((c.e - Real.cosh H) / (c.e * Real.cosh H - 1)) (√(c.e ^ 2 - 1) * Real.sinh H / (c.e * Real.cosh H - 1)) = c.hyperbolaVelocity H := by
  have hD := DH_pos h.e H
  have hs := hyperbola_s h
  have ha : 0 < -c.a := by linarith [h.a]
  have hμ := h.μ
  have hs2 : √(c.e ^ 2 - 1) ^ 2 = c.e ^ 2 - 1 := Real.sq_sqrt (hyperbola_s h).le
  have hs0 : 0 < √(c.e ^ 2 - 1) := Real.sqrt_pos.2 hs
  have hv : √(c.μ / c.ℓ) = √(c.μ / -c.a) / √(c.e ^ 2 - 1) := by
    rw [← Real.sqrt_div (by positivity), Conic.ℓ, div_div]
    congr 2; ring
  rw [Conic.planeVelocity, hv, Conic.hyperbolaVelocity]
  ext <;> simp only [R3.smul_x, R3.smul_y, R3.smul_z]
  · field_simp
  · field_simp
    rw [hs2]; ring
  · ring

theorem hyperbolaPosition_norm (h : c.IsHyperbola) (H : ℝ) : (c.hyperbolaPosition H).norm = -c.a * (c.e * Real.cosh H - 1) := by
  have hD := DH_pos h.e H
  have hs2 : √(c.e ^ 2 - 1) ^ 2 = c.e ^ 2 - 1 := Real.sq_sqrt (hyperbola_s h).le
  have ha : 0 < -c.a := by linarith [h.a]
  apply norm_of_sq (by positivity)
  simp only [Conic.hyperbolaPosition, R3.normSq]
  linear_combination (c.a * Real.sinh H) ^ 2 * hs2 + c.a ^ 2 * (1 - c.e ^ 2) * Real.cosh_sq_sub_sinh_sq H

theorem hyperbolicMeanMotion_a (h : c.IsHyperbola) : √(c.μ / (-c.a) ^ 3) * -c.a = √(c.μ / -c.a) := by
  have ha : 0 < -c.a := by linarith [h.a]
  have hμ := h.μ
  generalize -c.a = b at ha ⊢
  rw [show c.μ / b = c.μ / b ^ 3 * b ^ 2 by field_simp, Real.sqrt_mul (by positivity), Real.sqrt_sq ha.le]

theorem hyperbola_newton (h : c.IsHyperbola) (p : Plane) {H : ℝ → ℝ} (hH : ∀ t, HasDerivAt H (√(c.μ / (-c.a) ^ 3) / (c.e * Real.cosh (H t) - 1)) t) :
    Newton c.μ (fun t => p.rotation.apply (c.hyperbolaPosition (H t))) (fun t => p.rotation.apply (c.hyperbolaVelocity (H t))) := by
  have ha : 0 < -c.a := by linarith [h.a]
  have hμ := h.μ
  have hn := hyperbolicMeanMotion_a h
  have hn2 : √(c.μ / (-c.a) ^ 3) ^ 2 = c.μ / (-c.a) ^ 3 := Real.sq_sqrt (by positivity)
  constructor
  · intro t
    apply p.hasDeriv
    have hD := DH_pos h.e (H t)
    constructor
    · refine (((hH t).cosh.const_sub c.e).const_mul (-c.a)).congr_deriv ?_
      simp only [Conic.hyperbolaVelocity, ← hn]; ring
    · refine (((hH t).sinh.const_mul √(c.e ^ 2 - 1)).const_mul (-c.a)).congr_deriv ?_
      simp only [Conic.hyperbolaVelocity, ← hn]; ring
    · exact hasDerivAt_const t 0
  · intro t
    have hD := DH_pos h.e (H t)
    show HasDeriv _ (-(c.μ / (p.rotation.apply (c.hyperbolaPosition (H t))).norm ^ 3) • p.rotation.apply (c.hyperbolaPosition (H t))) t
    rw [p.apply_norm, hyperbolaPosition_norm h, ← p.apply_smul]
    apply p.hasDeriv
    have hd : HasDerivAt (fun t => c.e * Real.cosh (H t) - 1) (c.e * (Real.sinh (H t) * (√(c.μ / (-c.a) ^ 3) / (c.e * Real.cosh (H t) - 1)))) t :=
      ((hH t).cosh.const_mul c.e).sub_const 1
    have hμa : c.μ = √(c.μ / (-c.a) ^ 3) ^ 2 * (-c.a) ^ 3 := by rw [hn2, div_mul_cancel₀ _ (pow_ne_zero 3 ha.ne')]
    have hcs := Real.cosh_sq_sub_sinh_sq (H t)
    have hk : c.μ / (-c.a * (c.e * Real.cosh (H t) - 1)) ^ 3 = √(c.μ / (-c.a) ^ 3) ^ 2 * (-c.a) ^ 3 / (-c.a * (c.e * Real.cosh (H t) - 1)) ^ 3 := by rw [← hμa]
    constructor
    · refine (((hH t).sinh.neg.div hd hD.ne').const_mul √(c.μ / -c.a)).congr_deriv ?_
      simp only [Conic.hyperbolaPosition, R3.smul_x, ← hn, Pi.neg_apply]
      rw [hk]
      generalize √(c.μ / (-c.a) ^ 3) = n
      generalize -c.a = b at ha ⊢
      field_simp
      linear_combination (-n ^ 2 * c.e / (c.e * Real.cosh (H t) - 1) ^ 3) * hcs
    · refine ((((hH t).cosh.div hd hD.ne').const_mul √(c.e ^ 2 - 1)).const_mul √(c.μ / -c.a)).congr_deriv ?_
      simp only [Conic.hyperbolaPosition, R3.smul_y, ← hn]
      rw [hk]
      generalize √(c.μ / (-c.a) ^ 3) = n
      generalize √(c.e ^ 2 - 1) = s
      generalize -c.a = b at ha ⊢
      field_simp
      ring
    · refine (hasDerivAt_const t (0 : ℝ)).congr_deriv ?_
      simp [Conic.hyperbolaPosition]
  · intro t
    have hD := DH_pos h.e (H t)
    show 0 < (p.rotation.apply (c.hyperbolaPosition (H t))).norm
    rw [p.apply_norm, hyperbolaPosition_norm h]
    positivity

end Principia.Physics.Kepler
