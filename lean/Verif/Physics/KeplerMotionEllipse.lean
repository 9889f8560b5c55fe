import Verif.Physics.KeplerMotionFrame
import Mathlib.Analysis.Calculus.Deriv.Inv
import Mathlib.Analysis.Calculus.Deriv.Inverse
import Mathlib.Analysis.Calculus.Deriv.MeanValue
import Mathlib.Analysis.SpecialFunctions.Trigonometric.Deriv
import Mathlib.Topology.Order.IntermediateValue
import Mathlib.Topology.Order.MonotoneContinuity

/-!
Lemmas for C56: the motion on an ellipse.
-/

set_option linter.unusedSimpArgs false
set_option linter.unusedVariables false
set_option linter.unusedSectionVars false

namespace Principia.Physics.Kepler

open Geometry Real Fl

theorem inverse_deriv {f f' : ℝ → ℝ} (hf : ∀ x, HasDerivAt f (f' x) x) (hpos : ∀ x, 0 < f' x) (hs : Function.Surjective f) :
    ∃ g : ℝ → ℝ, (∀ y, f (g y) = y) ∧ (∀ x, g (f x) = x) ∧ ∀ y, HasDerivAt g (f' (g y))⁻¹ y := by
  have hm : StrictMono f := strictMono_of_hasDerivAt_pos hf hpos
  let φ := hm.orderIsoOfSurjective f hs
  refine ⟨φ.symm, fun y => φ.apply_symm_apply y, fun x => φ.symm_apply_apply x, fun y => ?_⟩
  exact (hf (φ.symm y)).of_local_left_inverse φ.symm.toHomeomorph.continuous.continuousAt (hpos _).ne' (Filter.Eventually.of_forall fun y => φ.apply_symm_apply y)

/-- A root exists, so a root finder exists. -/
theorem exists_root {f : ℝ → ℝ} {a b : ℝ} (hf : Continuous f) (h : f a * f b ≤ 0) : ∃ x ∈ Set.uIcc a b, f x = 0 := by
  have h0 : (0 : ℝ) ∈ Set.uIcc (f a) (f b) := by
    rw [Set.mem_uIcc]
    rcases mul_nonpos_iff.1 h with ⟨h1, h2⟩ | ⟨h1, h2⟩
    · exact Or.inr ⟨h2, h1⟩
    · exact Or.inl ⟨h1, h2⟩
  obtain ⟨x, hx, h⟩ := intermediate_value_uIcc hf.continuousOn h0
  exact ⟨x, hx, h⟩

section Ellipse

variable {e : ℝ}

theorem kepler_bracket (h0 : 0 ≤ e) (M : ℝ) :
    (M - ((M - e) - e * Real.sin (M - e))) * (M - ((M + e) - e * Real.sin (M + e))) ≤ 0 := by
  have h1 := Real.neg_one_le_sin (M - e)
  have h2 := Real.sin_le_one (M + e)
  have h3 : 0 ≤ e * (1 + Real.sin (M - e)) := mul_nonneg h0 (by linarith)
  have h4 : e * (Real.sin (M + e) - 1) ≤ 0 := mul_nonpos_of_nonneg_of_nonpos h0 (by linarith)
  have : (M - ((M - e) - e * Real.sin (M - e))) * (M - ((M + e) - e * Real.sin (M + e))) = (e * (1 + Real.sin (M - e))) * (e * (Real.sin (M + e) - 1)) := by ring
  rw [this]
  exact mul_nonpos_of_nonneg_of_nonpos h3 h4

theorem D_pos (h0 : 0 ≤ e) (h1 : e < 1) (E : ℝ) : 0 < 1 - e * Real.cos E := by
  have := Real.cos_le_one E
  nlinarith

theorem kepler_continuous (M : ℝ) : Continuous fun E => M - (E - e * Real.sin E) := by
  fun_prop

theorem kepler_inverse (h0 : 0 ≤ e) (h1 : e < 1) :
    ∃ g : ℝ → ℝ, (∀ M, g M - e * Real.sin (g M) = M) ∧ (∀ E, g (E - e * Real.sin E) = E) ∧ ∀ M, HasDerivAt g (1 - e * Real.cos (g M))⁻¹ M := by
  apply inverse_deriv (f := fun E => E - e * Real.sin E) (f' := fun E => 1 - e * Real.cos E)
  · intro E
    exact (hasDerivAt_id' E).sub ((Real.hasDerivAt_sin E).const_mul e)
  · exact D_pos h0 h1
  · intro M
    obtain ⟨E, -, hE⟩ := exists_root (kepler_continuous M) (kepler_bracket h0 M)
    exact ⟨E, by linarith⟩

theorem eccentricAnomaly_eq {brent : RootFinder} (hb : IsRootFinder brent) (h0 : 0 ≤ e) {M : ℝ} :
    ∃ E, eccentricAnomaly brent e M = some E ∧ E - e * Real.sin E = M := by
  rw [eccentricAnomaly]
  by_cases he : e = 0
  · exact ⟨M, if_pos he, by rw [he]; ring⟩
  · rw [if_neg he]
    obtain ⟨E, -, hE, h⟩ := hb _ _ _ (kepler_continuous M) (kepler_bracket h0 M)
    exact ⟨E, h, by linarith⟩

theorem half_cos (E : ℝ) : Real.cos E = Real.cos (E / 2) ^ 2 - Real.sin (E / 2) ^ 2 := by
  rw [← Real.cos_two_mul', mul_div_cancel₀ _ (two_ne_zero)]

theorem half_sin (E : ℝ) : Real.sin E = 2 * Real.sin (E / 2) * Real.cos (E / 2) := by
  rw [← Real.sin_two_mul, mul_div_cancel₀ _ (two_ne_zero)]

theorem trueFromEccentric_eq (h0 : 0 ≤ e) (h1 : e < 1) (E : ℝ) :
    ∃ ν, trueFromEccentric (num e) (num E) = num ν ∧ Real.cos ν = (Real.cos E - e) / (1 - e * Real.cos E) ∧
      Real.sin ν = √(1 - e ^ 2) * Real.sin E / (1 - e * Real.cos E) := by
  have hD := D_pos h0 h1 E
  have hw : 0 < √(1 - e * Real.cos E) := Real.sqrt_pos.2 hD
  have hw2 : √(1 - e * Real.cos E) ^ 2 = 1 - e * Real.cos E := Real.sq_sqrt hD.le
  have hm : √(1 - e) ^ 2 = 1 - e := Real.sq_sqrt (by linarith)
  have hp : √(1 + e) ^ 2 = 1 + e := Real.sq_sqrt (by linarith)
  have hcs := Real.cos_sq_add_sin_sq (E / 2)
  obtain ⟨hc, hs⟩ := arg_cs (x := √(1 - e) * Real.cos (E / 2)) (y := √(1 + e) * Real.sin (E / 2)) hw (by
    rw [hw2, mul_pow, mul_pow, hm, hp, half_cos E]
    linear_combination hcs)
  refine ⟨2 * Complex.arg ⟨√(1 - e) * Real.cos (E / 2), √(1 + e) * Real.sin (E / 2)⟩, ?_, ?_, ?_⟩
  · rw [trueFromEccentric, num_div two_ne_zero, num_add, num_sub, sqrt_num' (y := 1 + e) (by linarith) rfl, sqrt_num' (y := 1 - e) (by linarith) rfl]
    rfl
  · rw [Real.cos_two_mul, hc, div_pow, hw2, mul_pow, hm]
    have hD' := hD.ne'
    rw [half_cos E] at hD' ⊢
    field_simp
    linear_combination (1 - e) * hcs
  · rw [Real.sin_two_mul, hs, hc, show (1 - e ^ 2 : ℝ) = (1 + e) * (1 - e) by ring, Real.sqrt_mul (by linarith), half_sin E]
    generalize √(1 - e * Real.cos E) = w at hw hw2 ⊢
    rw [← hw2]
    field_simp

end Ellipse

/-! ### The motion -/

/-- The coordinates of the displacement in the plane of the orbit, from the eccentric anomaly. -/
noncomputable def Conic.ellipsePosition (c : Conic) (E : ℝ) : R3 ℝ := ⟨c.a * (Real.cos E - c.e), c.a * (√(1 - c.e ^ 2) * Real.sin E), 0⟩

/-- The coordinates of the velocity in the plane of the orbit, from the eccentric anomaly. -/
noncomputable def Conic.ellipseVelocity (c : Conic) (E : ℝ) : R3 ℝ :=
  ⟨√(c.μ / c.a) * (-Real.sin E / (1 - c.e * Real.cos E)), √(c.μ / c.a) * (√(1 - c.e ^ 2) * (Real.cos E / (1 - c.e * Real.cos E))), 0⟩

variable {c : Conic}

theorem ellipse_s (h : c.IsEllipse) : 0 < 1 - c.e ^ 2 := by
  have := h.e₀
  have := h.e₁
  nlinarith

theorem ellipse_cs (h : c.IsEllipse) (E : ℝ) : ((Real.cos E - c.e) / (1 - c.e * Real.cos E)) ^ 2 + (√(1 - c.e ^ 2) * Real.sin E / (1 - c.e * Real.cos E)) ^ 2 = 1 := by
  have hD := D_pos h.e₀ h.e₁ E
  have hs2 : √(1 - c.e ^ 2) ^ 2 = 1 - c.e ^ 2 := Real.sq_sqrt (ellipse_s h).le
  have hcs := Real.cos_sq_add_sin_sq E
  rw [div_pow, div_pow, mul_pow, hs2, ← add_div, div_eq_one_iff_eq (by positivity)]
  linear_combination (1 - c.e ^ 2) * hcs

theorem ellipse_ν_pos (h : c.IsEllipse) (E : ℝ) : 1 + c.e * ((Real.cos E - c.e) / (1 - c.e * Real.cos E)) = (1 - c.e ^ 2) / (1 - c.e * Real.cos E) := by
  have hD := D_pos h.e₀ h.e₁ E
  field_simp
  ring

theorem planePosition_ellipse (h : c.IsEllipse) (E : ℝ) :
    c.planePosition ((Real.cos E - c.e) / (1 - c.e * Real.cos E)) (√(1 - c.e ^ 2) * Real.sin E / (1 - c.e * Real.cos E)) = c.ellipsePosition E := by
  have hD := D_pos h.e₀ h.e₁ E
  have hs := ellipse_s h
  rw [Conic.planePosition, ellipse_ν_pos h, Conic.ℓ, Conic.ellipsePosition]
  have : c.a * (1 - c.e ^ 2) / ((1 - c.e ^ 2) / (1 - c.e * Real.cos E)) = c.a * (1 - c.e * Real.cos E) := by
    field_simp
  rw [this]
  ext <;> simp only [R3.smul_x, R3.smul_y, R3.smul_z]
  · field_simp
  · field_simp
  · ring

theorem planeVelocity_ellipse (h : c.IsEllipse) (E : ℝ) :
    c.planeVelocity ((Real.cos E - c.e) / (1 - c.e * Real.cos E)) (√(1 - c.e ^ 2) * Real.sin E / (1 - c.e * Real.cos E)) = c.ellipseVelocity E := by
  have hD := D_pos h.e₀ h.e₁ E
  have hs := ellipse_s h
  have ha := h.a
  have hμ := h.μ
  have hs2 : √(1 - c.e ^ 2) ^ 2 = 1 - c.e ^ 2 := Real.sq_sqrt (ellipse_s h).le
  have hs0 : 0 < √(1 - c.e ^ 2) := Real.sqrt_pos.2 hs
  have hv : √(c.μ / c.ℓ) = √(c.μ / c.a) / √(1 - c.e ^ 2) := by
    rw [← Real.sqrt_div (by positivity), Conic.ℓ, div_div]
  rw [Conic.planeVelocity, hv, Conic.ellipseVelocity]
  ext <;> simp only [R3.smul_x, R3.smul_y, R3.smul_z]
  · field_simp
  · field_simp
    rw [hs2]; ring
  · ring

theorem ellipsePosition_norm (h : c.IsEllipse) (E : ℝ) : (c.ellipsePosition E).norm = c.a * (1 - c.e * Real.cos E) := by
  have hD := D_pos h.e₀ h.e₁ E
  have hs2 : √(1 - c.e ^ 2) ^ 2 = 1 - c.e ^ 2 := Real.sq_sqrt (ellipse_s h).le
  have ha := h.a
  apply norm_of_sq (by positivity)
  simp only [Conic.ellipsePosition, R3.normSq]
  linear_combination (c.a * Real.sin E) ^ 2 * hs2 + c.a ^ 2 * (1 - c.e ^ 2) * Real.cos_sq_add_sin_sq E

theorem meanMotion_a (h : c.IsEllipse) : √(c.μ / c.a ^ 3) * c.a = √(c.μ / c.a) := by
  have ha := h.a
  have hμ := h.μ
  rw [show c.μ / c.a = c.μ / c.a ^ 3 * c.a ^ 2 by field_simp, Real.sqrt_mul (by positivity), Real.sqrt_sq ha.le]

theorem ellipse_newton (h : c.IsEllipse) (p : Plane) {E : ℝ → ℝ} (hE : ∀ t, HasDerivAt E (√(c.μ / c.a ^ 3) / (1 - c.e * Real.cos (E t))) t) :
    Newton c.μ (fun t => p.rotation.apply (c.ellipsePosition (E t))) (fun t => p.rotation.apply (c.ellipseVelocity (E t))) := by
  have ha := h.a
  have hμ := h.μ
  have hn := meanMotion_a h
  have hn2 : √(c.μ / c.a ^ 3) ^ 2 = c.μ / c.a ^ 3 := Real.sq_sqrt (by positivity)
  constructor
  · intro t
    apply p.hasDeriv
    have hD := D_pos h.e₀ h.e₁ (E t)
    constructor
    · refine (((hE t).cos.sub_const c.e).const_mul c.a).congr_deriv ?_
      simp only [Conic.ellipseVelocity, ← hn]; ring
    · refine (((hE t).sin.const_mul √(1 - c.e ^ 2)).const_mul c.a).congr_deriv ?_
      simp only [Conic.ellipseVelocity, ← hn]; ring
    · exact hasDerivAt_const t 0
  · intro t
    have hD := D_pos h.e₀ h.e₁ (E t)
    show HasDeriv _ (-(c.μ / (p.rotation.apply (c.ellipsePosition (E t))).norm ^ 3) • p.rotation.apply (c.ellipsePosition (E t))) t
    rw [p.apply_norm, ellipsePosition_norm h, ← p.apply_smul]
    apply p.hasDeriv
    have hd : HasDerivAt (fun t => 1 - c.e * Real.cos (E t)) (-(c.e * (-Real.sin (E t) * (√(c.μ / c.a ^ 3) / (1 - c.e * Real.cos (E t)))))) t :=
      ((hE t).cos.const_mul c.e).const_sub 1
    have hμa : c.μ = √(c.μ / c.a ^ 3) ^ 2 * c.a ^ 3 := by rw [hn2]; field_simp
    have hcs := Real.cos_sq_add_sin_sq (E t)
    constructor
    · refine (((hE t).sin.neg.div hd hD.ne').const_mul √(c.μ / c.a)).congr_deriv ?_
      simp only [Conic.ellipsePosition, R3.smul_x, ← hn, Pi.neg_apply]
      rw [show c.μ / (c.a * (1 - c.e * Real.cos (E t))) ^ 3 = √(c.μ / c.a ^ 3) ^ 2 * c.a ^ 3 / (c.a * (1 - c.e * Real.cos (E t))) ^ 3 by rw [← hμa]]
      generalize √(c.μ / c.a ^ 3) = n
      field_simp
      linear_combination (n ^ 2 * c.e / (1 - c.e * Real.cos (E t)) ^ 3) * hcs
    · refine ((((hE t).cos.div hd hD.ne').const_mul √(1 - c.e ^ 2)).const_mul √(c.μ / c.a)).congr_deriv ?_
      simp only [Conic.ellipsePosition, R3.smul_y, ← hn]
      rw [show c.μ / (c.a * (1 - c.e * Real.cos (E t))) ^ 3 = √(c.μ / c.a ^ 3) ^ 2 * c.a ^ 3 / (c.a * (1 - c.e * Real.cos (E t))) ^ 3 by rw [← hμa]]
      generalize √(c.μ / c.a ^ 3) = n
      generalize √(1 - c.e ^ 2) = s
      field_simp
      ring
    · refine (hasDerivAt_const t (0 : ℝ)).congr_deriv ?_
      simp [Conic.ellipsePosition]
  · intro t
    have hD := D_pos h.e₀ h.e₁ (E t)
    show 0 < (p.rotation.apply (c.ellipsePosition (E t))).norm
    rw [p.apply_norm, ellipsePosition_norm h]
    positivity

end Principia.Physics.Kepler
