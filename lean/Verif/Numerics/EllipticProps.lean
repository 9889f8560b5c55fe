import Verif.Numerics.EllipticModel
import Mathlib.Analysis.Calculus.Deriv.Inverse
import Mathlib.Analysis.SpecialFunctions.Trigonometric.Deriv
import Mathlib.Topology.Order.MonotoneContinuity
import Mathlib.Analysis.SpecialFunctions.Integrals.Basic
import Mathlib.Tactic.Linarith
import Mathlib.Tactic.Positivity

/-!
The properties of the elliptic integrals and functions that are needed to solve Euler's equations.
-/

set_option linter.unusedSimpArgs false
set_option linter.unusedVariables false

namespace Principia.Numerics.Elliptic

variable {mc : ℝ}

theorem radicand_pos (h0 : 0 < mc) (h1 : mc ≤ 1) (θ : ℝ) : 0 < 1 - (1 - mc) * Real.sin θ ^ 2 := by
  have := Real.sin_sq_le_one θ
  nlinarith

theorem delta_pos (h0 : 0 < mc) (h1 : mc ≤ 1) (θ : ℝ) : 0 < delta mc θ := Real.sqrt_pos.2 (radicand_pos h0 h1 θ)

theorem delta_sq (h0 : 0 < mc) (h1 : mc ≤ 1) (θ : ℝ) : delta mc θ ^ 2 = 1 - (1 - mc) * Real.sin θ ^ 2 := Real.sq_sqrt (radicand_pos h0 h1 θ).le

theorem delta_le_one (h1 : mc ≤ 1) (θ : ℝ) : delta mc θ ≤ 1 := by
  unfold delta
  refine (Real.sqrt_le_sqrt ?_).trans_eq Real.sqrt_one
  have := sq_nonneg (Real.sin θ)
  nlinarith

theorem delta_continuous : Continuous (delta mc) := by unfold delta; fun_prop

theorem integrand_continuous (h0 : 0 < mc) (h1 : mc ≤ 1) : Continuous fun θ => 1 / delta mc θ :=
  continuous_const.div delta_continuous fun θ => (delta_pos h0 h1 θ).ne'

theorem integrandPi_continuous (h0 : 0 < mc) (h1 : mc ≤ 1) {n : ℝ} (hn : n ≤ 0) : Continuous fun θ => 1 / ((1 - n * Real.sin θ ^ 2) * delta mc θ) := by
  refine continuous_const.div (Continuous.mul (by fun_prop) delta_continuous) fun θ => ?_
  have : 0 < 1 - n * Real.sin θ ^ 2 := by have := sq_nonneg (Real.sin θ); nlinarith
  exact (mul_pos this (delta_pos h0 h1 θ)).ne'

theorem ellipticF_deriv (h0 : 0 < mc) (h1 : mc ≤ 1) (φ : ℝ) : HasDerivAt (fun φ => ellipticF φ mc) (1 / delta mc φ) φ :=
  intervalIntegral.integral_hasDerivAt_right ((integrand_continuous h0 h1).intervalIntegrable _ _)
    ((integrand_continuous h0 h1).stronglyMeasurableAtFilter _ _) (integrand_continuous h0 h1).continuousAt

theorem ellipticPi_deriv (h0 : 0 < mc) (h1 : mc ≤ 1) {n : ℝ} (hn : n ≤ 0) (φ : ℝ) :
    HasDerivAt (fun φ => ellipticPi φ n mc) (1 / ((1 - n * Real.sin φ ^ 2) * delta mc φ)) φ :=
  intervalIntegral.integral_hasDerivAt_right ((integrandPi_continuous h0 h1 hn).intervalIntegrable _ _)
    ((integrandPi_continuous h0 h1 hn).stronglyMeasurableAtFilter _ _) (integrandPi_continuous h0 h1 hn).continuousAt

theorem ellipticF_strictMono (h0 : 0 < mc) (h1 : mc ≤ 1) : StrictMono fun φ => ellipticF φ mc := by
  apply strictMono_of_deriv_pos
  intro φ
  rw [(ellipticF_deriv h0 h1 φ).deriv]
  exact one_div_pos.2 (delta_pos h0 h1 φ)

theorem ellipticF_continuous (h0 : 0 < mc) (h1 : mc ≤ 1) : Continuous fun φ => ellipticF φ mc :=
  continuous_iff_continuousAt.2 fun φ => (ellipticF_deriv h0 h1 φ).continuousAt

theorem one_le_integrand (h0 : 0 < mc) (h1 : mc ≤ 1) (θ : ℝ) : 1 ≤ 1 / delta mc θ := by
  rw [le_div_iff₀ (delta_pos h0 h1 θ), one_mul]
  exact delta_le_one h1 θ

theorem ellipticF_ge (h0 : 0 < mc) (h1 : mc ≤ 1) {φ : ℝ} (hφ : 0 ≤ φ) : φ ≤ ellipticF φ mc := by
  have : ∫ θ in (0 : ℝ)..φ, (1 : ℝ) = φ := by simp
  calc φ = ∫ θ in (0 : ℝ)..φ, (1 : ℝ) := this.symm
    _ ≤ _ := intervalIntegral.integral_mono hφ (by simp) ((integrand_continuous h0 h1).intervalIntegrable _ _) fun θ => one_le_integrand h0 h1 θ

theorem ellipticF_neg (φ : ℝ) : ellipticF (-φ) mc = -ellipticF φ mc := by
  unfold ellipticF
  rw [← intervalIntegral.integral_symm]
  have := intervalIntegral.integral_comp_neg (a := φ) (b := 0) fun θ => 1 / delta mc θ
  simp only [neg_zero] at this
  rw [← this]
  congr 1
  funext θ
  simp [delta]

theorem ellipticF_surjective (h0 : 0 < mc) (h1 : mc ≤ 1) : Function.Surjective fun φ => ellipticF φ mc := by
  apply (ellipticF_continuous h0 h1).surjective
  · refine Filter.tendsto_atTop_mono' _ ?_ Filter.tendsto_id
    filter_upwards [Filter.eventually_ge_atTop 0] with φ hφ
    exact ellipticF_ge h0 h1 hφ
  · refine Filter.tendsto_atBot_mono' _ ?_ Filter.tendsto_id
    filter_upwards [Filter.eventually_le_atBot 0] with φ hφ
    have := ellipticF_ge h0 h1 (φ := -φ) (by linarith)
    rw [ellipticF_neg] at this
    show ellipticF φ mc ≤ φ
    linarith

theorem ellipticF_amplitude (h0 : 0 < mc) (h1 : mc ≤ 1) (u : ℝ) : ellipticF (jacobiAmplitude u mc) mc = u :=
  Function.invFun_eq (ellipticF_surjective h0 h1 u)

theorem amplitude_ellipticF (h0 : 0 < mc) (h1 : mc ≤ 1) (φ : ℝ) : jacobiAmplitude (ellipticF φ mc) mc = φ :=
  Function.leftInverse_invFun (ellipticF_strictMono h0 h1).injective φ

theorem amplitude_neg_ellipticF (h0 : 0 < mc) (h1 : mc ≤ 1) (φ : ℝ) : jacobiAmplitude (-ellipticF φ mc) mc = -φ := by
  rw [← ellipticF_neg, amplitude_ellipticF h0 h1]

theorem amplitude_continuous (h0 : 0 < mc) (h1 : mc ≤ 1) : Continuous fun u => jacobiAmplitude u mc := by
  have hm : StrictMono fun u => jacobiAmplitude u mc := by
    intro u v huv
    by_contra h
    have h := (ellipticF_strictMono h0 h1).monotone (not_lt.1 h)
    simp only [ellipticF_amplitude h0 h1] at h
    linarith
  exact hm.monotone.continuous_of_surjective fun φ => ⟨ellipticF φ mc, amplitude_ellipticF h0 h1 φ⟩

theorem amplitude_deriv (h0 : 0 < mc) (h1 : mc ≤ 1) (u : ℝ) : HasDerivAt (fun u => jacobiAmplitude u mc) (delta mc (jacobiAmplitude u mc)) u := by
  have := HasDerivAt.of_local_left_inverse (f := fun φ => ellipticF φ mc) (g := fun u => jacobiAmplitude u mc) (a := u)
    (amplitude_continuous h0 h1).continuousAt (ellipticF_deriv h0 h1 _) (one_div_pos.2 (delta_pos h0 h1 _)).ne'
    (Filter.Eventually.of_forall fun u => ellipticF_amplitude h0 h1 u)
  simpa using this

theorem sn_sq_add_cn_sq (u : ℝ) : (jacobiSNCNDN u mc).sn ^ 2 + (jacobiSNCNDN u mc).cn ^ 2 = 1 := Real.sin_sq_add_cos_sq _

theorem dn_sq (h0 : 0 < mc) (h1 : mc ≤ 1) (u : ℝ) : (jacobiSNCNDN u mc).dn ^ 2 = 1 - (1 - mc) * (jacobiSNCNDN u mc).sn ^ 2 := delta_sq h0 h1 _

theorem dn_pos (h0 : 0 < mc) (h1 : mc ≤ 1) (u : ℝ) : 0 < (jacobiSNCNDN u mc).dn := delta_pos h0 h1 _

theorem sn_deriv (h0 : 0 < mc) (h1 : mc ≤ 1) (u : ℝ) :
    HasDerivAt (fun u => (jacobiSNCNDN u mc).sn) ((jacobiSNCNDN u mc).cn * (jacobiSNCNDN u mc).dn) u :=
  (Real.hasDerivAt_sin _).comp u (amplitude_deriv h0 h1 u)

theorem cn_deriv (h0 : 0 < mc) (h1 : mc ≤ 1) (u : ℝ) :
    HasDerivAt (fun u => (jacobiSNCNDN u mc).cn) (-(jacobiSNCNDN u mc).sn * (jacobiSNCNDN u mc).dn) u :=
  (Real.hasDerivAt_cos _).comp u (amplitude_deriv h0 h1 u)

theorem dn_deriv (h0 : 0 < mc) (h1 : mc ≤ 1) (u : ℝ) :
    HasDerivAt (fun u => (jacobiSNCNDN u mc).dn) (-(1 - mc) * (jacobiSNCNDN u mc).sn * (jacobiSNCNDN u mc).cn) u := by
  have hd := (dn_pos h0 h1 u).ne'
  have h := (((((sn_deriv h0 h1 u).pow 2).const_mul (1 - mc)).const_sub 1)).sqrt (radicand_pos h0 h1 _).ne'
  refine h.congr_deriv ?_
  show _ / (2 * (jacobiSNCNDN u mc).dn) = _
  field_simp
  norm_num
  ring

theorem pi_deriv (h0 : 0 < mc) (h1 : mc ≤ 1) {n : ℝ} (hn : n ≤ 0) (u : ℝ) :
    HasDerivAt (fun u => ellipticPi (jacobiAmplitude u mc) n mc) (1 / (1 - n * (jacobiSNCNDN u mc).sn ^ 2)) u := by
  have h := (ellipticPi_deriv h0 h1 hn (jacobiAmplitude u mc)).comp u (amplitude_deriv h0 h1 u)
  refine h.congr_deriv ?_
  show 1 / ((1 - n * (jacobiSNCNDN u mc).sn ^ 2) * (jacobiSNCNDN u mc).dn) * (jacobiSNCNDN u mc).dn = _
  have hd := (dn_pos h0 h1 u).ne'
  have : 1 - n * (jacobiSNCNDN u mc).sn ^ 2 ≠ 0 := by
    have := sq_nonneg (jacobiSNCNDN u mc).sn
    nlinarith
  field_simp

end Principia.Numerics.Elliptic
