import Verif.Physics.GeopotentialGradient
import Verif.Physics.GravityProps
import Mathlib.Analysis.SpecialFunctions.Trigonometric.Basic
import Mathlib.Analysis.Calculus.Deriv.MeanValue
import Mathlib.Analysis.InnerProductSpace.PiL2

/-!
# C70: the geopotential

Specification: `legendre` (the formula of Rodrigues), `legendreD` (its derivatives), `damping`, `sphericalHarmonics`.
-/

set_option linter.unusedSimpArgs false
set_option linter.unusedVariables false
set_option linter.unusedSectionVars false

namespace Principia.Geopotential

open Legendre

variable {V : Type*} [NormedAddCommGroup V] [InnerProductSpace ℝ V]

/-! ### Specification -/

/-- The orientation of the body makes sense at the time `t`. -/
def Oriented (b : OblateBody V) (t : ℝ) : Prop := IsFrame b.equatorial b.biequatorial b.polarAxis ∧ IsFrame (b.surface t).1 (b.surface t).2 b.polarAxis

/-- The point of the given distance, latitude and longitude. -/
noncomputable def point (b : OblateBody V) (t ρ β lon : ℝ) : V := ρ • ((Real.cos β * Real.cos lon) • (b.surface t).1 + (Real.cos β * Real.sin lon) • (b.surface t).2 + Real.sin β • b.polarAxis)

/-- The potential of the harmonic of degree `n` and order `m`, at a given distance, latitude and longitude, per unit of gravitational parameter. -/
noncomputable def sphericalHarmonic (N : ℕ → ℕ → ℝ) (b : OblateBody V) (n m : ℕ) (ρ β lon : ℝ) : ℝ :=
  -(1 / ρ) * (b.referenceRadius / ρ) ^ n * (N n m * Real.cos β ^ m * legendreD n m (Real.sin β)) * (b.cos n m * Real.cos (m * lon) + b.sin n m * Real.sin (m * lon))

/-- The potential of all the harmonics, each of them being damped, except the one of degree 2 and order 1. -/
noncomputable def sphericalHarmonics (N : ℕ → ℕ → ℝ) (b : OblateBody V) (σ : ℕ → ℕ → ℝ) (ρ β lon : ℝ) : ℝ :=
  ∑ n ∈ Finset.Icc 2 b.degree, ∑ m ∈ Finset.range (n + 1), if n = 2 ∧ m = 1 then 0 else σ n m * sphericalHarmonic N b n m ρ β lon

/-- The distance below which the harmonic of degree `n` and order `m` is not damped. -/
noncomputable def innerRadius (maxAbs : ℕ → ℕ → ℝ) (b : OblateBody V) (ε : ℝ) (n m : ℕ) : WithTop ℝ := (construct maxAbs b ε).inner n m

/-! ### The damping -/

/-- The factor is 1 below the threshold, 0 beyond three times the threshold, and decreases in between, without jumps in its value or its derivative. -/
theorem C70_damping {s : WithTop ℝ} (hs : 0 ≤ s) :
    (∀ r : ℝ, (r : WithTop ℝ) ≤ s → damping s r = 1) ∧ (∀ r : ℝ, 0 < r → outerThreshold s ≤ r → damping s r = 0) ∧ AntitoneOn (damping s) (Set.Ioi 0) ∧
      (∀ r : ℝ, 0 < r → HasDerivAt (damping s) (dampingSlope s r) r) ∧ (0 < s → ContinuousOn (dampingSlope s) (Set.Ioi 0)) := by
  have hd : ∀ r : ℝ, 0 < r → HasDerivAt (damping s) (dampingSlope s r) r := fun r hr => hasDerivAt_damping hs hr
  have slope : ∀ r : ℝ, 0 < r → dampingSlope s r ≤ 0 := by
    intro r hr
    cases s with
    | top => rw [dampingSlope_top]
    | coe s =>
      rw [dampingSlope_coe]
      by_cases h1 : r ≤ s
      · rw [if_pos h1]
      · rw [if_neg h1]
        by_cases h2 : r < s * 3
        · rw [if_pos h2, sigmoidSlope]
          have hs0 : 0 < s := by linarith
          have e1 : 1 < r / s := by rw [lt_div_iff₀ hs0]; linarith [not_le.1 h1]
          have e2 : r / s < 3 := by rw [div_lt_iff₀ hs0]; linarith
          have : (3 - r / s) * (3 - 3 * (r / s)) ≤ 0 := mul_nonpos_of_nonneg_of_nonpos (by linarith) (by linarith)
          have h4 : 0 ≤ 1 / (4 * s) := by positivity
          exact mul_nonpos_of_nonneg_of_nonpos h4 this
        · rw [if_neg h2]
  refine ⟨fun r h => damping_below h, fun r hr h => (damping_above hs hr h).1, ?_, hd, ?_⟩
  · refine antitoneOn_of_deriv_nonpos (convex_Ioi 0) (fun r hr => (hd r hr).continuousAt.continuousWithinAt) (fun r hr => ?_) (fun r hr => ?_)
    · rw [interior_Ioi] at hr
      exact (hd r hr).differentiableAt.differentiableWithinAt
    · rw [interior_Ioi] at hr
      rw [(hd r hr).deriv]
      exact slope r hr
  · intro hs0
    cases s with
    | top =>
      rw [show dampingSlope ⊤ = fun _ => 0 from funext dampingSlope_top]
      exact continuousOn_const
    | coe s =>
      have hs1 : 0 < s := by exact_mod_cast hs0
      have hc : Continuous (sigmoidSlope s) := by
        unfold sigmoidSlope
        fun_prop
      have e : dampingSlope (s : WithTop ℝ) = fun r => if r ≤ s then 0 else if r ≤ s * 3 then sigmoidSlope s r else 0 := by
        funext r
        rw [dampingSlope_coe]
        by_cases h1 : r ≤ s
        · rw [if_pos h1, if_pos h1]
        · rw [if_neg h1, if_neg h1]
          rcases lt_trichotomy r (s * 3) with h | h | h
          · rw [if_pos h, if_pos h.le]
          · rw [h, if_neg (lt_irrefl _), if_pos le_rfl, (sigmoid_outer hs1).2]
          · rw [if_neg (by linarith), if_neg (by linarith)]
      rw [e]
      refine Continuous.continuousOn ?_
      refine Continuous.if_le continuous_const (Continuous.if_le hc continuous_const continuous_id continuous_const ?_) continuous_id continuous_const ?_
      · intro r hr
        rw [show r = s * 3 from hr, (sigmoid_outer hs1).2]
      · intro r hr
        have hr' : r = s := hr
        rw [hr', if_pos (by linarith), (sigmoid_inner hs1).2]

/-- The thresholds decrease with the degree. -/
theorem C70_thresholds {maxAbs : ℕ → ℕ → ℝ} (hmax : ∀ n m, 0 ≤ maxAbs n m) {b : OblateBody V} (hR : 0 ≤ b.referenceRadius) {ε : ℝ} (hε : 0 ≤ ε) {n m n' m' : ℕ} (hn : 2 ≤ n) (hnn : n < n') (hn' : n' ≤ b.degree) (hm : m ≤ n) (hm' : m' ≤ n') :
    0 ≤ innerRadius maxAbs b ε n' m' ∧ innerRadius maxAbs b ε n' m' ≤ innerRadius maxAbs b ε n m := by
  have w := construct_wellDamped (maxAbs := maxAbs) (b := b) hmax hR hε
  refine ⟨w.inner_nonneg _ _, ?_⟩
  unfold innerRadius Damping.inner
  rw [if_neg (by omega)]
  by_cases h : n = 2 ∧ m = 2
  · rw [if_pos h]
    exact (w.sectoral (by omega)).2 n' (by omega) hn'
  · rw [if_neg h]
    exact w.sorted _ _ hnn.le (by omega)

theorem harmonicThreshold_le {maxAbs : ℕ → ℕ → ℝ} {b : OblateBody V} {ε : ℝ} {n m : ℕ} (hn : 2 ≤ n) (hn' : n ≤ b.degree) (hm : m ≤ n) : harmonicThreshold maxAbs b ε n m ≤ innerRadius maxAbs b ε n m := by
  have T := construct_thresholds maxAbs b ε
  unfold innerRadius Damping.inner
  by_cases h : n = 2 ∧ m = 2
  · rw [if_pos h]
    obtain ⟨rfl, rfl⟩ := h
    exact (T.sectoral hn').1
  · rw [if_neg h]
    exact T.degree n m hn hn' hm

/-- The threshold of a degree is the largest of the thresholds of the harmonics of this degree and of the following ones; the one of the sectoral harmonic of degree 2 is not affected by the other harmonics of degree 2. -/
theorem C70_thresholds_exact {maxAbs : ℕ → ℕ → ℝ} {b : OblateBody V} {ε : ℝ} {n m : ℕ} (hn : 2 ≤ n) (hn' : n ≤ b.degree) (hm : m ≤ n) :
    IsGreatest {s | ∃ k j, (if n = 2 ∧ m = 2 then 3 ≤ k ∨ (k = 2 ∧ j = 2) else n ≤ k) ∧ k ≤ b.degree ∧ j ≤ k ∧ s = harmonicThreshold maxAbs b ε k j} (innerRadius maxAbs b ε n m) := by
  have T := construct_thresholds maxAbs b ε
  unfold innerRadius Damping.inner
  by_cases h : n = 2 ∧ m = 2
  · simp only [if_pos h]
    refine ⟨T.sectoral_exact (by omega), ?_⟩
    rintro s ⟨k, j, h1 | ⟨rfl, rfl⟩, h2, h3, rfl⟩
    · exact (T.degree k j (by omega) h2 h3).trans ((T.sectoral (by omega)).2.2 k h1 h2)
    · exact (T.sectoral (by omega)).1
  · simp only [if_neg h]
    refine ⟨T.degree_exact n hn hn', ?_⟩
    rintro s ⟨k, j, h1, h2, h3, rfl⟩
    exact (T.degree k j (by omega) h2 h3).trans (T.sorted n k h1 (by omega))

/-- A harmonic is only damped where the radial acceleration that it causes is at most the tolerance times the one of the central force. -/
theorem C70_tolerance {N maxAbs : ℕ → ℕ → ℝ} {b : OblateBody V} (hR : 0 ≤ b.referenceRadius) {ε : ℝ} (hε : 0 < ε) {n m : ℕ} (hn : 2 ≤ n) (hn' : n ≤ b.degree) (hm : m ≤ n) {ρ β lon : ℝ} (hρ : 0 < ρ)
    (hmax : |N n m * Real.cos β ^ m * legendreD n m (Real.sin β)| ≤ maxAbs n m) (hd : damping (innerRadius maxAbs b ε n m) ρ ≠ 1) :
    |deriv (fun ρ => sphericalHarmonic N b n m ρ β lon) ρ| ≤ ε * |deriv (fun ρ : ℝ => -(1 / ρ)) ρ| := by
  have hthr := harmonicThreshold_le (maxAbs := maxAbs) (ε := ε) hn hn' hm
  have hlt : harmonicThreshold maxAbs b ε n m < ρ := by
    refine hthr.trans_lt ?_
    by_contra h
    exact hd (damping_below (not_lt.1 h))
  set K := N n m * Real.cos β ^ m * legendreD n m (Real.sin β) with hK
  set L := b.cos n m * Real.cos (m * lon) + b.sin n m * Real.sin (m * lon) with hL
  have hρ' := hρ.ne'
  have d1 : HasDerivAt (fun ρ : ℝ => -(1 / ρ)) (1 / ρ ^ 2) ρ := by
    have := (hasDerivAt_inv hρ').neg
    refine (this.congr_deriv (by ring)).congr_of_eventuallyEq (Filter.Eventually.of_forall fun x => by simp)
  have d2 : HasDerivAt (fun ρ => sphericalHarmonic N b n m ρ β lon) (1 / ρ ^ 2 * ((n + 1) * (b.referenceRadius / ρ) ^ n * K * L)) ρ := by
    have h1 := ((d1.mul (((hasDerivAt_inv hρ').const_mul b.referenceRadius).pow n)).mul_const K).mul_const L
    refine (h1.congr_deriv ?_).congr_of_eventuallyEq (Filter.Eventually.of_forall fun x => ?_)
    · obtain ⟨k, rfl⟩ : ∃ k, n = k + 1 := ⟨n - 1, by omega⟩
      simp only [Pi.pow_apply, Nat.add_sub_cancel, div_eq_mul_inv, mul_pow, Pi.mul_apply, one_mul, ← inv_pow]
      push_cast
      ring
    · simp only [sphericalHarmonic, Pi.pow_apply, div_eq_mul_inv, Pi.mul_apply]
      ring
  rw [d2.deriv, d1.deriv, abs_mul, abs_of_pos (by positivity : 0 < 1 / ρ ^ 2), mul_comm ε]
  refine mul_le_mul_of_nonneg_left ?_ (by positivity)
  have hmax0 : 0 ≤ maxAbs n m := (abs_nonneg _).trans hmax
  have hLle : |L| ≤ √(b.cos n m ^ 2 + b.sin n m ^ 2) := by
    apply Real.abs_le_sqrt
    have := Real.sin_sq_add_cos_sq (m * lon)
    rw [hL]
    nlinarith [sq_nonneg (b.cos n m * Real.sin (m * lon) - b.sin n m * Real.cos (m * lon)), sq_nonneg (b.cos n m), sq_nonneg (b.sin n m)]
  have hRρ : 0 ≤ b.referenceRadius / ρ := by positivity
  rw [abs_mul, abs_mul, abs_mul, abs_of_nonneg (by positivity : (0 : ℝ) ≤ n + 1), abs_of_nonneg (pow_nonneg hRρ n)]
  unfold harmonicThreshold at hlt
  by_cases hz : b.cos n m = 0 ∧ b.sin n m = 0
  · have : L = 0 := by rw [hL, hz.1, hz.2]; ring
    rw [this, abs_zero, mul_zero]
    exact hε.le
  · rw [if_neg hz, if_neg hε.ne', WithTop.coe_lt_coe] at hlt
    set q := maxAbs n m * (n + 1) * √(b.cos n m ^ 2 + b.sin n m ^ 2) / ε with hq
    have hq0 : 0 ≤ q := by positivity
    have hpow : (b.referenceRadius / ρ) ^ n * q ≤ 1 := by
      have h1 : b.referenceRadius / ρ * q ^ (1 / (n : ℝ)) ≤ 1 := by
        rw [div_mul_eq_mul_div, div_le_one hρ]
        exact hlt.le
      have h2 := pow_le_one₀ (n := n) (by positivity) h1
      rwa [mul_pow, ← Real.rpow_natCast (q ^ (1 / (n : ℝ))), ← Real.rpow_mul hq0, one_div, inv_mul_cancel₀ (by positivity), Real.rpow_one] at h2
    calc ((n : ℝ) + 1) * (b.referenceRadius / ρ) ^ n * |K| * |L| ≤ (n + 1) * (b.referenceRadius / ρ) ^ n * maxAbs n m * √(b.cos n m ^ 2 + b.sin n m ^ 2) := by gcongr
      _ = ε * ((b.referenceRadius / ρ) ^ n * q) := by rw [hq]; field_simp
      _ ≤ ε * 1 := by gcongr
      _ = ε := mul_one _

/-! ### The potential -/

/-- The norm and the projections of a point given by its spherical coordinates. -/
theorem point_coordinates {b : OblateBody V} {t : ℝ} (ho : Oriented b t) {ρ : ℝ} (hρ : 0 < ρ) (β lon : ℝ) : ‖point b t ρ β lon‖ = ρ ∧ innerSL ℝ b.polarAxis (point b t ρ β lon) = ρ * Real.sin β ∧
    equator (b.surface t).1 (b.surface t).2 (point b t ρ β lon) = (ρ * Real.cos β) • (⟨Real.cos lon, Real.sin lon⟩ : ℂ) := by
  have F := ho.2
  have hx : (inner ℝ (b.surface t).1 (point b t ρ β lon) : ℝ) = ρ * (Real.cos β * Real.cos lon) := by
    unfold point
    simp only [inner_smul_right, inner_add_right, F.xx, F.xy, F.xz]
    ring
  have hy : (inner ℝ (b.surface t).2 (point b t ρ β lon) : ℝ) = ρ * (Real.cos β * Real.sin lon) := by
    unfold point
    simp only [inner_smul_right, inner_add_right, F.yy, F.yz, (real_inner_comm _ _).trans F.xy]
    ring
  have hz : (inner ℝ b.polarAxis (point b t ρ β lon) : ℝ) = ρ * Real.sin β := by
    unfold point
    simp only [inner_smul_right, inner_add_right, F.zz, (real_inner_comm _ _).trans F.xz, (real_inner_comm _ _).trans F.yz]
    ring
  refine ⟨?_, ?_, ?_⟩
  · have h := F.norm_sq (point b t ρ β lon)
    rw [real_inner_comm, hx, real_inner_comm, hy, real_inner_comm, hz] at h
    have e : ‖point b t ρ β lon‖ ^ 2 = ρ ^ 2 := by
      rw [h]
      have h1 := Real.sin_sq_add_cos_sq β
      have h2 := Real.sin_sq_add_cos_sq lon
      linear_combination ρ ^ 2 * Real.cos β ^ 2 * h2 + ρ ^ 2 * h1
    exact (pow_left_inj₀ (norm_nonneg _) hρ.le (by norm_num)).1 e
  · rw [innerSL_apply_apply, hz]
  · rw [equator_apply, hx, hy]
    apply Complex.ext
    · rw [Complex.smul_re, smul_eq_mul]; ring
    · rw [Complex.smul_im, smul_eq_mul]; ring

theorem pow_circle (lon : ℝ) (m : ℕ) : ((⟨Real.cos lon, Real.sin lon⟩ : ℂ) ^ m).re = Real.cos (m * lon) ∧ ((⟨Real.cos lon, Real.sin lon⟩ : ℂ) ^ m).im = Real.sin (m * lon) := by
  induction m with
  | zero => simp
  | succ m ih =>
    rw [pow_succ, Complex.mul_re, Complex.mul_im, ih.1, ih.2]
    push_cast
    rw [add_mul, one_mul, Real.cos_add, Real.sin_add]
    exact ⟨rfl, by ring⟩

/-- The potential that is computed is the sum of all the spherical harmonics, damped: it does not depend on the contents of the uninitialized arrays, and the truncation of the sum does not change it. -/
theorem C70_potential {N maxAbs : ℕ → ℕ → ℝ} (hmax : ∀ n m, 0 ≤ maxAbs n m) {b : OblateBody V} (hR : 0 ≤ b.referenceRadius) {ε : ℝ} (hε : 0 ≤ ε) {compiledDegree : ℕ} (hdegree : b.degree ≤ compiledDegree) {t : ℝ}
    (ho : Oriented b t) {ρ : ℝ} (hρ : 0 < ρ) (β lon : ℝ) (u : Arrays) :
    potential N compiledDegree b (construct maxAbs b ε) t (point b t ρ β lon) ρ (ρ ^ 2) (1 / ρ ^ 3) u = some (sphericalHarmonics N b (fun n m => damping (innerRadius maxAbs b ε n m) ρ) ρ β lon) := by
  obtain ⟨hn, hz, he⟩ := point_coordinates ho hρ β lon
  have hr : point b t ρ β lon ≠ 0 := by rw [← norm_ne_zero_iff, hn]; exact hρ.ne'
  have h := potential_eq (N := N) (construct_wellDamped (maxAbs := maxAbs) hmax hR hε) hdegree ho.1 ho.2 hr u
  rw [hn] at h
  rw [h]
  congr 1
  unfold sphericalHarmonics
  refine Finset.sum_nbij (fun n => n + 2) (fun n hn => by rw [Finset.mem_range] at hn; rw [Finset.mem_Icc]; omega) (fun a _ b _ h => by simpa using h)
    (fun k hk => by rw [Finset.mem_coe, Finset.mem_Icc] at hk; exact ⟨k - 2, by rw [Finset.mem_coe, Finset.mem_range]; omega, by simp only; omega⟩) fun n _ => Finset.sum_congr rfl fun m _ => ?_
  by_cases h21 : n + 2 = 2 ∧ m = 1
  · rw [if_pos h21, if_pos h21]
  · rw [if_neg h21, if_neg h21]
    unfold harmonic sphericalHarmonic
    rw [hn, hz, he, smul_smul, re_mul_pow, (pow_circle lon m).1, (pow_circle lon m).2]
    have e1 : ρ * Real.sin β * ρ⁻¹ = Real.sin β := by field_simp
    have e2 : ρ⁻¹ * (ρ * Real.cos β) = Real.cos β := by field_simp
    rw [e1, e2]
    show -N (n + 2) m * (damping (innerRadius maxAbs b ε (n + 2) m) ρ * (b.referenceRadius ^ (n + 2) * ρ⁻¹ ^ (n + 2 + 1))) * legendreD (n + 2) m (Real.sin β) *
      (Real.cos β ^ m * (b.cos (n + 2) m * Real.cos (m * lon) + b.sin (n + 2) m * Real.sin (m * lon))) = _
    rw [div_pow, inv_pow, pow_succ ρ (n + 2)]
    field_simp

/-- If the tolerance is 0 there is no damping. -/
theorem C70_no_damping {N maxAbs : ℕ → ℕ → ℝ} (hmax : ∀ n m, 0 ≤ maxAbs n m) {b : OblateBody V} (hR : 0 ≤ b.referenceRadius) {compiledDegree : ℕ} (hdegree : b.degree ≤ compiledDegree) {t : ℝ} (ho : Oriented b t) {ρ : ℝ}
    (hρ : 0 < ρ) (β lon : ℝ) (u : Arrays) :
    potential N compiledDegree b (construct maxAbs b 0) t (point b t ρ β lon) ρ (ρ ^ 2) (1 / ρ ^ 3) u = some (sphericalHarmonics N b (fun _ _ => 1) ρ β lon) := by
  rw [C70_potential hmax hR le_rfl hdegree ho hρ β lon u]
  congr 1
  refine Finset.sum_congr rfl fun n hn => Finset.sum_congr rfl fun m hm => ?_
  rw [Finset.mem_Icc] at hn
  rw [Finset.mem_range] at hm
  by_cases h21 : n = 2 ∧ m = 1
  · rw [if_pos h21, if_pos h21]
  · rw [if_neg h21, if_neg h21]
    by_cases hz : b.cos n m = 0 ∧ b.sin n m = 0
    · unfold sphericalHarmonic
      rw [hz.1, hz.2]
      ring
    · have h := harmonicThreshold_le (maxAbs := maxAbs) (ε := 0) hn.1 hn.2 (by omega : m ≤ n)
      unfold harmonicThreshold at h
      rw [if_neg hz, if_pos rfl, top_le_iff] at h
      simp only [h, damping_top]

/-! ### The acceleration -/

/-- The acceleration is the opposite of the gradient of the potential, everywhere but at the centre of the body: in particular on the polar axis, and where the harmonics are damped. -/
theorem C70_gradient {N maxAbs : ℕ → ℕ → ℝ} (hmax : ∀ n m, 0 ≤ maxAbs n m) {b : OblateBody V} (hR : 0 ≤ b.referenceRadius) {ε : ℝ} (hε : 0 ≤ ε) {compiledDegree : ℕ} (hdegree : b.degree ≤ compiledDegree) {t : ℝ}
    (ho : Oriented b t) {r : V} (hr : r ≠ 0) (u : Arrays) :
    ∃ a U, acceleration N compiledDegree b (construct maxAbs b ε) t r ‖r‖ (‖r‖ ^ 2) (1 / ‖r‖ ^ 3) u = some a ∧
      (∀ y, y ≠ 0 → ∀ u', potential N compiledDegree b (construct maxAbs b ε) t y ‖y‖ (‖y‖ ^ 2) (1 / ‖y‖ ^ 3) u' = some (U y)) ∧ HasFDerivAt U (-(innerSL ℝ a)) r := by
  have w := construct_wellDamped (maxAbs := maxAbs) (b := b) hmax hR hε
  obtain ⟨a, h1, h2⟩ := acceleration_eq (N := N) w hdegree ho.1 ho.2 hr u
  exact ⟨a, _, h1, fun y hy u' => potential_eq w hdegree ho.1 ho.2 hy u', h2⟩

/-- The geopotential of a body, as it is used by the ephemeris. -/
noncomputable def geopotential (N maxAbs : ℕ → ℕ → ℝ) (b : OblateBody V) (ε : ℝ) (compiledDegree : ℕ) (u : Arrays) : Gravity.Geopotential V :=
  { acceleration := fun t r => (acceleration N compiledDegree b (construct maxAbs b ε) t r ‖r‖ (‖r‖ ^ 2) (1 / ‖r‖ ^ 3) u).getD 0
    potential := fun t r => (potential N compiledDegree b (construct maxAbs b ε) t r ‖r‖ (‖r‖ ^ 2) (1 / ‖r‖ ^ 3) u).getD 0 }

/-- The gradient, for the functions used by the ephemeris. -/
theorem gradient_at {N maxAbs : ℕ → ℕ → ℝ} (hmax : ∀ n m, 0 ≤ maxAbs n m) {b : OblateBody V} (hR : 0 ≤ b.referenceRadius) {ε : ℝ} (hε : 0 ≤ ε) {compiledDegree : ℕ} (hdegree : b.degree ≤ compiledDegree) {t : ℝ}
    (ho : Oriented b t) {r : V} (hr : r ≠ 0) (u : Arrays) : HasFDerivAt ((geopotential N maxAbs b ε compiledDegree u).potential t) (-(innerSL ℝ ((geopotential N maxAbs b ε compiledDegree u).acceleration t r))) r := by
  obtain ⟨a, U, h1, h2, h3⟩ := C70_gradient (N := N) hmax hR hε hdegree ho hr u
  have e : (geopotential N maxAbs b ε compiledDegree u).acceleration t r = a := by
    show (acceleration N compiledDegree b (construct maxAbs b ε) t r ‖r‖ (‖r‖ ^ 2) (1 / ‖r‖ ^ 3) u).getD 0 = a
    rw [h1]; rfl
  rw [e]
  refine h3.congr_of_eventuallyEq ?_
  filter_upwards [isOpen_ne.mem_nhds hr] with y hy
  show (potential N compiledDegree b (construct maxAbs b ε) t y ‖y‖ (‖y‖ ^ 2) (1 / ‖y‖ ^ 3) u).getD 0 = U y
  rw [h2 y hy u]; rfl

/-- In a system of bodies, some of them oblate, the acceleration of a massless body is the opposite of the gradient of the potential. -/
theorem C70_system_gradient {N maxAbs : ℕ → ℕ → ℝ} (hmax : ∀ n m, 0 ≤ maxAbs n m) {compiledDegree : ℕ} (l : List (Gravity.Body V × V × V)) (t : ℝ)
    (hl : ∀ e ∈ l, ∀ g, e.1.geopotential = some g → ∃ (b : OblateBody V) (ε : ℝ) (u : Arrays), g = geopotential N maxAbs b ε compiledDegree u ∧ 0 ≤ b.referenceRadius ∧ 0 ≤ ε ∧ b.degree ≤ compiledDegree ∧ Oriented b t)
    (p : ℕ → V) (x : V) (hx : ∀ b < (Gravity.System.construct l).bodies.length, x ≠ p b) {a : V} (ha : (Gravity.onMassless (Gravity.System.construct l) t p [x]).1 = [a]) :
    ∃ U : V → ℝ, (∀ y, Gravity.potentials (Gravity.System.construct l) t p [y] = [U y]) ∧ HasFDerivAt U (-innerSL ℝ a) x := by
  refine Gravity.C69_gradient l t (fun e he g hg r hr => ?_) p x hx ha
  obtain ⟨b, ε, u, rfl, hR, hε, hd, ho⟩ := hl e he g hg
  exact gradient_at hmax hR hε hd ho hr u

/-! ### Zonal bodies -/

/-- The potential of a zonal body does not depend on the orientation of its surface, and its acceleration lies in the plane of the polar axis and of the position. -/
theorem zonal_static {N maxAbs : ℕ → ℕ → ℝ} (hmax : ∀ n m, 0 ≤ maxAbs n m) {b : OblateBody V} (hb : b.isZonal) (hR : 0 ≤ b.referenceRadius) {ε : ℝ} (hε : 0 ≤ ε) {compiledDegree : ℕ} (hdegree : b.degree ≤ compiledDegree)
    {t t' : ℝ} (ho : Oriented b t) (ho' : Oriented b t') {r : V} (hr : r ≠ 0) (u : Arrays) :
    potential N compiledDegree b (construct maxAbs b ε) t r ‖r‖ (‖r‖ ^ 2) (1 / ‖r‖ ^ 3) u = potential N compiledDegree b (construct maxAbs b ε) t' r ‖r‖ (‖r‖ ^ 2) (1 / ‖r‖ ^ 3) u := by
  have w := construct_wellDamped (maxAbs := maxAbs) (b := b) hmax hR hε
  rw [potential_eq w hdegree ho.1 ho.2 hr u, potential_eq w hdegree ho'.1 ho'.2 hr u]
  congr 1
  refine Finset.sum_congr rfl fun n hn => Finset.sum_congr rfl fun m hm => ?_
  rw [Finset.mem_range] at hn hm
  by_cases h21 : n + 2 = 2 ∧ m = 1
  · rw [if_pos h21, if_pos h21]
  · rw [if_neg h21, if_neg h21]
    unfold harmonic
    cases m with
    | zero => simp
    | succ m =>
      have := hb (n + 2) (by omega) (m + 1) (by omega) (by omega)
      push Not at this
      rw [this.1, this.2, neg_zero, show (⟨0, 0⟩ : ℂ) = 0 from rfl, zero_mul, zero_mul]

theorem zonal_zero {N maxAbs : ℕ → ℕ → ℝ} {b : OblateBody V} (hb : b.isZonal) {ε : ℝ} {compiledDegree : ℕ} (t t' : ℝ) (r : V) (u : Arrays) :
    potential N compiledDegree b (construct maxAbs b ε) t r ‖r‖ (‖r‖ ^ 2) (1 / ‖r‖ ^ 3) u = potential N compiledDegree b (construct maxAbs b ε) t' r ‖r‖ (‖r‖ ^ 2) (1 / ‖r‖ ^ 3) u := by
  unfold potential evaluate OblateBody.axes
  simp only [hb, true_or, if_true]

/-- A system of bodies, some of them oblate but all of them zonal, conserves its energy. -/
theorem C70_energy {N maxAbs : ℕ → ℕ → ℝ} (hmax : ∀ n m, 0 ≤ maxAbs n m) {compiledDegree : ℕ} (l : List (Gravity.Body V × V × V))
    (hl : ∀ e ∈ l, ∀ g, e.1.geopotential = some g → ∃ (b : OblateBody V) (ε : ℝ) (u : Arrays), g = geopotential N maxAbs b ε compiledDegree u ∧ b.isZonal ∧ 0 ≤ b.referenceRadius ∧ 0 ≤ ε ∧ b.degree ≤ compiledDegree ∧ ∀ t, Oriented b t)
    (q v : ℝ → ℕ → V) (t : ℝ) (hq : ∀ b < (Gravity.System.construct l).bodies.length, HasDerivAt (fun τ => q τ b) (v t b) t)
    (hv : ∀ b < (Gravity.System.construct l).bodies.length, HasDerivAt (fun τ => v τ b) (Gravity.betweenAll (Gravity.System.construct l) t (q t) b) t)
    (hne : ∀ b < (Gravity.System.construct l).bodies.length, ∀ c < (Gravity.System.construct l).bodies.length, b ≠ c → q t b ≠ q t c) :
    HasDerivAt (fun τ => Gravity.energy (Gravity.System.construct l).bodies τ (q τ) (v τ)) 0 t := by
  refine Gravity.C69_energy l (fun e he g hg => ?_) q v t hq hv hne
  obtain ⟨b, ε, u, rfl, hb, hR, hε, hd, ho⟩ := hl e he g hg
  have e : ∀ τ r, (geopotential N maxAbs b ε compiledDegree u).potential τ r = (geopotential N maxAbs b ε compiledDegree u).potential 0 r := fun τ r => congrArg (Option.getD · 0) (zonal_zero hb τ 0 r u)
  refine ⟨(geopotential N maxAbs b ε compiledDegree u).potential 0, e, fun τ r hr => ?_⟩
  have := gradient_at (N := N) hmax hR hε hd (ho τ) hr u
  rwa [show (geopotential N maxAbs b ε compiledDegree u).potential τ = (geopotential N maxAbs b ε compiledDegree u).potential 0 from funext (e τ)] at this

/-! ### Disagreements -/

/-- The harmonic of degree 2 and order 1 is ignored, whatever its coefficients. -/
theorem C70_order_21_counterexample {N maxAbs : ℕ → ℕ → ℝ} (hmax : ∀ n m, 0 ≤ maxAbs n m) {b : OblateBody V} (hb : b.degree = 2) (hb' : ∀ m, m ≠ 1 → b.cos 2 m = 0 ∧ b.sin 2 m = 0) (hR : 0 ≤ b.referenceRadius) {ε : ℝ} (hε : 0 ≤ ε)
    {compiledDegree : ℕ} (hdegree : 2 ≤ compiledDegree) {t : ℝ} (ho : Oriented b t) {ρ : ℝ} (hρ : 0 < ρ) (β lon : ℝ) (u : Arrays) :
    potential N compiledDegree b (construct maxAbs b ε) t (point b t ρ β lon) ρ (ρ ^ 2) (1 / ρ ^ 3) u = some 0 ∧
      sphericalHarmonic N b 2 1 ρ β lon = -(1 / ρ) * (b.referenceRadius / ρ) ^ 2 * (N 2 1 * Real.cos β * (3 * Real.sin β)) * (b.cos 2 1 * Real.cos lon + b.sin 2 1 * Real.sin lon) := by
  constructor
  · rw [C70_potential hmax hR hε (by omega) ho hρ β lon u]
    congr 1
    unfold sphericalHarmonics
    rw [hb]
    refine Finset.sum_eq_zero fun n hn => Finset.sum_eq_zero fun m hm => ?_
    have : n = 2 := by rw [Finset.mem_Icc] at hn; omega
    subst this
    by_cases h : m = 1
    · rw [if_pos ⟨rfl, h⟩]
    · rw [if_neg (by omega)]
      unfold sphericalHarmonic
      rw [(hb' m h).1, (hb' m h).2]
      ring
  · unfold sphericalHarmonic
    have e : legendreD 2 1 (Real.sin β) = 3 * Real.sin β := by
      have h := legendreD_bonnet_derivative 0 0 (Real.sin β)
      rw [show (0 : ℕ) + 1 = 1 from rfl, legendreD_one_one, legendreD_one, legendreD_vanishes (n := 0) (m := 1) (by omega)] at h
      norm_num at h
      linarith
    rw [e]
    norm_num

/-- A body whose degree exceeds the one for which the code is compiled cannot be evaluated, at any distance, if the tolerance is 0 and its last coefficient is not. -/
theorem C70_degree_counterexample {N maxAbs : ℕ → ℕ → ℝ} {b : OblateBody V} {compiledDegree : ℕ} (h1 : 2 ≤ b.degree) (hdegree : compiledDegree < b.degree) (hc : b.cos b.degree 0 ≠ 0) (t : ℝ) (r : V) (rn r2 o : ℝ) (u : Arrays) :
    potential N compiledDegree b (construct maxAbs b 0) t r rn r2 o u = none ∧ acceleration N compiledDegree b (construct maxAbs b 0) t r rn r2 o u = none := by
  have T := construct_thresholds maxAbs b 0
  have top : ∀ n ≤ b.degree, (construct maxAbs b 0).degrees.getD n ⊤ = ⊤ := by
    intro n hn
    have h := T.degree b.degree 0 h1 le_rfl (by omega)
    unfold harmonicThreshold at h
    rw [if_neg (fun h => hc h.1), if_pos rfl, top_le_iff] at h
    have h' := T.sorted n b.degree hn (by omega)
    rw [h, top_le_iff] at h'
    exact h'
  have lim : (construct maxAbs b 0).limitingDegree rn = b.degree + 1 := by
    obtain ⟨l1, l2, l3⟩ := limitingDegree_spec (construct maxAbs b 0) rn
    have hlen := T.length
    by_contra hne
    have h := l3 (by omega)
    rw [top _ (by omega), outer_top] at h
    simp at h
  unfold potential acceleration evaluate
  simp only [lim]
  rw [if_neg (by omega), if_neg (by omega), if_neg (by omega), if_neg (by omega)]
  exact ⟨rfl, rfl⟩

/-! ### Examples -/

namespace Example

abbrev E3 := EuclideanSpace ℝ (Fin 3)

/-- The axes. -/
noncomputable def axis (i : Fin 3) : E3 := EuclideanSpace.single i 1

/-- A body that rotates around its polar axis. -/
noncomputable def body (C S : ℕ → ℕ → ℝ) (degree : ℕ) : OblateBody E3 :=
  { degree := degree
    referenceRadius := 1
    cos := C
    sin := S
    equatorial := axis 0
    biequatorial := axis 1
    polarAxis := axis 2
    surface := fun t => (Real.cos t • axis 0 + Real.sin t • axis 1, (-Real.sin t) • axis 0 + Real.cos t • axis 1) }

theorem inner_axis (v : E3) (i : Fin 3) : (inner ℝ v (axis i) : ℝ) = v i := by
  simp [axis, EuclideanSpace.inner_single_right]

theorem rotate {x y z : E3} (F : IsFrame x y z) (t : ℝ) : IsFrame (Real.cos t • x + Real.sin t • y) ((-Real.sin t) • x + Real.cos t • y) z := by
  have h := Real.sin_sq_add_cos_sq t
  have h1 := F.xx; have h2 := F.yy; have h3 := F.zz; have h4 := F.xy; have h5 := F.xz; have h6 := F.yz
  have h4' := (real_inner_comm x y).trans h4; have h5' := (real_inner_comm x z).trans h5; have h6' := (real_inner_comm y z).trans h6
  refine ⟨?_, fun v => ?_⟩
  · rw [orthonormal_iff_ite]
    intro i j
    have e : ∀ a b c d : ℝ, inner ℝ (a • x + b • y) (c • x + d • y) = a * c + b * d := fun a b c d => by
      simp only [inner_add_left, inner_add_right, real_inner_smul_left, real_inner_smul_right, h1, h2, h4, h4']; ring
    have e' : ∀ a b : ℝ, inner ℝ (a • x + b • y) z = 0 := fun a b => by simp only [inner_add_left, real_inner_smul_left, h5, h6]; ring
    have e'' : ∀ a b : ℝ, inner ℝ z (a • x + b • y) = 0 := fun a b => by rw [real_inner_comm]; exact e' a b
    fin_cases i <;> fin_cases j
    · exact (e _ _ _ _).trans (by simp; nlinarith)
    · exact (e _ _ _ _).trans (by simp; ring)
    · exact (e' _ _).trans (by simp)
    · exact (e _ _ _ _).trans (by simp; ring)
    · exact (e _ _ _ _).trans (by simp; nlinarith)
    · exact (e' _ _).trans (by simp)
    · exact (e'' _ _).trans (by simp)
    · exact (e'' _ _).trans (by simp)
    · exact h3.trans (by simp)
  · conv_lhs => rw [F.complete v]
    simp only [inner_add_right, real_inner_smul_right]
    have e : ∀ a b : ℝ, a • x + b • y = (a * (Real.sin t ^ 2 + Real.cos t ^ 2)) • x + (b * (Real.sin t ^ 2 + Real.cos t ^ 2)) • y := fun a b => by rw [h, mul_one, mul_one]
    rw [e]
    module

theorem oriented (C S : ℕ → ℕ → ℝ) (degree : ℕ) (t : ℝ) : Oriented (body C S degree) t := by
  have F : IsFrame (axis 0) (axis 1) (axis 2) := by
    have a : ∀ i, axis i = EuclideanSpace.single i 1 := fun _ => rfl
    constructor
    · rw [orthonormal_iff_ite]
      intro i j
      fin_cases i <;> fin_cases j <;> simp [a, EuclideanSpace.inner_single_left, EuclideanSpace.inner_single_right]
    · intro v
      ext i
      fin_cases i <;> simp [inner_axis] <;> simp [a]
  exact ⟨F, rotate F t⟩

/-- A body with the harmonics of degree and order (2, 0), (2, 2) and (3, 1). -/
noncomputable def planet : OblateBody E3 := body (fun n m => if n = 2 ∧ m = 0 then -1 else if n = 2 ∧ m = 2 then 2 else 0) (fun n m => if n = 3 ∧ m = 1 then 1 else 0) 3

/-- The body is not zonal, and the hypotheses of `C70_potential` and `C70_gradient` are met. -/
example : ¬planet.isZonal ∧ planet.degree ≤ 30 ∧ 0 ≤ planet.referenceRadius ∧ ∀ t, Oriented planet t := by
  refine ⟨fun h => ?_, by simp [planet, body], by simp [planet, body], fun t => oriented _ _ _ t⟩
  have := h 3 (by simp [planet, body]) 1 (by omega) (by omega)
  simp [planet, body] at this

/-- The potential of the body at the North pole, at the distance 2, without damping: only the harmonic of degree 2 and order 0 contributes. -/
example (u : Arrays) : potential (fun _ _ => 1) 30 planet (construct (fun _ _ => 1) planet 0) 0 (point planet 0 2 (Real.pi / 2) 0) 2 (2 ^ 2) (1 / 2 ^ 3) u = some (1 / 8) := by
  rw [C70_no_damping (fun _ _ => by norm_num) (by simp [planet, body]) (by simp [planet, body]) (show Oriented planet 0 from oriented _ _ _ 0) (by norm_num)]
  congr 1
  unfold sphericalHarmonics sphericalHarmonic
  have e : legendreD 2 0 1 = 1 := by
    have h := legendreD_bonnet 0 1
    rw [show (0 : ℕ) + 1 = 1 from rfl, legendreD_one, legendreD_zero] at h
    norm_num at h
    linarith
  have i : Finset.Icc 2 planet.degree = {2, 3} := rfl
  rw [i, Finset.sum_pair (by norm_num)]
  simp [Finset.sum_range_succ, planet, body, e]
  norm_num

/-- At the tolerance 1/8, the harmonic of degree 2 and order 0 is not damped at the distance 4, since its effect there would be 3 / 16 of that of the central force. -/
example : damping (innerRadius (fun _ _ => 1) planet (1 / 8) 2 0) 4 = 1 := by
  refine damping_below (le_trans ?_ (harmonicThreshold_le le_rfl (by simp [planet, body]) (by omega)))
  unfold harmonicThreshold
  have h1 : ¬(planet.cos 2 0 = 0 ∧ planet.sin 2 0 = 0) := by simp [planet, body]
  rw [if_neg h1, if_neg (by norm_num), WithTop.coe_le_coe]
  simp only [planet, body]
  norm_num
  rw [show (4 : ℝ) = (16 : ℝ) ^ (1 / 2 : ℝ) by rw [show (16 : ℝ) = 4 ^ (2 : ℝ) by norm_num, ← Real.rpow_mul (by norm_num)]; norm_num]
  exact Real.rpow_le_rpow (by norm_num) (by norm_num) (by norm_num)

/-- A harmonic of the body is damped somewhere. -/
example : ∃ ρ : ℝ, 0 < ρ ∧ damping (innerRadius (fun _ _ => 1) planet 1 3 1) ρ ≠ 1 := by
  obtain ⟨k, j, h1, h2, h3, h4⟩ := (C70_thresholds_exact (maxAbs := fun _ _ => 1) (b := planet) (ε := 1) (n := 3) (m := 1) (by omega) (by simp [planet, body]) (by omega)).1
  clear h1
  have hf : innerRadius (fun _ _ => 1) planet 1 3 1 ≠ ⊤ := by
    rw [h4]
    unfold harmonicThreshold
    split
    · simp
    · rw [if_neg (by norm_num)]
      exact WithTop.coe_ne_top
  obtain ⟨s, hs⟩ := WithTop.ne_top_iff_exists.1 hf
  have h0 : (0 : WithTop ℝ) ≤ innerRadius (fun _ _ => 1) planet 1 3 1 := (construct_wellDamped (fun _ _ => by norm_num) (by simp [planet, body]) (by norm_num)).inner_nonneg 3 1
  rw [← hs] at h0
  have hs0 : 0 ≤ s := by exact_mod_cast h0
  refine ⟨s * 3 + 1, by linarith, ?_⟩
  rw [← hs, (damping_above h0 (by linarith) (by rw [outer_coe, WithTop.coe_le_coe]; linarith)).1]
  norm_num

/-- The hypotheses of the counterexamples are met. -/
example : ∃ b : OblateBody E3, b.degree = 2 ∧ (∀ m, m ≠ 1 → b.cos 2 m = 0 ∧ b.sin 2 m = 0) ∧ b.cos 2 1 ≠ 0 ∧ ∀ t, Oriented b t :=
  ⟨body (fun n m => if n = 2 ∧ m = 1 then 1 else 0) (fun _ _ => 0) 2, rfl, fun m hm => by simp [body, hm], by simp [body], fun t => oriented _ _ _ t⟩

example : ∃ b : OblateBody E3, 2 ≤ b.degree ∧ 30 < b.degree ∧ b.degree ≤ 50 ∧ b.cos b.degree 0 ≠ 0 := ⟨body (fun _ _ => 1) (fun _ _ => 0) 31, by simp [body], by simp [body], by simp [body], by simp [body]⟩

end Example

end Principia.Geopotential
