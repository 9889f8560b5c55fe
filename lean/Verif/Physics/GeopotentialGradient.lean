import Verif.Physics.GeopotentialEvaluation
import Verif.Physics.GravityLemmas
import Mathlib.Analysis.Complex.Basic
import Mathlib.Analysis.Calculus.FDeriv.Pow

/-!
The potential of one harmonic, and its gradient.
-/

set_option linter.unusedSimpArgs false
set_option linter.unusedVariables false
set_option linter.unusedSectionVars false

namespace Principia.Geopotential

open Legendre

variable {V : Type*} [NormedAddCommGroup V] [InnerProductSpace ℝ V]

/-- The projection on the equator. -/
noncomputable def equator (x y : V) : V →L[ℝ] ℂ := (innerSL ℝ x).smulRight (1 : ℂ) + (innerSL ℝ y).smulRight Complex.I

theorem equator_apply (x y v : V) : equator x y v = ⟨inner ℝ x v, inner ℝ y v⟩ := by
  apply Complex.ext <;> simp [equator]

/-- The potential of one harmonic. -/
noncomputable def harmonic (N R C S : ℝ) (s : WithTop ℝ) (n m : ℕ) (x y z r : V) : ℝ :=
  -N * (damping s ‖r‖ * (R ^ n * ‖r‖⁻¹ ^ (n + 1))) * legendreD n m (innerSL ℝ z r * ‖r‖⁻¹) * Complex.re (⟨C, -S⟩ * (‖r‖⁻¹ • equator x y r) ^ m)

theorem hasFDerivAt_norm' {r : V} (hr : r ≠ 0) : HasFDerivAt (fun y : V => ‖y‖) (‖r‖⁻¹ • innerSL ℝ r) r := by
  have hn : ‖r‖ ≠ 0 := norm_ne_zero_iff.2 hr
  have h1 : HasDerivAt (fun s : ℝ => √s) (1 / (2 * √(‖r‖ ^ 2))) (‖r‖ ^ 2) := Real.hasDerivAt_sqrt (by positivity)
  have h2 := h1.comp_hasFDerivAt r (Gravity.hasFDerivAt_normSq r)
  have e : (fun y : V => ‖y‖) = (fun s : ℝ => √s) ∘ fun y : V => ‖y‖ ^ 2 := by
    funext y
    simp [Real.sqrt_sq (norm_nonneg y)]
  rw [e]
  refine h2.congr_fderiv ?_
  rw [Real.sqrt_sq (norm_nonneg r)]
  ext v
  simp
  field_simp

/-- The quantities at a point, in terms of the angles. -/
theorem Angles.values {p : Precomputations V} {x y z r : V} (A : Angles p x y z r) (hr : r ≠ 0) :
    innerSL ℝ z r * ‖r‖⁻¹ = p.sin_β ∧ equator x y r = (‖r‖ * p.cos_β) • (⟨p.cos_mL 1, p.sin_mL 1⟩ : ℂ) ∧ ‖r‖⁻¹ • equator x y r = p.cos_β • (⟨p.cos_mL 1, p.sin_mL 1⟩ : ℂ) := by
  have hn : ‖r‖ ≠ 0 := norm_ne_zero_iff.2 hr
  have h2 : equator x y r = (‖r‖ * p.cos_β) • (⟨p.cos_mL 1, p.sin_mL 1⟩ : ℂ) := by
    rw [equator_apply, real_inner_comm, real_inner_comm r y, A.ix, A.iy]
    apply Complex.ext <;> simp <;> ring
  refine ⟨?_, h2, ?_⟩
  · rw [innerSL_apply_apply, real_inner_comm, A.iz]
    field_simp
  · rw [h2, smul_smul, ← mul_assoc, inv_mul_cancel₀ hn, one_mul]

theorem Angles.normalized {p : Precomputations V} {x y z r : V} (A : Angles p x y z r) (hr : r ≠ 0) (F : IsFrame x y z) : ‖r‖ • p.r_normalized = r := by
  conv_rhs => rw [F.complete r]
  rw [A.ix, A.iy, A.iz, A.radial]
  module

theorem re_mul_pow (C S k : ℝ) (ω : ℂ) (m : ℕ) : Complex.re (⟨C, -S⟩ * (k • ω) ^ m) = k ^ m * (C * (ω ^ m).re + S * (ω ^ m).im) := by
  rw [smul_pow, mul_smul_comm, Complex.smul_re, Complex.mul_re, smul_eq_mul]
  ring

/-- The damped radial quantities. -/
theorem orderPotential_eq (N : ℕ → ℕ → ℝ) (b : OblateBody V) {p : Precomputations V} {x y z r : V} (A : Angles p x y z r) (hr : r ≠ 0) (s : WithTop ℝ) {n m : ℕ} (h21 : ¬(n = 2 ∧ m = 1)) :
    orderPotential N b n m (damping s ‖r‖ * (exact b.referenceRadius p).ℜ_over_r n) (exact b.referenceRadius p) = harmonic (N n m) b.referenceRadius (b.cos n m) (b.sin n m) s n m x y z r := by
  have hn : ‖r‖ ≠ 0 := norm_ne_zero_iff.2 hr
  obtain ⟨v1, -, v3⟩ := A.values hr
  unfold orderPotential harmonic
  rw [if_neg h21, v1, v3, re_mul_pow]
  simp only [exact, A.r_norm]
  have h𝔏 : (if m = 0 then b.cos n m else b.cos n m * ((⟨p.cos_mL 1, p.sin_mL 1⟩ : ℂ) ^ m).re + b.sin n m * ((⟨p.cos_mL 1, p.sin_mL 1⟩ : ℂ) ^ m).im) =
      b.cos n m * ((⟨p.cos_mL 1, p.sin_mL 1⟩ : ℂ) ^ m).re + b.sin n m * ((⟨p.cos_mL 1, p.sin_mL 1⟩ : ℂ) ^ m).im := by
    by_cases h : m = 0
    · subst h; simp
    · rw [if_neg h]
  rw [h𝔏, inv_pow]
  have e : ‖r‖ * (damping s ‖r‖ * (b.referenceRadius ^ n / ‖r‖ ^ (n + 2))) = damping s ‖r‖ * (b.referenceRadius ^ n * (‖r‖ ^ (n + 1))⁻¹) := by
    rw [show n + 2 = (n + 1) + 1 from rfl, pow_succ ‖r‖ (n + 1)]
    field_simp
  rw [e]
  ring

theorem turn {c σ cb sb : ℝ} (hx hy hz : ℝ) (u1 : c ^ 2 + σ ^ 2 = 1) (u2 : cb ^ 2 + sb ^ 2 = 1) :
    (⟨hx, hy⟩ : ℂ) + (-((cb * (c * hx + σ * hy) + sb * hz) * cb)) • (⟨c, σ⟩ : ℂ) = ⟨c, σ⟩ * ⟨-sb * (-sb * (c * hx + σ * hy) + cb * hz), c * hy - σ * hx⟩ := by
  apply Complex.ext
  · simp only [Complex.add_re, Complex.smul_re, Complex.mul_re, smul_eq_mul]
    linear_combination (-c * (c * hx + σ * hy)) * u2 - hx * u1
  · simp only [Complex.add_im, Complex.smul_im, Complex.mul_im, smul_eq_mul]
    linear_combination (-σ * (c * hx + σ * hy)) * u2 - hy * u1

theorem slope (C S ν cb a l : ℝ) (ω : ℂ) (m : ℕ) : Complex.re (⟨C, -S⟩ * (m • (cb • ω) ^ (m - 1) * (ν⁻¹ • (ω * ⟨a, l⟩)))) =
    m * ν⁻¹ * cb ^ (m - 1) * (a * (C * (ω ^ m).re + S * (ω ^ m).im) + l * (S * (ω ^ m).re - C * (ω ^ m).im)) := by
  cases m with
  | zero => simp
  | succ k =>
    rw [Nat.add_sub_cancel]
    have e : (⟨C, -S⟩ : ℂ) * ((k + 1) • (cb • ω) ^ k * (ν⁻¹ • (ω * ⟨a, l⟩))) = (((k + 1 : ℕ) : ℝ) * ν⁻¹ * cb ^ k) • (⟨C, -S⟩ * (ω ^ (k + 1) * ⟨a, l⟩)) := by
      rw [smul_pow, pow_succ ω k, ← Nat.cast_smul_eq_nsmul ℝ, smul_mul_smul_comm, smul_mul_assoc, smul_smul, mul_smul_comm, ← mul_assoc (ω ^ k)]
    rw [e, Complex.smul_re, Complex.mul_re, Complex.mul_re, Complex.mul_im, smul_eq_mul]
    ring

/-- The gradient of one harmonic. -/
theorem hasFDerivAt_harmonic (N : ℕ → ℕ → ℝ) (b : OblateBody V) {p : Precomputations V} {x y z r : V} (F : IsFrame x y z) (A : Angles p x y z r) (hr : r ≠ 0) {s : WithTop ℝ} (hs : 0 ≤ s) {n m : ℕ} (h21 : ¬(n = 2 ∧ m = 1)) (hm : m ≤ n) :
    HasFDerivAt (harmonic (N n m) b.referenceRadius (b.cos n m) (b.sin n m) s n m x y z)
      (-(innerSL ℝ (orderAcceleration N b n m (damping s ‖r‖ * (exact b.referenceRadius p).ℜ_over_r n,
        (dampingSlope s ‖r‖ * ‖r‖ * (exact b.referenceRadius p).ℜ_over_r n + (-((n : ℝ) + 1) * (exact b.referenceRadius p).ℜ_over_r n) * damping s ‖r‖) • p.r_normalized) (exact b.referenceRadius p)))) r := by
  have hn : ‖r‖ ≠ 0 := norm_ne_zero_iff.2 hr
  obtain ⟨v1, v2, v3⟩ := A.values hr
  have d0 := Gravity.hasFDerivAt_inv_norm hr
  have d1 := (hasDerivAt_damping hs (norm_pos_iff.2 hr)).comp_hasFDerivAt r (hasFDerivAt_norm' hr)
  have d2 := d1.mul ((d0.pow (n + 1)).const_mul (b.referenceRadius ^ n))
  have d3 := (hasDerivAt_legendreD n m _).comp_hasFDerivAt r ((innerSL ℝ z).hasFDerivAt.mul d0)
  have d4 := d0.smul (equator x y).hasFDerivAt
  have d5 := (Complex.reCLM.hasFDerivAt).comp r ((d4.pow m).const_mul (⟨b.cos n m, -b.sin n m⟩ : ℂ))
  have d6 := ((d2.const_mul (-N n m)).mul d3).mul d5
  refine (d6.congr_fderiv ?_)
  ext h
  set c := p.cos_mL 1 with hc
  set σ := p.sin_mL 1 with hσ
  set ω : ℂ := ⟨c, σ⟩ with hω
  set hx : ℝ := inner ℝ x h with hhx
  set hy : ℝ := inner ℝ y h with hhy
  set hz : ℝ := inner ℝ z h with hhz
  set hB := -p.sin_β * (c * hx + σ * hy) + p.cos_β * hz with hhB
  set hL := c * hy - σ * hx with hhL
  set H := p.cos_β * (c * hx + σ * hy) + p.sin_β * hz with hH
  have i1 : inner ℝ p.r_normalized h = H := by
    rw [A.radial, inner_add_left, inner_add_left, real_inner_smul_left, real_inner_smul_left, real_inner_smul_left, hH]
    ring
  have i2 : inner ℝ p.grad_𝔅_vector h = hB := by
    rw [A.grad_𝔅, inner_add_left, inner_sub_left, real_inner_smul_left, real_inner_smul_left, real_inner_smul_left, hhB]
    ring
  have i3 : inner ℝ p.grad_𝔏_vector h = hL := by
    rw [A.grad_𝔏, inner_sub_left, real_inner_smul_left, real_inner_smul_left]
  have u1 := A.unit
  have u2 := A.latitude
  have i4 : inner ℝ r h = ‖r‖ * H := by
    rw [← i1, ← real_inner_smul_left, A.normalized hr F]
  have dw : ‖r‖⁻¹ • equator x y h + (-(1 / ‖r‖ ^ 3) * (‖r‖ * H)) • equator x y r = ‖r‖⁻¹ • (ω * ⟨-p.sin_β * hB, hL⟩) := by
    rw [v2, equator_apply]
    have e : (-(1 / ‖r‖ ^ 3) * (‖r‖ * H)) • ((‖r‖ * p.cos_β) • ω) = ‖r‖⁻¹ • ((-(H * p.cos_β)) • ω) := by
      rw [smul_smul, smul_smul]
      congr 1
      field_simp
    rw [e, ← smul_add]
    congr 1
    exact turn hx hy hz u1 u2
  have dZ : ‖r‖ * p.sin_β * (-(1 / ‖r‖ ^ 3) * (‖r‖ * H)) + ‖r‖⁻¹ * hz = ‖r‖⁻¹ * (p.cos_β * hB) := by
    have e : p.cos_β * hB = hz - p.sin_β * H := by rw [hH, hhB]; linear_combination hz * u2
    rw [e]
    field_simp
    ring
  have v1' : innerSL ℝ z r = ‖r‖ * p.sin_β := by rw [innerSL_apply_apply, real_inner_comm, A.iz]
  have v1'' : inner ℝ z r = ‖r‖ * p.sin_β := v1'
  simp only [Pi.mul_apply, Pi.smul_apply', Function.comp_apply]
  simp only [ContinuousLinearMap.add_apply, ContinuousLinearMap.smul_apply, ContinuousLinearMap.neg_apply, ContinuousLinearMap.smulRight_apply, ContinuousLinearMap.comp_apply, smul_eq_mul, v1, v3, i4, Complex.reCLM_apply]
  simp only [innerSL_apply_apply, v1'', i4, dw]
  rw [← hhz, dZ, re_mul_pow]
  have acc : inner ℝ (orderAcceleration N b n m (damping s ‖r‖ * (exact b.referenceRadius p).ℜ_over_r n,
        (dampingSlope s ‖r‖ * ‖r‖ * (exact b.referenceRadius p).ℜ_over_r n + (-((n : ℝ) + 1) * (exact b.referenceRadius p).ℜ_over_r n) * damping s ‖r‖) • p.r_normalized) (exact b.referenceRadius p)) h =
      N n m * (p.cos_β ^ m * legendreD n m p.sin_β * (b.cos n m * (ω ^ m).re + b.sin n m * (ω ^ m).im) *
          ((dampingSlope s ‖r‖ * ‖r‖ * (b.referenceRadius ^ n / ‖r‖ ^ (n + 2)) + (-((n : ℝ) + 1) * (b.referenceRadius ^ n / ‖r‖ ^ (n + 2))) * damping s ‖r‖) * H) +
        damping s ‖r‖ * (b.referenceRadius ^ n / ‖r‖ ^ (n + 2)) * (b.cos n m * (ω ^ m).re + b.sin n m * (ω ^ m).im) *
          (p.cos_β * p.cos_β ^ m * legendreD n (m + 1) p.sin_β - m * p.sin_β * p.cos_β ^ (m - 1) * legendreD n m p.sin_β) * hB +
        damping s ‖r‖ * (b.referenceRadius ^ n / ‖r‖ ^ (n + 2)) * p.cos_β ^ (m - 1) * legendreD n m p.sin_β * m * (b.sin n m * (ω ^ m).re - b.cos n m * (ω ^ m).im) * hL) := by
    unfold orderAcceleration
    rw [if_neg h21]
    have e1 : (if m < n then p.cos_β * p.cos_β ^ m * legendreD n (m + 1) p.sin_β else 0) = p.cos_β * p.cos_β ^ m * legendreD n (m + 1) p.sin_β := by
      by_cases h : m < n
      · rw [if_pos h]
      · rw [if_neg h, legendreD_vanishes (by omega), mul_zero]
    simp only [exact, A.r_norm, ← hc, ← hσ, ← hω]
    rw [e1]
    by_cases h0 : m = 0
    · subst h0
      simp only [if_true, gt_iff_lt, lt_irrefl, if_false, real_inner_smul_left, inner_add_left, i1, i2, i3, pow_zero, Complex.one_re, Complex.one_im, Nat.cast_zero]
      ring
    · simp only [if_neg h0, gt_iff_lt, if_pos (Nat.pos_of_ne_zero h0), real_inner_smul_left, inner_add_left, i1, i2, i3]
  rw [acc, slope]
  set G := b.referenceRadius ^ n / ‖r‖ ^ (n + 2) with hG
  have g1 : b.referenceRadius ^ n * ‖r‖⁻¹ ^ (n + 1) = G * ‖r‖ := by
    rw [hG, show n + 2 = (n + 1) + 1 from rfl, pow_succ ‖r‖ (n + 1), inv_pow]
    field_simp
  have g2 : b.referenceRadius ^ n * ((n + 1) • ‖r‖⁻¹ ^ (n + 1 - 1) * (-(1 / ‖r‖ ^ 3) * (‖r‖ * H))) = -((n : ℝ) + 1) * G * H := by
    rw [hG, Nat.add_sub_cancel, nsmul_eq_mul, inv_pow, pow_add]
    push_cast
    field_simp
  rw [g1, g2]
  field_simp
  ring

/-! ### All the harmonics -/

theorem axes_frame (b : OblateBody V) {t : ℝ} (F : IsFrame b.equatorial b.biequatorial b.polarAxis) (F' : IsFrame (b.surface t).1 (b.surface t).2 b.polarAxis) (z : Prop) : IsFrame (b.axes z t).1 (b.axes z t).2.1 b.polarAxis ∧ (b.axes z t).2.2 = b.polarAxis := by
  unfold OblateBody.axes
  by_cases h : z
  · rw [if_pos h]; exact ⟨F, rfl⟩
  · rw [if_neg h]; exact ⟨F', rfl⟩

theorem axes_angles (b : OblateBody V) {t : ℝ} (F : IsFrame b.equatorial b.biequatorial b.polarAxis) (F' : IsFrame (b.surface t).1 (b.surface t).2 b.polarAxis) (z : Prop) {r : V} (hr : r ≠ 0) (r2 o : ℝ) (u : Arrays) :
    Angles (initializePrecomputations b (b.axes z t) r ‖r‖ r2 o u) (b.axes z t).1 (b.axes z t).2.1 b.polarAxis r := by
  obtain ⟨h1, h2⟩ := axes_frame b F F' z
  have := initialize_angles b h1 hr r2 o u
  rw [← h2] at this
  rw [← h2]
  exact this

theorem axes_false (b : OblateBody V) (t : ℝ) : b.axes False t = ((b.surface t).1, (b.surface t).2, b.polarAxis) := by
  unfold OblateBody.axes
  rw [if_neg id]

/-- The potential is the sum of the potentials of the harmonics. -/
theorem potential_eq {N : ℕ → ℕ → ℝ} {C : ℕ} {b : OblateBody V} {d : Damping} (w : WellDamped b.degree d) (hC : b.degree ≤ C) {t : ℝ} (F : IsFrame b.equatorial b.biequatorial b.polarAxis)
    (F' : IsFrame (b.surface t).1 (b.surface t).2 b.polarAxis) {r : V} (hr : r ≠ 0) (u : Arrays) :
    potential N C b d t r ‖r‖ (‖r‖ ^ 2) (1 / ‖r‖ ^ 3) u = some (∑ n ∈ Finset.range (b.degree - 1), ∑ m ∈ Finset.range (n + 3),
      if n + 2 = 2 ∧ m = 1 then 0 else harmonic (N (n + 2) m) b.referenceRadius (b.cos (n + 2) m) (b.sin (n + 2) m) (d.inner (n + 2) m) (n + 2) m (b.surface t).1 (b.surface t).2 b.polarAxis r) := by
  have hn : 0 < ‖r‖ := norm_pos_iff.2 hr
  unfold potential
  have A := fun z => axes_angles b F F' z hr (‖r‖ ^ 2) (1 / ‖r‖ ^ 3) u
  have main := evaluate_eq (radial := fun inner ℜ_over_r _ p => dampedPotential inner p.r_norm p.r2 ℜ_over_r) (term := orderPotential N b) (fun s x y e p h1 h2 h3 => by simp only [h1, h2]) (potential_local N b)
    (fun x p => by unfold orderPotential; rw [if_pos ⟨rfl, rfl⟩]) w hC (t := t) (r := r) hn u (x := fun n m => damping (d.inner n m) ‖r‖ * (b.referenceRadius ^ n / ‖r‖ ^ (n + 2)))
    (fun z => exact b.referenceRadius (initializePrecomputations b (b.axes z t) r ‖r‖ (‖r‖ ^ 2) (1 / ‖r‖ ^ 3) u)) (fun z => rfl) (fun z n m h1 h2 => dampedPotential_eq hn h2 _)
    (fun n m h1 h2 => by
      rw [(damping_above (w.inner_nonneg n m) hn h2).1, zero_mul]
      unfold orderPotential
      simp)
    (fun n m h1 h2 h3 => by
      unfold orderPotential
      simp [h2, h3])
    (fun n => by
      have e : (exact b.referenceRadius (initializePrecomputations b (b.axes True t) r ‖r‖ (‖r‖ ^ 2) (1 / ‖r‖ ^ 3) u)).sin_β = (exact b.referenceRadius (initializePrecomputations b (b.axes False t) r ‖r‖ (‖r‖ ^ 2) (1 / ‖r‖ ^ 3) u)).sin_β := by
        show inner ℝ r (b.axes True t).2.2 * (1 / ‖r‖) = inner ℝ r (b.axes False t).2.2 * (1 / ‖r‖)
        rw [(axes_frame b F F' True).2, (axes_frame b F F' False).2]
      have e' : (initializePrecomputations b (b.axes True t) r ‖r‖ (‖r‖ ^ 2) (1 / ‖r‖ ^ 3) u).sin_β = (initializePrecomputations b (b.axes False t) r ‖r‖ (‖r‖ ^ 2) (1 / ‖r‖ ^ 3) u).sin_β := e
      unfold orderPotential
      have h01 : ¬(n = 2 ∧ 0 = 1) := by omega
      rw [if_neg h01, if_neg h01]
      simp only [exact, if_true, pow_zero, e']
      rfl)
  rw [main]
  congr 1
  refine Finset.sum_congr rfl fun n _ => Finset.sum_congr rfl fun m _ => ?_
  by_cases h : n + 2 = 2 ∧ m = 1
  · rw [if_pos h]
    unfold orderPotential
    rw [if_pos h]
  · rw [if_neg h]
    have := orderPotential_eq N b (A False) hr (d.inner (n + 2) m) h
    rw [axes_false] at this
    simp only [axes_false]
    exact this

/-- The acceleration. -/
theorem acceleration_eq {N : ℕ → ℕ → ℝ} {C : ℕ} {b : OblateBody V} {d : Damping} (w : WellDamped b.degree d) (hC : b.degree ≤ C) {t : ℝ} (F : IsFrame b.equatorial b.biequatorial b.polarAxis)
    (F' : IsFrame (b.surface t).1 (b.surface t).2 b.polarAxis) {r : V} (hr : r ≠ 0) (u : Arrays) :
    ∃ a, acceleration N C b d t r ‖r‖ (‖r‖ ^ 2) (1 / ‖r‖ ^ 3) u = some a ∧
      HasFDerivAt (fun r => ∑ n ∈ Finset.range (b.degree - 1), ∑ m ∈ Finset.range (n + 3),
        if n + 2 = 2 ∧ m = 1 then 0 else harmonic (N (n + 2) m) b.referenceRadius (b.cos (n + 2) m) (b.sin (n + 2) m) (d.inner (n + 2) m) (n + 2) m (b.surface t).1 (b.surface t).2 b.polarAxis r) (-(innerSL ℝ a)) r := by
  have hn : 0 < ‖r‖ := norm_pos_iff.2 hr
  unfold acceleration
  have A := fun z => axes_angles b F F' z hr (‖r‖ ^ 2) (1 / ‖r‖ ^ 3) u
  have main := evaluate_eq (radial := fun inner ℜ_over_r ℜ' p => dampedAcceleration inner p.r_norm p.r2 p.r_normalized ℜ_over_r ℜ') (term := orderAcceleration N b)
    (fun s x y e p h1 h2 h3 => by simp only [h1, h2, h3]) (acceleration_local N b)
    (fun x p => by unfold orderAcceleration; rw [if_pos ⟨rfl, rfl⟩]) w hC (t := t) (r := r) hn u (x := fun n m => (damping (d.inner n m) ‖r‖ * (b.referenceRadius ^ n / ‖r‖ ^ (n + 2)),
      (dampingSlope (d.inner n m) ‖r‖ * ‖r‖ * (b.referenceRadius ^ n / ‖r‖ ^ (n + 2)) + (-((n : ℝ) + 1) * (b.referenceRadius ^ n / ‖r‖ ^ (n + 2))) * damping (d.inner n m) ‖r‖) • ((1 / ‖r‖) • r)))
    (fun z => exact b.referenceRadius (initializePrecomputations b (b.axes z t) r ‖r‖ (‖r‖ ^ 2) (1 / ‖r‖ ^ 3) u)) (fun z => rfl) (fun z n m h1 h2 => dampedAcceleration_eq hn h2 _ _ _)
    (fun n m h1 h2 => by
      have := damping_above (w.inner_nonneg n m) hn h2
      rw [this.1, this.2]
      unfold orderAcceleration
      simp)
    (fun n m h1 h2 h3 => by
      unfold orderAcceleration
      simp [h2, h3])
    (fun n => by
      have e' : (initializePrecomputations b (b.axes True t) r ‖r‖ (‖r‖ ^ 2) (1 / ‖r‖ ^ 3) u).sin_β = (initializePrecomputations b (b.axes False t) r ‖r‖ (‖r‖ ^ 2) (1 / ‖r‖ ^ 3) u).sin_β := by
        show inner ℝ r (b.axes True t).2.2 * (1 / ‖r‖) = inner ℝ r (b.axes False t).2.2 * (1 / ‖r‖)
        rw [(axes_frame b F F' True).2, (axes_frame b F F' False).2]
      have m1 := (A True).meridian
      have m2 := (A False).meridian
      rw [e'] at m1
      have m3 := m1.trans m2.symm
      unfold orderAcceleration
      have h01 : ¬(n = 2 ∧ 0 = 1) := by omega
      rw [if_neg h01, if_neg h01]
      simp only [exact, if_true, pow_zero, e', gt_iff_lt, lt_irrefl, if_false]
      have key : ∀ (k : ℝ) (p : Precomputations V) (D : ℝ), (k * (if 0 < n then p.cos_β * 1 * D else 0)) • p.grad_𝔅_vector = (k * if 0 < n then D else 0) • (p.cos_β • p.grad_𝔅_vector) := by
        intro k p D
        by_cases h : 0 < n
        · rw [if_pos h, if_pos h, smul_smul]; congr 1; ring
        · rw [if_neg h, if_neg h]; simp
      rw [key, key, m3])
  refine ⟨_, main, ?_⟩
  rw [map_sum, ← Finset.sum_neg_distrib]
  refine HasFDerivAt.fun_sum fun n hn => ?_
  rw [map_sum, ← Finset.sum_neg_distrib]
  refine HasFDerivAt.fun_sum fun m hm => ?_
  by_cases h : n + 2 = 2 ∧ m = 1
  · simp only [if_pos h]
    have e : ∀ x p, orderAcceleration N b (n + 2) m x p = 0 := fun x p => by unfold orderAcceleration; rw [if_pos h]
    rw [e, map_zero, neg_zero]
    exact hasFDerivAt_const _ _
  · simp only [if_neg h]
    have Af := A False
    have F2 := (axes_frame b F F' False).1
    rw [axes_false] at Af F2
    have := hasFDerivAt_harmonic N b F2 Af hr (w.inner_nonneg (n + 2) m) h (by rw [Finset.mem_range] at hm; omega)
    simp only [axes_false]
    exact this

end Principia.Geopotential
