import Verif.Physics.EulerSolverAttitude
import Verif.Numerics.EllipticProps
import Mathlib.Analysis.SpecialFunctions.Trigonometric.DerivHyp

/-!
The formulæ for the angular momentum and the angle ψ.
-/

set_option linter.unusedSimpArgs false
set_option linter.unusedVariables false

namespace Principia.Physics.Euler

open Geometry Numerics.Elliptic

/-! ## Angles -/

namespace TurnsAt

variable {ψ φ : ℝ → ℝ} {ψ' φ' t : ℝ}

theorem of_hasDerivAt (h : HasDerivAt ψ ψ' t) : TurnsAt ψ ψ' t := ⟨h.cos, h.sin⟩

theorem add (h : TurnsAt ψ ψ' t) (h' : TurnsAt φ φ' t) : TurnsAt (fun s => ψ s + φ s) (ψ' + φ') t := by
  constructor
  · simp only [Real.cos_add]
    refine ((h.cos.mul h'.cos).sub (h.sin.mul h'.sin)).congr_deriv ?_
    rw [Real.sin_add]
    ring
  · simp only [Real.sin_add]
    refine ((h.sin.mul h'.cos).add (h.cos.mul h'.sin)).congr_deriv ?_
    rw [Real.cos_add]
    ring

theorem neg (h : TurnsAt ψ ψ' t) : TurnsAt (fun s => -ψ s) (-ψ') t := by
  constructor
  · simp only [Real.cos_neg, Real.sin_neg]
    exact h.cos.congr_deriv (by ring)
  · simp only [Real.sin_neg, Real.cos_neg]
    exact h.sin.neg.congr_deriv (by ring)

theorem congr (h : TurnsAt ψ ψ' t) (e : ∀ s, φ s = ψ s) (e' : φ' = ψ') : TurnsAt φ φ' t := by
  obtain rfl : φ = ψ := funext e
  rw [e']; exact h

theorem arcTan {S C : ℝ → ℝ} {S' C' : ℝ} (hS : HasDerivAt S S' t) (hC : HasDerivAt C C' t) (h : ∀ s, 0 < C s ^ 2 + S s ^ 2) :
    TurnsAt (fun s => arcTan (S s) (C s)) ((C t * S' - S t * C') / (C t ^ 2 + S t ^ 2)) t := by
  have hn : ∀ s, ‖(⟨C s, S s⟩ : ℂ)‖ = √(C s ^ 2 + S s ^ 2) := by
    intro s; rw [Complex.norm_def, Complex.normSq_mk]; congr 1; ring
  have h0 : ∀ s, (⟨C s, S s⟩ : ℂ) ≠ 0 := by
    intro s e
    have := h s
    rw [Complex.ext_iff] at e
    obtain ⟨e1, e2⟩ := e
    simp only [Complex.zero_re, Complex.zero_im] at e1 e2
    rw [e1, e2] at this
    simp at this
  have hc : ∀ s, Real.cos (Euler.arcTan (S s) (C s)) = C s / √(C s ^ 2 + S s ^ 2) := by
    intro s; unfold Euler.arcTan; rw [Complex.cos_arg (h0 s), hn]
  have hs : ∀ s, Real.sin (Euler.arcTan (S s) (C s)) = S s / √(C s ^ 2 + S s ^ 2) := by
    intro s; unfold Euler.arcTan; rw [Complex.sin_arg, hn]
  have hr := ((hC.pow 2).add (hS.pow 2)).sqrt (h t).ne'
  have hp : 0 < √(C t ^ 2 + S t ^ 2) := Real.sqrt_pos.2 (h t)
  have hq : √(C t ^ 2 + S t ^ 2) ^ 2 = C t ^ 2 + S t ^ 2 := Real.sq_sqrt (h t).le
  have e2 : (2 - 1 : ℕ) = 1 := rfl
  constructor
  · simp only [hc, hs]
    refine (hC.div hr hp.ne').congr_deriv ?_
    simp only [Pi.add_apply, Pi.pow_apply, e2, pow_one, Nat.cast_ofNat]
    generalize √(C t ^ 2 + S t ^ 2) = r at *
    rw [← hq]
    field_simp
    rw [hq]
    ring
  · simp only [hc, hs]
    refine (hS.div hr hp.ne').congr_deriv ?_
    simp only [Pi.add_apply, Pi.pow_apply, e2, pow_one, Nat.cast_ofNat]
    generalize √(C t ^ 2 + S t ^ 2) = r at *
    rw [← hq]
    field_simp
    rw [hq]
    ring

end TurnsAt

theorem eq_of_sq {a b : ℝ} (ha : 0 ≤ a) (hb : 0 ≤ b) (h : a ^ 2 = b ^ 2) : a = b := by
  nlinarith [abs_eq_abs.2 (sq_eq_sq_iff_eq_or_eq_neg.1 h), abs_of_nonneg ha, abs_of_nonneg hb]

/-- The cosine and sine of the two-argument arctangent. -/
theorem arcTan_spec {S C r : ℝ} (hr : 0 ≤ r) (h : C ^ 2 + S ^ 2 = r ^ 2) (h0 : r ≠ 0) : r * Real.cos (arcTan S C) = C ∧ r * Real.sin (arcTan S C) = S := by
  have hn : ‖(⟨C, S⟩ : ℂ)‖ = r := by
    rw [Complex.norm_def, Complex.normSq_mk, show C * C + S * S = r ^ 2 by rw [← h]; ring, Real.sqrt_sq hr]
  have hz : (⟨C, S⟩ : ℂ) ≠ 0 := by
    rw [← norm_ne_zero_iff, hn]
    exact h0
  unfold arcTan
  rw [Complex.cos_arg hz, Complex.sin_arg, hn]
  constructor <;> field_simp

/-! ## Formula (ii) -/

section

variable {a b c x y z G : ℝ}

/-- The identities between the Δs. -/
theorem delta_identities (ha : 0 < a) (hb : 0 < b) (hc : 0 < c) (hG : x ^ 2 + y ^ 2 + z ^ 2 = G ^ 2) :
    let I : R3 ℝ := ⟨a, b, c⟩; let m : R3 ℝ := ⟨x, y, z⟩; let T := x ^ 2 / a + y ^ 2 / b + z ^ 2 / c
    Δ₁ I m = G ^ 2 - T * a ∧ Δ₂ I m = G ^ 2 - T * b ∧ Δ₃ I m = G ^ 2 - T * c := by
  refine ⟨?_, ?_, ?_⟩ <;> simp only [Δ₁, Δ₂, Δ₃] <;> rw [← hG] <;> field_simp <;> ring

theorem Δ₃_nonpos (ha : 0 < a) (hab : a ≤ b) (hbc : b ≤ c) : Δ₃ ⟨a, b, c⟩ ⟨x, y, z⟩ ≤ 0 := by
  have h1 : 0 ≤ x * x * (c - a) / a := div_nonneg (mul_nonneg (mul_self_nonneg x) (by linarith)) ha.le
  have h2 : 0 ≤ y * y * (c - b) / b := div_nonneg (mul_nonneg (mul_self_nonneg y) (by linarith)) (by linarith)
  simp only [Δ₃]
  rw [mul_neg, neg_div, mul_neg, neg_div]
  linarith

theorem Δ₁_nonneg (ha : 0 < a) (hab : a ≤ b) (hbc : b ≤ c) : 0 ≤ Δ₁ ⟨a, b, c⟩ ⟨x, y, z⟩ := by
  have h1 : 0 ≤ y * y * (b - a) / b := div_nonneg (mul_nonneg (mul_self_nonneg y) (by linarith)) (by linarith)
  have h2 : 0 ≤ z * z * (c - a) / c := div_nonneg (mul_nonneg (mul_self_nonneg z) (by linarith)) (by linarith)
  simp only [Δ₁]
  linarith

/-- The constants of formula (ii). -/
structure Constants₂ (a b c x y z G p q r mc lam : ℝ) : Prop where
  order : a ≤ b ∧ b < c
  mc_pos : 0 < mc
  mc_le : mc ≤ 1
  p_nonneg : 0 ≤ p
  q_nonneg : 0 ≤ q
  r_pos : 0 < r
  rate : lam < 0
  squares : p ^ 2 * (c - a) = a * (-Δ₃ ⟨a, b, c⟩ ⟨x, y, z⟩) ∧ q ^ 2 * (c - b) = b * (-Δ₃ ⟨a, b, c⟩ ⟨x, y, z⟩) ∧ r ^ 2 * (c - a) = c * Δ₁ ⟨a, b, c⟩ ⟨x, y, z⟩
  rate_sq : lam ^ 2 * (a * b * c) = Δ₁ ⟨a, b, c⟩ ⟨x, y, z⟩ * (c - b)
  first : -lam * p = q * r * (c - b) / (b * c)
  second : -lam * q = p * r * (c - a) / (a * c)
  third : -lam * (1 - mc) * r = p * q * (b - a) / (a * b)
  initial_x : p * Real.cos (arcTan (y * p) (x * q)) = x
  initial_y : q * Real.sin (arcTan (y * p) (x * q)) = y
  initial_z : r * delta mc (arcTan (y * p) (x * q)) = z

set_option maxHeartbeats 2000000 in
theorem constants₂ (ha : 0 < a) (hab : a ≤ b) (hbc : b ≤ c) (hG : x ^ 2 + y ^ 2 + z ^ 2 = G ^ 2) (hz : 0 ≤ z) (h2 : 0 < Δ₂ ⟨a, b, c⟩ ⟨x, y, z⟩) :
    Constants₂ a b c x y z G (√(a * Δ₃ ⟨a, b, c⟩ ⟨x, y, z⟩ / -(c - a))) (√(b * Δ₃ ⟨a, b, c⟩ ⟨x, y, z⟩ / -(c - b))) (√(c * Δ₁ ⟨a, b, c⟩ ⟨x, y, z⟩ / (c - a)))
      (min (Δ₂ ⟨a, b, c⟩ ⟨x, y, z⟩ * (c - a) / (Δ₁ ⟨a, b, c⟩ ⟨x, y, z⟩ * (c - b))) 1.0) (-√(Δ₁ ⟨a, b, c⟩ ⟨x, y, z⟩ * (c - b) / (a * b * c))) := by
  have hb : 0 < b := by linarith
  have hc : 0 < c := by linarith
  have hlt : b < c := by
    rcases hbc.lt_or_eq with h | h
    · exact h
    · exfalso
      subst h
      have : 0 ≤ x * x * (b - a) / a := div_nonneg (mul_nonneg (mul_self_nonneg x) (by linarith)) ha.le
      simp only [Δ₂, sub_self, mul_zero, zero_div, zero_add] at h2
      rw [mul_neg, neg_div] at h2
      linarith
  have hcb : 0 < c - b := by linarith
  have hca : 0 < c - a := by linarith
  obtain ⟨e1, e2, e3⟩ := delta_identities ha hb hc hG
  have hd3 := Δ₃_nonpos (x := x) (y := y) (z := z) ha hab hbc
  have hzz : 0 < z ^ 2 := by
    rcases eq_or_lt_of_le (sq_nonneg z) with h | h
    · exfalso
      have : 0 ≤ x * x * (b - a) / a := div_nonneg (mul_nonneg (mul_self_nonneg x) (by linarith)) ha.le
      have hz0 : z = 0 := by nlinarith
      subst hz0
      simp only [Δ₂] at h2
      rw [mul_neg, neg_div] at h2
      simp at h2
      linarith
    · exact h
  have hd1 : 0 < Δ₁ ⟨a, b, c⟩ ⟨x, y, z⟩ := by
    have h1 : 0 ≤ y * y * (b - a) / b := div_nonneg (mul_nonneg (mul_self_nonneg y) (by linarith)) (by linarith)
    have h3 : 0 < z * z * (c - a) / c := div_pos (mul_pos (by nlinarith) (by linarith)) (by linarith)
    simp only [Δ₁]
    linarith
  have d1 : Δ₁ ⟨a, b, c⟩ ⟨x, y, z⟩ = y * y * (b - a) / b + z * z * (c - a) / c := rfl
  have d3 : Δ₃ ⟨a, b, c⟩ ⟨x, y, z⟩ = x * x * -(c - a) / a + y * y * -(c - b) / b := rfl
  have hrel : Δ₁ ⟨a, b, c⟩ ⟨x, y, z⟩ * (c - b) - Δ₂ ⟨a, b, c⟩ ⟨x, y, z⟩ * (c - a) + Δ₃ ⟨a, b, c⟩ ⟨x, y, z⟩ * (b - a) = 0 := by
    rw [e1, e2, e3]; ring
  generalize hD1 : Δ₁ ⟨a, b, c⟩ ⟨x, y, z⟩ = D1 at *
  generalize hD2 : Δ₂ ⟨a, b, c⟩ ⟨x, y, z⟩ = D2 at *
  generalize hD3 : Δ₃ ⟨a, b, c⟩ ⟨x, y, z⟩ = D3 at *
  have hmin : min (D2 * (c - a) / (D1 * (c - b))) 1.0 = D2 * (c - a) / (D1 * (c - b)) := by
    apply min_eq_left
    rw [div_le_iff₀ (mul_pos hd1 hcb)]
    nlinarith
  rw [hmin]
  have hmc : 1 - D2 * (c - a) / (D1 * (c - b)) = -D3 * (b - a) / (D1 * (c - b)) := by
    field_simp
    linear_combination hrel
  have hp2 : √(a * D3 / -(c - a)) ^ 2 = a * -D3 / (c - a) := by
    rw [Real.sq_sqrt (div_nonneg_of_nonpos (by nlinarith) (by linarith))]
    rw [div_neg, mul_neg, neg_div]
  have hq2 : √(b * D3 / -(c - b)) ^ 2 = b * -D3 / (c - b) := by
    rw [Real.sq_sqrt (div_nonneg_of_nonpos (by nlinarith) (by linarith))]
    rw [div_neg, mul_neg, neg_div]
  have hr2 : √(c * D1 / (c - a)) ^ 2 = c * D1 / (c - a) := Real.sq_sqrt (by positivity)
  have hl2 : √(D1 * (c - b) / (a * b * c)) ^ 2 = D1 * (c - b) / (a * b * c) := Real.sq_sqrt (by positivity)
  have hp : 0 ≤ √(a * D3 / -(c - a)) := Real.sqrt_nonneg _
  have hq : 0 ≤ √(b * D3 / -(c - b)) := Real.sqrt_nonneg _
  have hr : 0 < √(c * D1 / (c - a)) := Real.sqrt_pos.2 (by positivity)
  have hl : 0 < √(D1 * (c - b) / (a * b * c)) := Real.sqrt_pos.2 (by positivity)
  generalize √(a * D3 / -(c - a)) = p at *
  generalize √(b * D3 / -(c - b)) = q at *
  generalize √(c * D1 / (c - a)) = r at *
  generalize √(D1 * (c - b) / (a * b * c)) = l at *
  have hmcpos : 0 < D2 * (c - a) / (D1 * (c - b)) := by positivity
  have hmcle : D2 * (c - a) / (D1 * (c - b)) ≤ 1 := by
    have : 0 ≤ -D3 * (b - a) / (D1 * (c - b)) := div_nonneg (mul_nonneg (by linarith) (by linarith)) (by positivity)
    linarith
  generalize D2 * (c - a) / (D1 * (c - b)) = mc at *
  have hba : 0 ≤ b - a := by linarith
  -- The initial angle.
  have hinit : p * Real.cos (arcTan (y * p) (x * q)) = x ∧ q * Real.sin (arcTan (y * p) (x * q)) = y := by
    rcases hd3.lt_or_eq with h | h
    · have hp0 : 0 < p := by
        have : 0 < p ^ 2 := by rw [hp2]; exact div_pos (by nlinarith) hca
        exact lt_of_le_of_ne hp (fun e => by rw [← e] at this; simp at this)
      have hq0 : 0 < q := by
        have : 0 < q ^ 2 := by rw [hq2]; exact div_pos (by nlinarith) hcb
        exact lt_of_le_of_ne hq (fun e => by rw [← e] at this; simp at this)
      have hn : (x * q) ^ 2 + (y * p) ^ 2 = (p * q) ^ 2 := by
        rw [mul_pow, mul_pow, mul_pow, hp2, hq2]
        have : D3 = -(x ^ 2 * (c - a) / a + y ^ 2 * (c - b) / b) := by rw [d3]; ring
        rw [this]
        field_simp
      obtain ⟨h1, h2⟩ := arcTan_spec (by positivity) hn (by positivity)
      constructor
      · have : q * (p * Real.cos (arcTan (y * p) (x * q))) = q * x := by linear_combination h1
        exact mul_left_cancel₀ hq0.ne' this
      · have : p * (q * Real.sin (arcTan (y * p) (x * q))) = p * y := by linear_combination h2
        exact mul_left_cancel₀ hp0.ne' this
    · have hx : x = 0 ∧ y = 0 := by
        have h1 : 0 ≤ x * x * (c - a) / a := div_nonneg (mul_nonneg (mul_self_nonneg x) (by linarith)) ha.le
        have h2 : 0 ≤ y * y * (c - b) / b := div_nonneg (mul_nonneg (mul_self_nonneg y) (by linarith)) (by linarith)
        rw [d3, mul_neg, neg_div, mul_neg, neg_div] at h
        constructor
        · have : x * x * (c - a) / a = 0 := by linarith
          have : x * x = 0 := by
            rw [div_eq_zero_iff] at this
            rcases this with h | h
            · exact (mul_eq_zero.1 h).resolve_right hca.ne'
            · linarith
          exact mul_self_eq_zero.1 this
        · have : y * y * (c - b) / b = 0 := by linarith
          have : y * y = 0 := by
            rw [div_eq_zero_iff] at this
            rcases this with h | h
            · exact (mul_eq_zero.1 h).resolve_right hcb.ne'
            · linarith
          exact mul_self_eq_zero.1 this
      have hp0 : p = 0 := by
        have : p ^ 2 = 0 := by rw [hp2, h]; simp
        simpa using this
      have hq0 : q = 0 := by
        have : q ^ 2 = 0 := by rw [hq2, h]; simp
        simpa using this
      rw [hp0, hq0, hx.1, hx.2]
      simp
  refine ⟨⟨hab, hlt⟩, hmcpos, hmcle, hp, hq, hr, by linarith, ⟨?_, ?_, ?_⟩, ?_, ?_, ?_, ?_, hinit.1, hinit.2, ?_⟩
  · rw [hp2, hD3]; field_simp
  · rw [hq2, hD3]; field_simp
  · rw [hr2, hD1]; field_simp
  · rw [hD1, neg_sq, hl2]; field_simp
  · rw [neg_neg]
    refine eq_of_sq (by positivity) (by positivity) ?_
    rw [mul_pow, div_pow, mul_pow, mul_pow, hp2, hq2, hr2, hl2]
    field_simp
  · rw [neg_neg]
    refine eq_of_sq (by positivity) (by positivity) ?_
    rw [mul_pow, div_pow, mul_pow, mul_pow, hp2, hq2, hr2, hl2]
    field_simp
  · rw [neg_neg, hmc]
    have hd3' : 0 ≤ -D3 := by linarith
    refine eq_of_sq (by positivity) (by positivity) ?_
    have e : (p * q * (b - a) / (a * b)) ^ 2 = p ^ 2 * q ^ 2 * (b - a) ^ 2 / (a * b) ^ 2 := by ring
    rw [mul_pow, mul_pow, e, hp2, hq2, hr2, hl2]
    field_simp
  · refine eq_of_sq (mul_nonneg hr.le (delta_pos hmcpos hmcle _).le) hz ?_
    rw [mul_pow, delta_sq hmcpos hmcle, hr2, hmc]
    have h1 : q ^ 2 * Real.sin (arcTan (y * p) (x * q)) ^ 2 = y ^ 2 := by rw [← mul_pow, hinit.2]
    rw [hq2] at h1
    have h2 : -D3 * Real.sin (arcTan (y * p) (x * q)) ^ 2 = y ^ 2 * (c - b) / b := by
      field_simp
      field_simp at h1
      linear_combination h1
    have h3 : -D3 * (b - a) / (D1 * (c - b)) * Real.sin (arcTan (y * p) (x * q)) ^ 2 = y ^ 2 * (b - a) / (b * D1) := by
      have : -D3 * (b - a) / (D1 * (c - b)) * Real.sin (arcTan (y * p) (x * q)) ^ 2 =
        (b - a) / (D1 * (c - b)) * (-D3 * Real.sin (arcTan (y * p) (x * q)) ^ 2) := by ring
      rw [this, h2]
      field_simp
    rw [h3]
    have h4 : c * D1 / (c - a) * (1 - y ^ 2 * (b - a) / (b * D1)) = c / (c - a) * (D1 - y ^ 2 * (b - a) / b) := by field_simp
    rw [h4, d1]
    field_simp
    ring

/-! ## Formula (i) -/

/-- The constants of formula (i). -/
structure Constants₁ (a b c x y z G p q r mc lam : ℝ) : Prop where
  order : a < b ∧ b ≤ c
  mc_pos : 0 < mc
  mc_le : mc ≤ 1
  p_pos : 0 < p
  q_nonneg : 0 ≤ q
  r_nonneg : 0 ≤ r
  rate : lam < 0
  squares : p ^ 2 * (c - a) = a * (-Δ₃ ⟨a, b, c⟩ ⟨x, y, z⟩) ∧ q ^ 2 * (b - a) = b * Δ₁ ⟨a, b, c⟩ ⟨x, y, z⟩ ∧ r ^ 2 * (c - a) = c * Δ₁ ⟨a, b, c⟩ ⟨x, y, z⟩
  rate_sq : lam ^ 2 * (a * b * c) = -Δ₃ ⟨a, b, c⟩ ⟨x, y, z⟩ * (b - a)
  first : -lam * (1 - mc) * p = q * r * (c - b) / (b * c)
  second : -lam * q = p * r * (c - a) / (a * c)
  third : -lam * r = p * q * (b - a) / (a * b)
  initial_z : r * Real.cos (arcTan (y * r) (z * q)) = z
  initial_y : q * Real.sin (arcTan (y * r) (z * q)) = y
  initial_x : p * delta mc (arcTan (y * r) (z * q)) = x

set_option maxHeartbeats 2000000 in
theorem constants₁ (ha : 0 < a) (hab : a ≤ b) (hbc : b ≤ c) (hG : x ^ 2 + y ^ 2 + z ^ 2 = G ^ 2) (hx : 0 ≤ x) (h2 : Δ₂ ⟨a, b, c⟩ ⟨x, y, z⟩ < 0) :
    Constants₁ a b c x y z G (√(a * Δ₃ ⟨a, b, c⟩ ⟨x, y, z⟩ / -(c - a))) (√(b * Δ₁ ⟨a, b, c⟩ ⟨x, y, z⟩ / (b - a))) (√(c * Δ₁ ⟨a, b, c⟩ ⟨x, y, z⟩ / (c - a)))
      (min (Δ₂ ⟨a, b, c⟩ ⟨x, y, z⟩ * (c - a) / (Δ₃ ⟨a, b, c⟩ ⟨x, y, z⟩ * (b - a))) 1.0) (-√(Δ₃ ⟨a, b, c⟩ ⟨x, y, z⟩ * -(b - a) / (a * b * c))) := by
  have hb : 0 < b := by linarith
  have hc : 0 < c := by linarith
  have hlt : a < b := by
    rcases hab.lt_or_eq with h | h
    · exact h
    · exfalso
      subst h
      have : 0 ≤ z * z * (c - a) / c := div_nonneg (mul_nonneg (mul_self_nonneg z) (by linarith)) hc.le
      simp only [Δ₂, sub_self, mul_zero, zero_div, add_zero, neg_zero] at h2
      linarith
  have hba : 0 < b - a := by linarith
  have hca : 0 < c - a := by linarith
  obtain ⟨e1, e2, e3⟩ := delta_identities ha hb hc hG
  have hd1 := Δ₁_nonneg (x := x) (y := y) (z := z) ha hab hbc
  have hxx : 0 < x ^ 2 := by
    rcases eq_or_lt_of_le (sq_nonneg x) with h | h
    · exfalso
      have : 0 ≤ z * z * (c - b) / c := div_nonneg (mul_nonneg (mul_self_nonneg z) (by linarith)) hc.le
      have hx0 : x = 0 := by nlinarith
      subst hx0
      simp only [Δ₂] at h2
      simp at h2
      linarith
    · exact h
  have hd3 : Δ₃ ⟨a, b, c⟩ ⟨x, y, z⟩ < 0 := by
    have h1 : 0 ≤ y * y * (c - b) / b := div_nonneg (mul_nonneg (mul_self_nonneg y) (by linarith)) (by linarith)
    have h3 : 0 < x * x * (c - a) / a := div_pos (mul_pos (by nlinarith) (by linarith)) (by linarith)
    simp only [Δ₃]
    rw [mul_neg, neg_div, mul_neg, neg_div]
    linarith
  have d1 : Δ₁ ⟨a, b, c⟩ ⟨x, y, z⟩ = y * y * (b - a) / b + z * z * (c - a) / c := rfl
  have d3 : -Δ₃ ⟨a, b, c⟩ ⟨x, y, z⟩ = x * x * (c - a) / a + y * y * (c - b) / b := by
    simp only [Δ₃]; ring
  have hrel : Δ₁ ⟨a, b, c⟩ ⟨x, y, z⟩ * (c - b) - Δ₂ ⟨a, b, c⟩ ⟨x, y, z⟩ * (c - a) + Δ₃ ⟨a, b, c⟩ ⟨x, y, z⟩ * (b - a) = 0 := by
    rw [e1, e2, e3]; ring
  obtain ⟨E3, hE3⟩ : ∃ E3, Δ₃ ⟨a, b, c⟩ ⟨x, y, z⟩ = -E3 := ⟨_, (neg_neg _).symm⟩
  obtain ⟨E2, hE2⟩ : ∃ E2, Δ₂ ⟨a, b, c⟩ ⟨x, y, z⟩ = -E2 := ⟨_, (neg_neg _).symm⟩
  generalize hD1 : Δ₁ ⟨a, b, c⟩ ⟨x, y, z⟩ = D1 at *
  rw [hE3] at hd3 d3 hrel
  rw [hE2] at h2 hrel
  rw [hE3, hE2]
  rw [neg_neg] at d3
  clear e1 e2 e3
  have hE3pos : 0 < E3 := by linarith
  have hE2pos : 0 < E2 := by linarith
  rw [show -E2 * (c - a) / (-E3 * (b - a)) = E2 * (c - a) / (E3 * (b - a)) by rw [neg_mul, neg_mul, neg_div_neg_eq], show a * -E3 / -(c - a) = a * E3 / (c - a) by rw [mul_neg, neg_div_neg_eq],
    show -E3 * -(b - a) / (a * b * c) = E3 * (b - a) / (a * b * c) by rw [neg_mul_neg]]
  have hmin : min (E2 * (c - a) / (E3 * (b - a))) 1.0 = E2 * (c - a) / (E3 * (b - a)) := by
    apply min_eq_left
    rw [div_le_iff₀ (mul_pos hE3pos hba)]
    nlinarith
  rw [hmin]
  have hmc : 1 - E2 * (c - a) / (E3 * (b - a)) = D1 * (c - b) / (E3 * (b - a)) := by
    field_simp
    linear_combination -hrel
  have hp2 : √(a * E3 / (c - a)) ^ 2 = a * E3 / (c - a) := Real.sq_sqrt (by positivity)
  have hq2 : √(b * D1 / (b - a)) ^ 2 = b * D1 / (b - a) := Real.sq_sqrt (by positivity)
  have hr2 : √(c * D1 / (c - a)) ^ 2 = c * D1 / (c - a) := Real.sq_sqrt (by positivity)
  have hl2 : √(E3 * (b - a) / (a * b * c)) ^ 2 = E3 * (b - a) / (a * b * c) := Real.sq_sqrt (by positivity)
  have hp : 0 < √(a * E3 / (c - a)) := Real.sqrt_pos.2 (by positivity)
  have hq : 0 ≤ √(b * D1 / (b - a)) := Real.sqrt_nonneg _
  have hr : 0 ≤ √(c * D1 / (c - a)) := Real.sqrt_nonneg _
  have hl : 0 < √(E3 * (b - a) / (a * b * c)) := Real.sqrt_pos.2 (by positivity)
  generalize √(a * E3 / (c - a)) = p at *
  generalize √(b * D1 / (b - a)) = q at *
  generalize √(c * D1 / (c - a)) = r at *
  generalize √(E3 * (b - a) / (a * b * c)) = l at *
  have hmcpos : 0 < E2 * (c - a) / (E3 * (b - a)) := by positivity
  have hcb : 0 ≤ c - b := by linarith
  have hmcle : E2 * (c - a) / (E3 * (b - a)) ≤ 1 := by
    have : 0 ≤ D1 * (c - b) / (E3 * (b - a)) := by positivity
    linarith
  generalize E2 * (c - a) / (E3 * (b - a)) = mc at *
  -- The initial angle.
  have hinit : r * Real.cos (arcTan (y * r) (z * q)) = z ∧ q * Real.sin (arcTan (y * r) (z * q)) = y := by
    rcases hd1.lt_or_eq with h | h
    · have hr0 : 0 < r := by
        have : 0 < r ^ 2 := by rw [hr2]; positivity
        exact lt_of_le_of_ne hr (fun e => by rw [← e] at this; simp at this)
      have hq0 : 0 < q := by
        have : 0 < q ^ 2 := by rw [hq2]; positivity
        exact lt_of_le_of_ne hq (fun e => by rw [← e] at this; simp at this)
      have hn : (z * q) ^ 2 + (y * r) ^ 2 = (r * q) ^ 2 := by
        rw [mul_pow, mul_pow, mul_pow, hr2, hq2]
        have : D1 = y ^ 2 * (b - a) / b + z ^ 2 * (c - a) / c := by rw [d1]; ring
        rw [this]
        field_simp
        ring
      obtain ⟨h1, h2⟩ := arcTan_spec (by positivity) hn (by positivity)
      constructor
      · have : q * (r * Real.cos (arcTan (y * r) (z * q))) = q * z := by linear_combination h1
        exact mul_left_cancel₀ hq0.ne' this
      · have : r * (q * Real.sin (arcTan (y * r) (z * q))) = r * y := by linear_combination h2
        exact mul_left_cancel₀ hr0.ne' this
    · have hx : z = 0 ∧ y = 0 := by
        have h1 : 0 ≤ z * z * (c - a) / c := div_nonneg (mul_nonneg (mul_self_nonneg z) (by linarith)) hc.le
        have h2 : 0 ≤ y * y * (b - a) / b := div_nonneg (mul_nonneg (mul_self_nonneg y) (by linarith)) (by linarith)
        rw [d1] at h
        constructor
        · have : z * z * (c - a) / c = 0 := by linarith
          have : z * z = 0 := by
            rw [div_eq_zero_iff] at this
            rcases this with h | h
            · exact (mul_eq_zero.1 h).resolve_right hca.ne'
            · linarith
          exact mul_self_eq_zero.1 this
        · have : y * y * (b - a) / b = 0 := by linarith
          have : y * y = 0 := by
            rw [div_eq_zero_iff] at this
            rcases this with h | h
            · exact (mul_eq_zero.1 h).resolve_right hba.ne'
            · linarith
          exact mul_self_eq_zero.1 this
      have hr0 : r = 0 := by
        have : r ^ 2 = 0 := by rw [hr2, ← h]; simp
        simpa using this
      have hq0 : q = 0 := by
        have : q ^ 2 = 0 := by rw [hq2, ← h]; simp
        simpa using this
      rw [hr0, hq0, hx.1, hx.2]
      simp
  refine ⟨⟨hlt, hbc⟩, hmcpos, hmcle, hp, hq, hr, by linarith, ⟨?_, ?_, ?_⟩, ?_, ?_, ?_, ?_, hinit.1, hinit.2, ?_⟩
  · rw [hp2, hE3, neg_neg]; field_simp
  · rw [hq2, hD1]; field_simp
  · rw [hr2, hD1]; field_simp
  · rw [hE3, neg_neg, neg_sq, hl2]; field_simp
  · rw [neg_neg, hmc]
    refine eq_of_sq (by positivity) (by positivity) ?_
    have e : (q * r * (c - b) / (b * c)) ^ 2 = q ^ 2 * r ^ 2 * (c - b) ^ 2 / (b * c) ^ 2 := by ring
    rw [mul_pow, mul_pow, e, hp2, hq2, hr2, hl2]
    field_simp
  · rw [neg_neg]
    refine eq_of_sq (by positivity) (by positivity) ?_
    rw [mul_pow, div_pow, mul_pow, mul_pow, hp2, hq2, hr2, hl2]
    field_simp
  · rw [neg_neg]
    refine eq_of_sq (by positivity) (by positivity) ?_
    rw [mul_pow, div_pow, mul_pow, mul_pow, hp2, hq2, hr2, hl2]
    field_simp
  · refine eq_of_sq (mul_nonneg hp.le (delta_pos hmcpos hmcle _).le) hx ?_
    rw [mul_pow, delta_sq hmcpos hmcle, hp2, hmc]
    have h1 : q ^ 2 * Real.sin (arcTan (y * r) (z * q)) ^ 2 = y ^ 2 := by rw [← mul_pow, hinit.2]
    rw [hq2] at h1
    have h2 : D1 * Real.sin (arcTan (y * r) (z * q)) ^ 2 = y ^ 2 * (b - a) / b := by
      field_simp
      field_simp at h1
      linear_combination h1
    have h3 : D1 * (c - b) / (E3 * (b - a)) * Real.sin (arcTan (y * r) (z * q)) ^ 2 = y ^ 2 * (c - b) / (b * E3) := by
      have : D1 * (c - b) / (E3 * (b - a)) * Real.sin (arcTan (y * r) (z * q)) ^ 2 =
        (c - b) / (E3 * (b - a)) * (D1 * Real.sin (arcTan (y * r) (z * q)) ^ 2) := by ring
      rw [this, h2]
      field_simp
    rw [h3]
    have h4 : a * E3 / (c - a) * (1 - y ^ 2 * (c - b) / (b * E3)) = a / (c - a) * (E3 - y ^ 2 * (c - b) / b) := by field_simp
    rw [h4, d3]
    field_simp
    ring

end

end Principia.Physics.Euler
