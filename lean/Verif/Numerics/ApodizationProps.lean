import Verif.Numerics.ApodizationModel
import Mathlib.Tactic.Linarith
import Mathlib.Tactic.Ring
import Mathlib.Tactic.FieldSimp
import Mathlib.Tactic.Positivity
import Mathlib.Tactic.NormNum

/-!
C90: the apodization functions.
-/

set_option linter.unusedSimpArgs false
set_option linter.unusedVariables false

namespace Principia.Numerics.Apodization

open Real Polynomial Principia.Numerics.Poisson

/-- A function that is 1 in the middle of the interval and `e` at its ends, is symmetric, and decreases from the middle to the ends. -/
structure IsWindow (f : ℝ → ℝ) (a b e : ℝ) : Prop where
  middle : f ((a + b) / 2) = 1
  left : f a = e
  right : f b = e
  symmetric : ∀ s, f ((a + b) / 2 + s) = f ((a + b) / 2 - s)
  decreasing : ∀ s s', 0 ≤ s → s ≤ s' → s' ≤ (b - a) / 2 → f ((a + b) / 2 + s') ≤ f ((a + b) / 2 + s)

theorem middle_eq (a b : ℝ) : middle a b = (a + b) / 2 := by rw [middle]; ring

theorem isWindow (f P : ℝ → ℝ) (a b e m : ℝ) (hab : a < b) (hm : 0 ≤ m) (hm2 : m ≤ 2) (hf : ∀ t, f t = P (cos (m * π / (b - a) * (t - (a + b) / 2))))
    (hP : ∀ x y, -1 ≤ x → x ≤ y → y ≤ 1 → P x ≤ P y) (h1 : P 1 = 1) (he : P (cos (m * π / 2)) = e) : IsWindow f a b e := by
  have hπ := pi_pos
  have hd : 0 < b - a := by linarith
  have hb : f b = e := by
    rw [hf, ← he]
    congr 2
    field_simp; ring
  have hs : ∀ s, f ((a + b) / 2 + s) = f ((a + b) / 2 - s) := by
    intro s
    rw [hf, hf, ← cos_neg]
    congr 2
    ring
  refine ⟨?_, ?_, hb, hs, ?_⟩
  · rw [hf, sub_self, mul_zero, cos_zero, h1]
  · have := hs ((b - a) / 2)
    rw [show (a + b) / 2 + (b - a) / 2 = b by ring, show (a + b) / 2 - (b - a) / 2 = a by ring] at this
    rw [← this, hb]
  · intro s s' h0 hss hs'
    rw [hf, hf, add_sub_cancel_left, add_sub_cancel_left]
    have hk : 0 ≤ m * π / (b - a) := by positivity
    apply hP _ _ (neg_one_le_cos _) _ (cos_le_one _)
    apply cos_le_cos_of_nonneg_of_le_pi
    · positivity
    · calc m * π / (b - a) * s' ≤ m * π / (b - a) * ((b - a) / 2) := by gcongr
        _ = m * π / 2 := by field_simp
        _ ≤ π := by nlinarith
    · gcongr

theorem cubic (p₀ p₁ p₂ p₃ : ℝ) (h1 : 0 ≤ p₃) (h2 : 3 * p₃ ≤ p₂) (h3 : 2 * p₂ ≤ p₁ + 3 * p₃) (x y : ℝ) (hx : -1 ≤ x) (hxy : x ≤ y) (hy : y ≤ 1) :
    p₀ + p₁ * x + p₂ * x ^ 2 + p₃ * x ^ 3 ≤ p₀ + p₁ * y + p₂ * y ^ 2 + p₃ * y ^ 3 := by
  have a1 : -3 * (x + y) - 3 ≤ x ^ 2 + x * y + y ^ 2 := by nlinarith [sq_nonneg (x - y), sq_nonneg (x + y + 2)]
  have a2 : p₃ * (-3 * (x + y) - 3) ≤ p₃ * (x ^ 2 + x * y + y ^ 2) := mul_le_mul_of_nonneg_left a1 h1
  have a3 : (p₂ - 3 * p₃) * (-2) ≤ (p₂ - 3 * p₃) * (x + y) := mul_le_mul_of_nonneg_left (by linarith) (by linarith)
  have a4 : 0 ≤ p₁ + p₂ * (x + y) + p₃ * (x ^ 2 + x * y + y ^ 2) := by linarith
  have := mul_nonneg (sub_nonneg.2 hxy) a4
  linarith

/-- C90.  The function Dirichlet is a window whose value at the ends is 1. -/
theorem C90_dirichlet (a b : ℝ) (h : a < b) : IsWindow (dirichlet a b).at a b (1) := by
  refine isWindow _ (fun c => ((1 : ℝ) - (0 : ℝ)) + ((0 : ℝ) - 3 * (0 : ℝ)) * c + (2 * (0 : ℝ)) * c ^ 2 + (4 * (0 : ℝ)) * c ^ 3) a b _ 0 h (by norm_num) (by norm_num) ?_ (cubic _ _ _ _ (by norm_num) (by norm_num) (by norm_num)) (by norm_num) ?_
  · intro t
    simp only [Series.at, dirichlet, cosine, Term.at, List.foldl_cons, List.foldl_nil, eval_C, middle_eq, mul_assoc (2 : ℝ) (_ / _) _, mul_assoc (3 : ℝ) (_ / _) _, cos_two_mul, cos_three_mul]
    ring_nf
  · first
      | (rw [show (2 : ℝ) * π / 2 = π by ring, cos_pi]; norm_num)
      | (rw [show (1 : ℝ) * π / 2 = π / 2 by ring, cos_pi_div_two]; norm_num)
      | norm_num

/-- C90.  The function Sine is a window whose value at the ends is 0. -/
theorem C90_sine (a b : ℝ) (h : a < b) : IsWindow (sine a b).at a b (0) := by
  refine isWindow _ (fun c => ((0 : ℝ) - (0 : ℝ)) + ((1 : ℝ) - 3 * (0 : ℝ)) * c + (2 * (0 : ℝ)) * c ^ 2 + (4 * (0 : ℝ)) * c ^ 3) a b _ 1 h (by norm_num) (by norm_num) ?_ (cubic _ _ _ _ (by norm_num) (by norm_num) (by norm_num)) (by norm_num) ?_
  · intro t
    simp only [Series.at, sine, cosine, Term.at, List.foldl_cons, List.foldl_nil, eval_C, middle_eq, mul_assoc (2 : ℝ) (_ / _) _, mul_assoc (3 : ℝ) (_ / _) _, cos_two_mul, cos_three_mul]
    ring_nf
  · first
      | (rw [show (2 : ℝ) * π / 2 = π by ring, cos_pi]; norm_num)
      | (rw [show (1 : ℝ) * π / 2 = π / 2 by ring, cos_pi_div_two]; norm_num)
      | norm_num

/-- C90.  The function Hann is a window whose value at the ends is 0. -/
theorem C90_hann (a b : ℝ) (h : a < b) : IsWindow (hann a b).at a b (0) := by
  refine isWindow _ (fun c => ((0.5 : ℝ) - (0 : ℝ)) + ((0.5 : ℝ) - 3 * (0 : ℝ)) * c + (2 * (0 : ℝ)) * c ^ 2 + (4 * (0 : ℝ)) * c ^ 3) a b _ 2 h (by norm_num) (by norm_num) ?_ (cubic _ _ _ _ (by norm_num) (by norm_num) (by norm_num)) (by norm_num) ?_
  · intro t
    simp only [Series.at, hann, cosine, Term.at, List.foldl_cons, List.foldl_nil, eval_C, middle_eq, mul_assoc (2 : ℝ) (_ / _) _, mul_assoc (3 : ℝ) (_ / _) _, cos_two_mul, cos_three_mul]
    ring_nf
  · first
      | (rw [show (2 : ℝ) * π / 2 = π by ring, cos_pi]; norm_num)
      | (rw [show (1 : ℝ) * π / 2 = π / 2 by ring, cos_pi_div_two]; norm_num)
      | norm_num

/-- C90.  The function Hamming is a window whose value at the ends is 2 / 23. -/
theorem C90_hamming (a b : ℝ) (h : a < b) : IsWindow (hamming a b).at a b (2 / 23) := by
  refine isWindow _ (fun c => ((25 / 46 : ℝ) - (0 : ℝ)) + ((21 / 46 : ℝ) - 3 * (0 : ℝ)) * c + (2 * (0 : ℝ)) * c ^ 2 + (4 * (0 : ℝ)) * c ^ 3) a b _ 2 h (by norm_num) (by norm_num) ?_ (cubic _ _ _ _ (by norm_num) (by norm_num) (by norm_num)) (by norm_num) ?_
  · intro t
    simp only [Series.at, hamming, cosine, Term.at, List.foldl_cons, List.foldl_nil, eval_C, middle_eq, mul_assoc (2 : ℝ) (_ / _) _, mul_assoc (3 : ℝ) (_ / _) _, cos_two_mul, cos_three_mul]
    ring_nf
  · first
      | (rw [show (2 : ℝ) * π / 2 = π by ring, cos_pi]; norm_num)
      | (rw [show (1 : ℝ) * π / 2 = π / 2 by ring, cos_pi_div_two]; norm_num)
      | norm_num

/-- C90.  The function Blackman is a window whose value at the ends is 0. -/
theorem C90_blackman (a b : ℝ) (h : a < b) : IsWindow (blackman a b).at a b (0) := by
  refine isWindow _ (fun c => ((0.42 : ℝ) - (0.08 : ℝ)) + ((0.5 : ℝ) - 3 * (0 : ℝ)) * c + (2 * (0.08 : ℝ)) * c ^ 2 + (4 * (0 : ℝ)) * c ^ 3) a b _ 2 h (by norm_num) (by norm_num) ?_ (cubic _ _ _ _ (by norm_num) (by norm_num) (by norm_num)) (by norm_num) ?_
  · intro t
    simp only [Series.at, blackman, cosine, Term.at, List.foldl_cons, List.foldl_nil, eval_C, middle_eq, mul_assoc (2 : ℝ) (_ / _) _, mul_assoc (3 : ℝ) (_ / _) _, cos_two_mul, cos_three_mul]
    ring_nf
  · first
      | (rw [show (2 : ℝ) * π / 2 = π by ring, cos_pi]; norm_num)
      | (rw [show (1 : ℝ) * π / 2 = π / 2 by ring, cos_pi_div_two]; norm_num)
      | norm_num

/-- C90.  The function ExactBlackman is a window whose value at the ends is 8 / 1163. -/
theorem C90_exactBlackman (a b : ℝ) (h : a < b) : IsWindow (exactBlackman a b).at a b (8 / 1163) := by
  refine isWindow _ (fun c => ((3969 / 9304 : ℝ) - (715 / 9304 : ℝ)) + ((1155 / 2326 : ℝ) - 3 * (0 : ℝ)) * c + (2 * (715 / 9304 : ℝ)) * c ^ 2 + (4 * (0 : ℝ)) * c ^ 3) a b _ 2 h (by norm_num) (by norm_num) ?_ (cubic _ _ _ _ (by norm_num) (by norm_num) (by norm_num)) (by norm_num) ?_
  · intro t
    simp only [Series.at, exactBlackman, cosine, Term.at, List.foldl_cons, List.foldl_nil, eval_C, middle_eq, mul_assoc (2 : ℝ) (_ / _) _, mul_assoc (3 : ℝ) (_ / _) _, cos_two_mul, cos_three_mul]
    ring_nf
  · first
      | (rw [show (2 : ℝ) * π / 2 = π by ring, cos_pi]; norm_num)
      | (rw [show (1 : ℝ) * π / 2 = π / 2 by ring, cos_pi_div_two]; norm_num)
      | norm_num

/-- C90.  The function Nuttall is a window whose value at the ends is 0. -/
theorem C90_nuttall (a b : ℝ) (h : a < b) : IsWindow (nuttall a b).at a b (0) := by
  refine isWindow _ (fun c => ((0.355768 : ℝ) - (0.144232 : ℝ)) + ((0.487396 : ℝ) - 3 * (0.012604 : ℝ)) * c + (2 * (0.144232 : ℝ)) * c ^ 2 + (4 * (0.012604 : ℝ)) * c ^ 3) a b _ 2 h (by norm_num) (by norm_num) ?_ (cubic _ _ _ _ (by norm_num) (by norm_num) (by norm_num)) (by norm_num) ?_
  · intro t
    simp only [Series.at, nuttall, cosine, Term.at, List.foldl_cons, List.foldl_nil, eval_C, middle_eq, mul_assoc (2 : ℝ) (_ / _) _, mul_assoc (3 : ℝ) (_ / _) _, cos_two_mul, cos_three_mul]
    ring_nf
  · first
      | (rw [show (2 : ℝ) * π / 2 = π by ring, cos_pi]; norm_num)
      | (rw [show (1 : ℝ) * π / 2 = π / 2 by ring, cos_pi_div_two]; norm_num)
      | norm_num

/-- C90.  The function BlackmanNuttall is a window whose value at the ends is 0.0003628. -/
theorem C90_blackmanNuttall (a b : ℝ) (h : a < b) : IsWindow (blackmanNuttall a b).at a b (0.0003628) := by
  refine isWindow _ (fun c => ((0.3635819 : ℝ) - (0.1365995 : ℝ)) + ((0.4891775 : ℝ) - 3 * (0.0106411 : ℝ)) * c + (2 * (0.1365995 : ℝ)) * c ^ 2 + (4 * (0.0106411 : ℝ)) * c ^ 3) a b _ 2 h (by norm_num) (by norm_num) ?_ (cubic _ _ _ _ (by norm_num) (by norm_num) (by norm_num)) (by norm_num) ?_
  · intro t
    simp only [Series.at, blackmanNuttall, cosine, Term.at, List.foldl_cons, List.foldl_nil, eval_C, middle_eq, mul_assoc (2 : ℝ) (_ / _) _, mul_assoc (3 : ℝ) (_ / _) _, cos_two_mul, cos_three_mul]
    ring_nf
  · first
      | (rw [show (2 : ℝ) * π / 2 = π by ring, cos_pi]; norm_num)
      | (rw [show (1 : ℝ) * π / 2 = π / 2 by ring, cos_pi_div_two]; norm_num)
      | norm_num

/-- C90.  The function BlackmanHarris is a window whose value at the ends is 0.00006. -/
theorem C90_blackmanHarris (a b : ℝ) (h : a < b) : IsWindow (blackmanHarris a b).at a b (0.00006) := by
  refine isWindow _ (fun c => ((0.35875 : ℝ) - (0.14128 : ℝ)) + ((0.48829 : ℝ) - 3 * (0.01168 : ℝ)) * c + (2 * (0.14128 : ℝ)) * c ^ 2 + (4 * (0.01168 : ℝ)) * c ^ 3) a b _ 2 h (by norm_num) (by norm_num) ?_ (cubic _ _ _ _ (by norm_num) (by norm_num) (by norm_num)) (by norm_num) ?_
  · intro t
    simp only [Series.at, blackmanHarris, cosine, Term.at, List.foldl_cons, List.foldl_nil, eval_C, middle_eq, mul_assoc (2 : ℝ) (_ / _) _, mul_assoc (3 : ℝ) (_ / _) _, cos_two_mul, cos_three_mul]
    ring_nf
  · first
      | (rw [show (2 : ℝ) * π / 2 = π by ring, cos_pi]; norm_num)
      | (rw [show (1 : ℝ) * π / 2 = π / 2 by ring, cos_pi_div_two]; norm_num)
      | norm_num

/-- C90.  The flat-top window is 1 in the middle of the interval, symmetric, never more than 1 in absolute value, and slightly negative at the ends. -/
theorem C90_iso18431_2 (a b : ℝ) (h : a < b) :
    (iso18431_2 a b).at ((a + b) / 2) = 1 ∧ (∀ s, (iso18431_2 a b).at ((a + b) / 2 + s) = (iso18431_2 a b).at ((a + b) / 2 - s)) ∧ (∀ t, |(iso18431_2 a b).at t| ≤ 1) ∧
    (iso18431_2 a b).at a = -0.00195313 / 4.63867187 ∧ (iso18431_2 a b).at b = -0.00195313 / 4.63867187 := by
  have hd : b - a ≠ 0 := by linarith
  have ev : ∀ s, (iso18431_2 a b).at ((a + b) / 2 + s) = 1 / 4.63867187 + 1.93261719 / 4.63867187 * cos (2 * π / (b - a) * s) + 1.28613281 / 4.63867187 * cos (2 * (2 * π / (b - a)) * s) + 0.38769531 / 4.63867187 * cos (3 * (2 * π / (b - a)) * s) + 0.03222656 / 4.63867187 * cos (4 * (2 * π / (b - a)) * s) := by
    intro s
    simp only [Series.at, iso18431_2, cosine, Term.at, List.foldl_cons, List.foldl_nil, eval_C, middle_eq, add_sub_cancel_left, zero_mul, zero_add]
  have sy : ∀ s, (iso18431_2 a b).at ((a + b) / 2 + s) = (iso18431_2 a b).at ((a + b) / 2 - s) := by
    intro s
    rw [sub_eq_add_neg, ev, ev]
    simp only [mul_neg, cos_neg]
  have hb : (iso18431_2 a b).at b = -0.00195313 / 4.63867187 := by
    have := ev ((b - a) / 2)
    rw [show (a + b) / 2 + (b - a) / 2 = b by ring, show 2 * π / (b - a) * ((b - a) / 2) = π by field_simp, show 2 * (2 * π / (b - a)) * ((b - a) / 2) = 2 * π by field_simp, show 3 * (2 * π / (b - a)) * ((b - a) / 2) = 3 * π by field_simp,
      show 4 * (2 * π / (b - a)) * ((b - a) / 2) = 2 * (2 * π) by field_simp; ring, cos_three_mul, cos_two_mul (2 * π), cos_two_pi, cos_pi] at this
    rw [this]; norm_num
  refine ⟨?_, sy, ?_, ?_, hb⟩
  · have := ev 0
    simp only [mul_zero, cos_zero, add_zero] at this
    rw [this]; norm_num
  · intro t
    have := ev (t - (a + b) / 2)
    rw [add_sub_cancel] at this
    rw [this, abs_le]
    have c1 := neg_one_le_cos (2 * π / (b - a) * (t - (a + b) / 2))
    have c2 := neg_one_le_cos (2 * (2 * π / (b - a)) * (t - (a + b) / 2))
    have c3 := neg_one_le_cos (3 * (2 * π / (b - a)) * (t - (a + b) / 2))
    have c4 := neg_one_le_cos (4 * (2 * π / (b - a)) * (t - (a + b) / 2))
    have d1 := cos_le_one (2 * π / (b - a) * (t - (a + b) / 2))
    have d2 := cos_le_one (2 * (2 * π / (b - a)) * (t - (a + b) / 2))
    have d3 := cos_le_one (3 * (2 * π / (b - a)) * (t - (a + b) / 2))
    have d4 := cos_le_one (4 * (2 * π / (b - a)) * (t - (a + b) / 2))
    norm_num
    constructor <;> linarith
  · have := sy ((b - a) / 2)
    rw [show (a + b) / 2 + (b - a) / 2 = b by ring, show (a + b) / 2 - (b - a) / 2 = a by ring] at this
    rw [← this, hb]

/-- On [-1, 1] the Hann function is 1 at 0 and 0 at the ends. -/
example : (hann (-1) 1).at 0 = 1 ∧ (hann (-1) 1).at 1 = 0 := by
  have h := C90_hann (-1) 1 (by norm_num)
  exact ⟨by simpa using h.middle, h.right⟩

end Principia.Numerics.Apodization
