import Verif.Numerics.DoublePrecisionModel
import Mathlib.Tactic.Linarith
import Mathlib.Tactic.Ring
import Mathlib.Tactic.NormNum
import Mathlib.Tactic.FieldSimp
import Mathlib.Tactic.Positivity
import Mathlib.Tactic.ByContra
import Mathlib.Tactic.Push

/-!
The arithmetic of the doubles: grids, rounding to nearest, and the cases where a sum or a difference is exact.
-/

set_option linter.unusedVariables false
set_option linter.unusedSimpArgs false

namespace Principia.Numerics.DoublePrecisions

/-- The multiples of `2 ^ e`. -/
def Grid (e : ℤ) (x : ℝ) : Prop := ∃ k : ℤ, x = k * (2 : ℝ) ^ e

theorem two_pos (e : ℤ) : (0 : ℝ) < (2 : ℝ) ^ e := zpow_pos (by norm_num) e

theorem two_add (n e : ℤ) : (2 : ℝ) ^ (n + e) = (2 : ℝ) ^ n * (2 : ℝ) ^ e := zpow_add₀ (by norm_num) n e

theorem two_le {e f : ℤ} (h : e ≤ f) : (2 : ℝ) ^ e ≤ (2 : ℝ) ^ f := zpow_le_zpow_right₀ (by norm_num) h

theorem two_lt {e f : ℤ} (h : (2 : ℝ) ^ e < (2 : ℝ) ^ f) : e < f := by
  by_contra h'
  exact absurd (two_le (not_lt.mp h')) (not_le.mpr h)

theorem Grid.zero (e : ℤ) : Grid e 0 := ⟨0, by simp⟩

theorem Grid.neg {e : ℤ} {x : ℝ} (h : Grid e x) : Grid e (-x) := by
  obtain ⟨k, rfl⟩ := h
  exact ⟨-k, by push_cast; ring⟩

theorem Grid.add {e : ℤ} {x y : ℝ} (h : Grid e x) (h' : Grid e y) : Grid e (x + y) := by
  obtain ⟨k, rfl⟩ := h
  obtain ⟨l, rfl⟩ := h'
  exact ⟨k + l, by push_cast; ring⟩

theorem Grid.sub {e : ℤ} {x y : ℝ} (h : Grid e x) (h' : Grid e y) : Grid e (x - y) := by
  rw [sub_eq_add_neg]
  exact h.add h'.neg

theorem Grid.mul {e f : ℤ} {x y : ℝ} (h : Grid e x) (h' : Grid f y) : Grid (e + f) (x * y) := by
  obtain ⟨k, rfl⟩ := h
  obtain ⟨l, rfl⟩ := h'
  exact ⟨k * l, by rw [two_add]; push_cast; ring⟩

theorem Grid.mono {e f : ℤ} {x : ℝ} (h : Grid e x) (hf : f ≤ e) : Grid f x := by
  obtain ⟨k, rfl⟩ := h
  refine ⟨k * 2 ^ (e - f).toNat, ?_⟩
  have h1 : (2 : ℝ) ^ e = (2 : ℝ) ^ ((e - f).toNat : ℤ) * (2 : ℝ) ^ f := by
    rw [← two_add]
    congr 1
    omega
  rw [h1, zpow_natCast]
  push_cast
  ring

/-- A multiple of `2 ^ e` is a multiple of it by an integer which is not greater than any integer bound. -/
theorem Grid.abs_le_of_lt {e : ℤ} {x : ℝ} (h : Grid e x) {n : ℤ} (hx : |x| < (n + 1) * (2 : ℝ) ^ e) : |x| ≤ n * (2 : ℝ) ^ e := by
  obtain ⟨k, rfl⟩ := h
  have hp := two_pos e
  rw [abs_mul, abs_of_pos hp] at hx ⊢
  have h1 := lt_of_mul_lt_mul_right hx hp.le
  have h2 : |k| < n + 1 := by exact_mod_cast h1
  have h3 : |k| ≤ n := by omega
  have h4 : |(k : ℝ)| ≤ n := by exact_mod_cast h3
  exact mul_le_mul_of_nonneg_right h4 hp.le

theorem Grid.one_le {e : ℤ} {x : ℝ} (h : Grid e x) (h0 : x ≠ 0) : (2 : ℝ) ^ e ≤ |x| := by
  by_contra h1
  have h2 := h.abs_le_of_lt (n := 0) (by push_cast; linarith)
  push_cast at h2
  rw [zero_mul] at h2
  exact h0 (abs_eq_zero.mp (le_antisymm h2 (abs_nonneg x)))

theorem IsDouble.neg {x : ℝ} (h : IsDouble x) : IsDouble (-x) := by
  obtain ⟨m, e, hm, he, rfl⟩ := h
  exact ⟨-m, e, by rwa [abs_neg], he, by push_cast; ring⟩

theorem isDouble_zero : IsDouble 0 := ⟨0, 0, by norm_num, by norm_num, by simp⟩

theorem IsDouble.grid {x : ℝ} (h : IsDouble x) : Grid (-1074) x := by
  obtain ⟨m, e, hm, he, rfl⟩ := h
  exact Grid.mono ⟨m, rfl⟩ he

/-- A small multiple of a power of two is a double. -/
theorem double_of_grid {e : ℤ} {x : ℝ} (h : Grid e x) (he : -1074 ≤ e) (hx : |x| ≤ (2 : ℝ) ^ (53 + e)) : IsDouble x := by
  obtain ⟨k, rfl⟩ := h
  have hp := two_pos e
  rw [abs_mul, abs_of_pos hp, two_add] at hx
  have h1 := le_of_mul_le_mul_right hx hp
  have h2 : |k| ≤ 2 ^ 53 := by
    have h3 : |(k : ℝ)| ≤ ((2 ^ 53 : ℤ) : ℝ) := by
      refine h1.trans (le_of_eq ?_)
      norm_num
    exact_mod_cast h3
  rcases lt_or_eq_of_le h2 with h3 | h3
  · exact ⟨k, e, h3, he, rfl⟩
  · rcases (abs_eq (by norm_num)).mp h3 with h4 | h4
    · refine ⟨2 ^ 52, 1 + e, by norm_num, by omega, ?_⟩
      rw [h4, two_add]
      norm_num
      ring
    · refine ⟨-2 ^ 52, 1 + e, by norm_num, by omega, ?_⟩
      rw [h4, two_add]
      norm_num
      ring

theorem isDouble_two {e : ℤ} (h : -1074 ≤ e) : IsDouble ((2 : ℝ) ^ e) := ⟨1, e, by norm_num, h, by simp⟩

/-- A large double is a multiple of a power of two. -/
theorem grid_of_large {s : ℝ} {j : ℤ} (h : IsDouble s) (hs : (2 : ℝ) ^ (52 + j) ≤ |s|) : Grid j s := by
  obtain ⟨m, e, hm, he, rfl⟩ := h
  refine Grid.mono ⟨m, rfl⟩ ?_
  have hp := two_pos e
  rw [abs_mul, abs_of_pos hp] at hs
  have h1 : |(m : ℝ)| < (2 : ℝ) ^ (53 : ℤ) := by
    have h2 : |(m : ℝ)| < ((2 ^ 53 : ℤ) : ℝ) := by exact_mod_cast hm
    refine h2.trans_le (le_of_eq ?_)
    norm_num
  have h2 : (2 : ℝ) ^ (52 + j) < (2 : ℝ) ^ (53 + e) := by
    rw [two_add 53 e]
    exact hs.trans_lt (mul_lt_mul_of_pos_right h1 hp)
  have := two_lt h2
  omega

/-- The normal form of a double. -/
theorem double_normal {a : ℝ} (h : IsDouble a) :
    ∃ e : ℤ, -1074 ≤ e ∧ Grid e a ∧ |a| < (2 : ℝ) ^ (53 + e) ∧ (e = -1074 ∨ (2 : ℝ) ^ (52 + e) ≤ |a|) := by
  have key : ∀ n : ℕ, ∀ m : ℤ, |m| < 2 ^ 53 → ∃ e : ℤ, -1074 ≤ e ∧ Grid e (m * (2 : ℝ) ^ (-1074 + (n : ℤ))) ∧
      |(m * (2 : ℝ) ^ (-1074 + (n : ℤ)))| < (2 : ℝ) ^ (53 + e) ∧ (e = -1074 ∨ (2 : ℝ) ^ (52 + e) ≤ |(m * (2 : ℝ) ^ (-1074 + (n : ℤ)))|) := by
    intro n
    induction n with
    | zero =>
      intro m hm
      refine ⟨-1074, le_refl _, ⟨m, by simp⟩, ?_, Or.inl rfl⟩
      rw [abs_mul, abs_of_pos (two_pos _), two_add 53]
      have h2 : |(m : ℝ)| < ((2 ^ 53 : ℤ) : ℝ) := by exact_mod_cast hm
      have h3 : ((2 ^ 53 : ℤ) : ℝ) = (2 : ℝ) ^ (53 : ℤ) := by norm_num
      rw [h3] at h2
      simpa using mul_lt_mul_of_pos_right h2 (two_pos (-1074))
    | succ n ih =>
      intro m hm
      by_cases hl : 2 ^ 52 ≤ |m|
      · refine ⟨-1074 + ((n + 1 : ℕ) : ℤ), by omega, ⟨m, rfl⟩, ?_, Or.inr ?_⟩
        · rw [abs_mul, abs_of_pos (two_pos _), two_add 53]
          have h2 : |(m : ℝ)| < ((2 ^ 53 : ℤ) : ℝ) := by exact_mod_cast hm
          have h3 : ((2 ^ 53 : ℤ) : ℝ) = (2 : ℝ) ^ (53 : ℤ) := by norm_num
          rw [h3] at h2
          exact mul_lt_mul_of_pos_right h2 (two_pos _)
        · rw [abs_mul, abs_of_pos (two_pos _), two_add 52]
          have h2 : ((2 ^ 52 : ℤ) : ℝ) ≤ |(m : ℝ)| := by exact_mod_cast hl
          have h3 : ((2 ^ 52 : ℤ) : ℝ) = (2 : ℝ) ^ (52 : ℤ) := by norm_num
          rw [h3] at h2
          exact mul_le_mul_of_nonneg_right h2 (two_pos _).le
      · have h1 : |2 * m| < 2 ^ 53 := by
          rw [abs_mul, abs_of_pos (by norm_num : (0 : ℤ) < 2)]
          omega
        have h2 := ih (2 * m) h1
        have h3 : ((2 * m : ℤ) : ℝ) * (2 : ℝ) ^ (-1074 + (n : ℤ)) = m * (2 : ℝ) ^ (-1074 + ((n + 1 : ℕ) : ℤ)) := by
          have : -1074 + ((n + 1 : ℕ) : ℤ) = 1 + (-1074 + (n : ℤ)) := by push_cast; ring
          rw [this, two_add 1]
          push_cast
          rw [zpow_one]
          ring
        rw [h3] at h2
        exact h2
  obtain ⟨m, e, hm, he, rfl⟩ := h
  have h1 := key (e + 1074).toNat m hm
  have h2 : -1074 + (((e + 1074).toNat : ℕ) : ℤ) = e := by omega
  rw [h2] at h1
  exact h1

/-! ### Rounding to nearest -/

theorem near_exact {x y : ℝ} (hx : IsDouble x) (h : Nearest x y) : y = x := by
  have h1 := h.2 x hx
  rw [sub_self, abs_zero] at h1
  have := abs_eq_zero.mp (le_antisymm h1 (abs_nonneg _))
  linarith

theorem near_self {x : ℝ} (hx : IsDouble x) : Nearest x x := ⟨hx, fun f _ => by rw [sub_self, abs_zero]; exact abs_nonneg _⟩

theorem near_neg {x y : ℝ} (h : Nearest x y) : Nearest (-x) (-y) := by
  refine ⟨h.1.neg, fun f hf => ?_⟩
  have h1 := h.2 (-f) hf.neg
  have e1 : -x - -y = -(x - y) := by ring
  have e2 : -x - f = -(x - -f) := by ring
  rw [e1, e2, abs_neg, abs_neg]
  exact h1

theorem near_le {x y f : ℝ} (h : Nearest x y) (hf : IsDouble f) (hx : x ≤ f) : y ≤ f := by
  by_contra h1
  push Not at h1
  have h2 := h.2 f hf
  rw [abs_of_nonpos (by linarith), abs_of_nonpos (by linarith)] at h2
  linarith

theorem near_ge {x y f : ℝ} (h : Nearest x y) (hf : IsDouble f) (hx : f ≤ x) : f ≤ y := by
  have := near_le (near_neg h) hf.neg (by linarith)
  linarith

theorem near_mono {x y x' y' : ℝ} (h : Nearest x y) (h' : Nearest x' y') (hx : x < x') : y ≤ y' := by
  by_contra h1
  push Not at h1
  have h2 := h.2 y' h'.1
  have h3 := h'.2 y h.1
  rw [← sq_le_sq] at h2 h3
  nlinarith

theorem near_abs_le {x y f : ℝ} (h : Nearest x y) (hf : IsDouble f) (hx : |x| ≤ f) : |y| ≤ f := by
  rw [abs_le] at hx ⊢
  exact ⟨near_ge h hf.neg hx.1, near_le h hf hx.2⟩

theorem near_abs_ge {x y f : ℝ} (h : Nearest x y) (hf : IsDouble f) (hx : f ≤ |x|) : f ≤ |y| := by
  rcases le_total 0 x with h0 | h0
  · rw [abs_of_nonneg h0] at hx
    exact (near_ge h hf hx).trans (le_abs_self y)
  · rw [abs_of_nonpos h0] at hx
    have := near_le h hf.neg (by linarith)
    have := neg_abs_le y
    linarith

/-- The rounding of a multiple of a power of two is a multiple of it. -/
theorem near_grid {e : ℤ} {x s : ℝ} (hx : Grid e x) (h : Nearest x s) : Grid e s := by
  obtain ⟨g, hg, h1, h2, -⟩ := double_normal h.1
  by_cases hge : e ≤ g
  · exact h1.mono hge
  · push Not at hge
    have h3 : |x| ≤ (2 : ℝ) ^ (53 + e) := by
      by_contra h4
      push Not at h4
      have h5 := near_abs_ge h (isDouble_two (e := 53 + g) (by omega)) ((two_le (by omega)).trans h4.le)
      linarith
    rw [near_exact (double_of_grid hx (by omega) h3) h]
    exact hx

/-- The rounding error is at most half a unit in the last place. -/
theorem near_half {x y : ℝ} {i : ℤ} (h : Nearest x y) (hi : -1074 ≤ i) (hx : |x| ≤ (2 : ℝ) ^ (53 + i)) : |x - y| ≤ (2 : ℝ) ^ i / 2 := by
  have hp := two_pos i
  have hz : x / 2 ^ i * 2 ^ i = x := by field_simp
  have h1 : |x / 2 ^ i| ≤ (2 : ℝ) ^ (53 : ℤ) := by
    rw [abs_div, abs_of_pos hp, div_le_iff₀ hp, ← two_add]
    exact hx
  have h2 : |((round (x / (2 : ℝ) ^ i) : ℤ) : ℝ)| ≤ (2 : ℝ) ^ (53 : ℤ) := by
    have h3 := abs_sub_round (x / (2 : ℝ) ^ i)
    have h4 : |round (x / (2 : ℝ) ^ i)| < 2 ^ 53 + 1 := by
      have h5 : |((round (x / (2 : ℝ) ^ i) : ℤ) : ℝ)| < ((2 ^ 53 + 1 : ℤ) : ℝ) := by
        rw [abs_le] at h1 h3
        rw [abs_lt]
        norm_num at h1 h3 ⊢
        constructor <;> linarith [h1.1, h1.2, h3.1, h3.2]
      exact_mod_cast h5
    have h6 : |round (x / (2 : ℝ) ^ i)| ≤ 2 ^ 53 := by omega
    have h7 : |((round (x / (2 : ℝ) ^ i) : ℤ) : ℝ)| ≤ ((2 ^ 53 : ℤ) : ℝ) := by exact_mod_cast h6
    refine h7.trans (le_of_eq ?_)
    norm_num
  have h3 : IsDouble ((round (x / (2 : ℝ) ^ i) : ℤ) * (2 : ℝ) ^ i) := by
    refine double_of_grid ⟨_, rfl⟩ hi ?_
    rw [abs_mul, abs_of_pos hp, two_add]
    exact mul_le_mul_of_nonneg_right h2 hp.le
  refine (h.2 _ h3).trans ?_
  have h4 : x - (round (x / (2 : ℝ) ^ i) : ℤ) * (2 : ℝ) ^ i = (x / 2 ^ i - (round (x / (2 : ℝ) ^ i) : ℤ)) * 2 ^ i := by
    rw [sub_mul, hz]
  rw [h4, abs_mul, abs_of_pos hp]
  have h5 := mul_le_mul_of_nonneg_right (abs_sub_round (x / (2 : ℝ) ^ i)) hp.le
  linarith

theorem log_bounds {x : ℝ} (h : x ≠ 0) : (2 : ℝ) ^ (Int.log 2 |x|) ≤ |x| ∧ |x| < (2 : ℝ) ^ (Int.log 2 |x| + 1) := by
  constructor
  · exact_mod_cast Int.zpow_log_le_self (b := 2) (by norm_num) (abs_pos.mpr h)
  · exact_mod_cast Int.lt_zpow_succ_log_self (b := 2) (by norm_num) |x|

/-- The rounding error relative to the argument and to the result. -/
theorem near_rel {x y : ℝ} (hx : Grid (-1074) x) (h : Nearest x y) : |x - y| ≤ |x| / 2 ^ 53 ∧ |x - y| ≤ |y| / 2 ^ 53 := by
  by_cases h0 : x = 0
  · subst h0
    have := near_exact isDouble_zero h
    subst this
    norm_num
  obtain ⟨h1, h2⟩ := log_bounds h0
  by_cases hL : -1074 ≤ Int.log 2 |x| - 52
  · have h3 := near_half (i := Int.log 2 |x| - 52) h hL (h2.le.trans (two_le (by omega)))
    have h4 : (2 : ℝ) ^ (Int.log 2 |x| - 52) / 2 = (2 : ℝ) ^ (Int.log 2 |x|) / 2 ^ 53 := by
      rw [show Int.log 2 |x| - 52 = -52 + Int.log 2 |x| by ring, two_add, zpow_neg]
      norm_num
      ring
    rw [h4] at h3
    have h5 := near_abs_ge h (isDouble_two (e := Int.log 2 |x|) (by omega)) h1
    constructor
    · refine h3.trans ?_
      gcongr
    · refine h3.trans ?_
      gcongr
  · have h3 := near_exact (double_of_grid hx (le_refl _) (h2.le.trans (two_le (by omega)))) h
    rw [h3, sub_self, abs_zero]
    constructor <;> positivity

/-- The rounding error in all cases, including underflow. -/
theorem near_abs {x y : ℝ} (h : Nearest x y) : |x - y| ≤ |x| / 2 ^ 53 + (2 : ℝ) ^ (-1075 : ℤ) := by
  by_cases h0 : x = 0
  · subst h0
    have := near_exact isDouble_zero h
    subst this
    have := two_pos (-1075)
    norm_num at this ⊢
  obtain ⟨h1, h2⟩ := log_bounds h0
  by_cases hL : -1074 ≤ Int.log 2 |x| - 52
  · have h3 := near_half (i := Int.log 2 |x| - 52) h hL (h2.le.trans (two_le (by omega)))
    have h4 : (2 : ℝ) ^ (Int.log 2 |x| - 52) / 2 = (2 : ℝ) ^ (Int.log 2 |x|) / 2 ^ 53 := by
      rw [show Int.log 2 |x| - 52 = -52 + Int.log 2 |x| by ring, two_add, zpow_neg]
      norm_num
      ring
    rw [h4] at h3
    have h5 : (2 : ℝ) ^ (Int.log 2 |x|) / 2 ^ 53 ≤ |x| / 2 ^ 53 := by gcongr
    have := two_pos (-1075)
    linarith
  · have h3 := near_half (i := -1074) h (le_refl _) (h2.le.trans (two_le (by omega)))
    have h4 : (2 : ℝ) ^ (-1074 : ℤ) / 2 = (2 : ℝ) ^ (-1075 : ℤ) := by
      rw [show (-1075 : ℤ) = -1 + -1074 by norm_num, two_add]
      norm_num
      ring
    rw [h4] at h3
    have : 0 ≤ |x| / 2 ^ 53 := by positivity
    linarith

/-- There is a rounding to nearest. -/
theorem exists_nearest (x : ℝ) : ∃ y, Nearest x y := by
  by_cases h0 : x = 0
  · subst h0
    exact ⟨0, near_self isDouble_zero⟩
  obtain ⟨h1, h2⟩ := log_bounds h0
  obtain ⟨i, hi⟩ : ∃ i, i = max (Int.log 2 |x| - 52) (-1074) := ⟨_, rfl⟩
  have hp := two_pos i
  have hz : x / 2 ^ i * 2 ^ i = x := by field_simp
  have hnear : ∀ f, Grid i f → |x - (round (x / (2 : ℝ) ^ i) : ℤ) * (2 : ℝ) ^ i| ≤ |x - f| := by
    rintro f ⟨k, rfl⟩
    have e1 : x - (round (x / (2 : ℝ) ^ i) : ℤ) * (2 : ℝ) ^ i = (x / 2 ^ i - (round (x / (2 : ℝ) ^ i) : ℤ)) * 2 ^ i := by
      rw [sub_mul, hz]
    have e2 : x - (k : ℝ) * (2 : ℝ) ^ i = (x / 2 ^ i - (k : ℝ)) * 2 ^ i := by
      rw [sub_mul, hz]
    rw [e1, e2, abs_mul, abs_mul]
    exact mul_le_mul_of_nonneg_right (round_le _ k) (abs_nonneg _)
  refine ⟨(round (x / (2 : ℝ) ^ i) : ℤ) * (2 : ℝ) ^ i, ?_, ?_⟩
  · refine double_of_grid ⟨_, rfl⟩ (by omega) ?_
    have h3 : |x / 2 ^ i| ≤ (2 : ℝ) ^ (53 : ℤ) := by
      rw [abs_div, abs_of_pos hp, div_le_iff₀ hp, ← two_add]
      exact h2.le.trans (two_le (by omega))
    have h4 := abs_sub_round (x / (2 : ℝ) ^ i)
    have h5 : |((round (x / (2 : ℝ) ^ i) : ℤ) : ℝ)| < ((2 ^ 53 + 1 : ℤ) : ℝ) := by
      rw [abs_le] at h3 h4
      rw [abs_lt]
      norm_num at h3 h4 ⊢
      constructor <;> linarith [h3.1, h3.2, h4.1, h4.2]
    have h6 : |round (x / (2 : ℝ) ^ i)| < 2 ^ 53 + 1 := by exact_mod_cast h5
    have h7 : |round (x / (2 : ℝ) ^ i)| ≤ 2 ^ 53 := by omega
    have h8 : |((round (x / (2 : ℝ) ^ i) : ℤ) : ℝ)| ≤ ((2 ^ 53 : ℤ) : ℝ) := by exact_mod_cast h7
    have h9 : ((2 ^ 53 : ℤ) : ℝ) = (2 : ℝ) ^ (53 : ℤ) := by norm_num
    rw [h9] at h8
    rw [abs_mul, abs_of_pos hp, two_add]
    exact mul_le_mul_of_nonneg_right h8 hp.le
  · intro f hf
    by_cases hg : Grid i f
    · exact hnear f hg
    · have h3 : |f| < (2 : ℝ) ^ (52 + i) := by
        by_contra h4
        exact hg (grid_of_large hf (not_lt.mp h4))
      have h4 : i ≠ -1074 := fun h => hg (h ▸ hf.grid)
      have h5 : 52 + i = Int.log 2 |x| := by omega
      rw [h5] at h3
      have hG : Grid i ((2 : ℝ) ^ (Int.log 2 |x|)) := ⟨2 ^ 52, by
        rw [← h5, two_add]
        norm_num⟩
      rcases le_total 0 x with hx | hx
      · refine (hnear _ hG).trans ?_
        rw [abs_of_nonneg hx] at h1 h3 hG
        rw [abs_of_nonneg hx]
        have := le_abs_self f
        rw [abs_of_nonneg (by linarith), abs_of_nonneg (by linarith)]
        linarith
      · refine (hnear _ hG.neg).trans ?_
        rw [abs_of_nonpos hx] at h1 h3 hG
        rw [abs_of_nonpos hx]
        have := neg_abs_le f
        rw [abs_of_nonpos (by linarith), abs_of_nonpos (by linarith)]
        linarith

theorem exists_rounding : Nonempty Rounding := ⟨⟨fun x => (exists_nearest x).choose, fun x => (exists_nearest x).choose_spec⟩⟩

/-! ### Exact operations -/

/-- A combination of two doubles which is smaller than both is a double. -/
theorem small_double {a b x : ℝ} (ha : IsDouble a) (hb : IsDouble b) (hx : ∀ e, Grid e a → Grid e b → Grid e x) (h1 : |x| ≤ |a|) (h2 : |x| ≤ |b|) : IsDouble x := by
  obtain ⟨e, he, g1, l1, -⟩ := double_normal ha
  obtain ⟨f, hf, g2, l2, -⟩ := double_normal hb
  rcases le_total e f with h | h
  · exact double_of_grid (hx e g1 (g2.mono h)) he (h1.trans l1.le)
  · exact double_of_grid (hx f (g1.mono h) g2) hf (h2.trans l2.le)

/-- Sterbenz's lemma. -/
theorem sterbenz {a b : ℝ} (ha : IsDouble a) (hb : IsDouble b) (h1 : |a - b| ≤ |a|) (h2 : |a - b| ≤ |b|) : IsDouble (a - b) := small_double ha hb (fun _ g g' => g.sub g') h1 h2

theorem sterbenz_add {a b : ℝ} (ha : IsDouble a) (hb : IsDouble b) (h1 : |a + b| ≤ |a|) (h2 : |a + b| ≤ |b|) : IsDouble (a + b) := small_double ha hb (fun _ g g' => g.add g') h1 h2

/-- The error of an addition is a double. -/
theorem add_error {a b s : ℝ} (ha : IsDouble a) (hb : IsDouble b) (h : Nearest (a + b) s) : IsDouble (a + b - s) := by
  refine small_double ha hb (fun e g g' => (g.add g').sub (near_grid (g.add g') h)) ?_ ?_
  · have := h.2 b hb
    rwa [add_sub_cancel_right] at this
  · have := h.2 a ha
    rwa [add_sub_cancel_left] at this

/-- The first subtraction of `QuickTwoSum` is exact. -/
theorem quick {a b s : ℝ} (ha : IsDouble a) (hb : IsDouble b) (h : Nearest (a + b) s) (hab : |b| ≤ |a|) : IsDouble (s - a) := by
  have pos : ∀ {a b s : ℝ}, IsDouble a → IsDouble b → Nearest (a + b) s → |b| ≤ |a| → 0 < a → IsDouble (s - a) := by
    intro a b s ha hb h hab h0
    rw [abs_of_pos h0] at hab
    rw [abs_le] at hab
    obtain ⟨e, he, g, l, hn⟩ := double_normal ha
    rw [abs_of_pos h0] at l hn
    have d2 : IsDouble (2 * a) := by
      obtain ⟨m, f, hm, hf, rfl⟩ := ha
      exact ⟨m, 1 + f, hm, by omega, by rw [two_add, zpow_one]; ring⟩
    have s0 : 0 ≤ s := near_ge h isDouble_zero (by linarith [hab.1])
    have s2 : s ≤ 2 * a := near_le h d2 (by linarith [hab.2])
    by_cases gs : Grid e s
    · refine double_of_grid (gs.sub g) he ?_
      rw [abs_le]
      constructor <;> linarith
    · have hs : |s| < (2 : ℝ) ^ (52 + e) := by
        by_contra h4
        exact gs (grid_of_large h.1 (not_lt.mp h4))
      rw [abs_of_nonneg s0] at hs
      have hne : e ≠ -1074 := fun h' => gs (h' ▸ h.1.grid)
      by_cases hb2 : b ≤ -a / 2
      · have hd : IsDouble (a + b) := by
          apply sterbenz_add ha hb
          · rw [abs_of_nonneg (by linarith [hab.1]), abs_of_pos h0]
            linarith
          · rw [abs_of_nonneg (by linarith [hab.1]), abs_of_nonpos (by linarith)]
            linarith
        rw [near_exact hd h, add_sub_cancel_left]
        exact hb
      · push Not at hb2
        have dh : IsDouble (a / 2) := by
          refine double_of_grid (e := e - 1) ?_ (by omega) ?_
          · obtain ⟨k, hk⟩ := g
            refine ⟨k, ?_⟩
            rw [hk, show e - 1 = -1 + e by ring, two_add]
            norm_num
            ring
          · rw [abs_of_pos (by linarith), show 53 + (e - 1) = -1 + (53 + e) by ring, two_add (-1)]
            norm_num
            linarith
        have sh := near_ge h dh (by linarith)
        have hn' := hn.resolve_left hne
        have gs' : Grid (e - 1) s := by
          refine grid_of_large h.1 ?_
          rw [abs_of_nonneg s0, show 52 + (e - 1) = -1 + (52 + e) by ring, two_add (-1)]
          norm_num
          linarith
        refine double_of_grid (gs'.sub (g.mono (by omega))) (by omega) ?_
        rw [abs_of_nonpos (by linarith), show 53 + (e - 1) = -1 + (53 + e) by ring, two_add (-1)]
        norm_num
        linarith
  rcases lt_trichotomy a 0 with h0 | h0 | h0
  · have := pos ha.neg hb.neg (by have := near_neg h; rwa [neg_add] at this) (by rwa [abs_neg, abs_neg]) (by linarith)
    have := this.neg
    have e1 : -(-s - -a) = s - a := by ring
    rwa [e1] at this
  · subst h0
    rw [sub_zero]
    exact h.1
  · exact pos ha hb h hab h0

/-- The condition of Daumas, Rideau and Théry: `a` is a multiple of the unit in the last place of `b`. -/
def Ordered (a b : ℝ) : Prop := ∃ f : ℤ, -1074 ≤ f ∧ Grid f a ∧ Grid f b ∧ |b| < (2 : ℝ) ^ (53 + f)

theorem quick_ordered {a b s : ℝ} (ha : IsDouble a) (hb : IsDouble b) (h : Nearest (a + b) s) (hab : Ordered a b) : IsDouble (s - a) := by
  obtain ⟨f, hf, g, g', l⟩ := hab
  by_cases hle : |b| ≤ |a|
  · exact quick ha hb h hle
  push Not at hle
  have h1 : |a + b| ≤ (2 : ℝ) ^ (53 + (1 + f)) := by
    have := abs_add_le a b
    rw [show 53 + (1 + f) = 1 + (53 + f) by ring, two_add 1, zpow_one]
    linarith
  have h2 := near_half h (by omega) h1
  rw [two_add, zpow_one] at h2
  have h3 : |b| ≤ ((2 ^ 53 - 1 : ℤ) : ℝ) * (2 : ℝ) ^ f := by
    refine g'.abs_le_of_lt ?_
    rw [two_add] at l
    refine l.trans_le (le_of_eq ?_)
    norm_num
  refine double_of_grid ((near_grid (g.add g') h).sub g) hf ?_
  have e1 : s - a = b - (a + b - s) := by ring
  rw [e1]
  refine (abs_sub _ _).trans ?_
  rw [two_add]
  push_cast at h3
  norm_num at h2 h3 ⊢
  linarith

theorem ordered_of_le {a b : ℝ} (ha : IsDouble a) (hb : IsDouble b) (h : |b| ≤ |a|) : Ordered a b := by
  obtain ⟨e, he, g, l, hn⟩ := double_normal ha
  obtain ⟨f, hf, g', l', hn'⟩ := double_normal hb
  refine ⟨f, hf, ?_, g', l'⟩
  rcases hn' with h1 | h1
  · rw [h1]
    exact ha.grid
  · exact grid_of_large ha (h1.trans h)

theorem ordered_zero {b : ℝ} (hb : IsDouble b) : Ordered 0 b := by
  obtain ⟨f, hf, g', l', hn'⟩ := double_normal hb
  exact ⟨f, hf, Grid.zero f, g', l'⟩

/-- The exactness of the sequence of operations of `TwoSum`. -/
theorem two_sum_core {a b s v : ℝ} (ha : IsDouble a) (hb : IsDouble b) (h : Nearest (a + b) s) (hv : Nearest (s - a) v) :
    IsDouble (s - v) ∧ IsDouble (a - (s - v)) ∧ IsDouble (b - v) := by
  by_cases hab : |b| ≤ |a|
  · have h1 := near_exact (quick ha hb h hab) hv
    subst h1
    have e1 : s - (s - a) = a := by ring
    have e2 : b - (s - a) = a + b - s := by ring
    rw [e1, e2, sub_self]
    exact ⟨ha, isDouble_zero, add_error ha hb h⟩
  push Not at hab
  have g1 := (ha.grid.add hb.grid)
  have r1 := (near_rel g1 h).1
  have r2 := (near_rel (h.1.grid.sub ha.grid) hv).1
  have hbv : IsDouble (b - v) := by
    have t1 := abs_add_le a b
    have b1 : |a + b - s| ≤ |b| / 8 := by
      refine r1.trans ?_
      rw [div_le_div_iff₀ (by norm_num) (by norm_num)]
      have := abs_nonneg b
      nlinarith
    have t2 : |s - a| ≤ 2 * |b| := by
      have e1 : s - a = b - (a + b - s) := by ring
      rw [e1]
      have := abs_sub b (a + b - s)
      have := abs_nonneg b
      linarith
    have b2 : |s - a - v| ≤ |b| / 8 := by
      refine r2.trans ?_
      rw [div_le_div_iff₀ (by norm_num) (by norm_num)]
      have := abs_nonneg b
      nlinarith
    have b3 : |b - v| ≤ |b| / 4 := by
      have e1 : b - v = (a + b - s) + (s - a - v) := by ring
      rw [e1]
      have := abs_add_le (a + b - s) (s - a - v)
      linarith
    have := abs_nonneg b
    have b4 : |b| ≤ |b - v| + |v| := by
      have := abs_add_le (b - v) v
      rwa [sub_add_cancel] at this
    exact sterbenz hb hv.1 (by linarith) (by linarith)
  by_cases hsa : |a| ≤ |s|
  · have hv' : Nearest (s + -a) v := by rwa [← sub_eq_add_neg]
    have q := quick h.1 ha.neg hv' (by rwa [abs_neg])
    have q2 := add_error h.1 ha.neg hv'
    refine ⟨?_, ?_, hbv⟩
    · have := q.neg
      rwa [neg_sub] at this
    · have := q2.neg
      have e1 : -(s + -a - v) = a - (s - v) := by ring
      rwa [e1] at this
  · push Not at hsa
    have h1 : |a + b| ≤ |a| := by
      by_contra h2
      push Not at h2
      have ha' : IsDouble |a| := by
        rcases abs_choice a with h3 | h3 <;> rw [h3]
        · exact ha
        · exact ha.neg
      have := near_abs_ge h ha' h2.le
      linarith
    have h2 := near_exact (sterbenz_add ha hb h1 (by linarith)) h
    subst h2
    rw [add_sub_cancel_left] at hv
    have h3 := near_exact hb hv
    subst h3
    rw [add_sub_cancel_right, sub_self, sub_self]
    exact ⟨ha, isDouble_zero, isDouble_zero⟩

/-- A sum of doubles is zero or not much smaller than either term. -/
theorem cancel {x y : ℝ} (hx : IsDouble x) (hy : IsDouble y) (h : x + y ≠ 0) : |y| / 2 ^ 53 ≤ |x + y| := by
  obtain ⟨e, he, g, l, hn⟩ := double_normal hy
  have e1 : (2 : ℝ) ^ (53 + e) = 2 ^ 53 * 2 ^ e := by rw [two_add]; norm_num
  have hp := two_pos e
  by_cases gx : Grid e x
  · refine le_trans ?_ ((gx.add g).one_le h)
    rw [div_le_iff₀ (by norm_num)]
    rw [e1] at l
    linarith
  · have hne : e ≠ -1074 := fun h' => gx (h' ▸ hx.grid)
    have hn' := hn.resolve_left hne
    have h52 : (2 : ℝ) ^ (52 + e) = 2 ^ 52 * 2 ^ e := by rw [two_add]; norm_num
    have hm1 : (2 : ℝ) ^ (e - 1) = 2 ^ e / 2 := by
      rw [show e - 1 = -1 + e by ring, two_add]
      norm_num
      ring
    have hx1 : |x| < (2 : ℝ) ^ (52 + e) := by
      by_contra h4
      exact gx (grid_of_large hx (not_lt.mp h4))
    have hx2 : |x| ≤ 2 ^ 52 * 2 ^ e - 2 ^ e / 2 := by
      by_cases h5 : (2 : ℝ) ^ (52 + (e - 1)) ≤ |x|
      · have g2 := grid_of_large hx h5
        have := g2.abs_le_of_lt (n := 2 ^ 53 - 1) (by
          rw [hm1]
          rw [h52] at hx1
          push_cast
          linarith)
        rw [hm1] at this
        push_cast at this
        linarith
      · push Not at h5
        rw [two_add, hm1] at h5
        norm_num at h5 ⊢
        linarith
    have t : |y| ≤ |x + y| + |x| := by
      have := abs_sub (x + y) x
      rwa [add_sub_cancel_left] at this
    rw [h52] at hn'
    rw [div_le_iff₀ (by norm_num)]
    norm_num at hn' hx2 ⊢
    linarith

end Principia.Numerics.DoublePrecisions
