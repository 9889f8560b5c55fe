import Verif.Numerics.DoublePrecisionProps
import Verif.Numerics.NextSpec

/-!
C80: `LogB`, `ScaleB`, `NextUp`, `NextDown`.
-/

set_option linter.unusedVariables false
set_option linter.unusedSimpArgs false

namespace Principia.Numerics.Next

open DoublePrecisions

variable (R : Rounding)

theorem double_up {x : ℝ} (h : IsDouble x) {k : ℤ} (hk : 0 ≤ k) : IsDouble (x * 2 ^ k) := by
  obtain ⟨m, e, hm, he, rfl⟩ := h
  exact ⟨m, e + k, hm, by omega, by rw [two_add]; ring⟩

theorem double_times_two {x : ℝ} (h : IsDouble x) : IsDouble (x * 2) := by
  have := double_up h (k := 1) (by norm_num)
  rwa [zpow_one] at this

theorem double_half {x : ℝ} (h : IsDouble x) (hx : (2 : ℝ) ^ (-1021 : ℤ) ≤ |x|) : IsDouble (x / 2) := by
  have := DoublePrecision.double_scale (k := -1) h (Or.inr (by
    rw [show (-1021 : ℤ) = 1 + -1022 by norm_num, two_add, zpow_one] at hx
    rw [zpow_neg (2 : ℝ) 1, zpow_one]
    generalize (2 : ℝ) ^ (-1022 : ℤ) = t at *
    linarith))
  rwa [zpow_neg, zpow_one, ← div_eq_mul_inv] at this

theorem two_succ (k : ℤ) : (2 : ℝ) ^ (k + 1) = 2 ^ k * 2 := by rw [two_add, zpow_one]

theorem two_pred (k : ℤ) : (2 : ℝ) ^ (k - 1) = 2 ^ k / 2 := by rw [sub_eq_add_neg, two_add, zpow_neg, zpow_one, div_eq_mul_inv]

/-! ### LogB -/

theorem logUp_spec (n : ℕ) : ∀ (s : ℝ) (r : ℤ), IsDouble s → (2 : ℝ) ^ (-(n : ℤ)) ≤ s →
    1 ≤ (logUp R n s r).1 ∧ (logUp R n s r).1 * 2 ^ (logUp R n s r).2 = s * 2 ^ r ∧ IsDouble (logUp R n s r).1 ∧ ((logUp R n s r).1 < 2 ∨ (logUp R n s r).1 = s) := by
  induction n with
  | zero =>
    intro s r hs h
    simp only [logUp]
    simp only [Nat.cast_zero, neg_zero, zpow_zero] at h
    exact ⟨h, trivial, hs, Or.inr trivial⟩
  | succ n ih =>
    intro s r hs h
    simp only [logUp]
    by_cases h1 : s < 1
    · rw [if_pos h1]
      have e : R.mul s 2 = s * 2 := round_exact R (double_times_two hs)
      rw [e]
      have h2 : (2 : ℝ) ^ (-(n : ℤ)) ≤ s * 2 := by
        rw [show -(n : ℤ) = -((n + 1 : ℕ) : ℤ) + 1 by push_cast; ring, two_succ]
        linarith
      obtain ⟨a, b, c, d⟩ := ih (s * 2) (r - 1) (double_times_two hs) h2
      refine ⟨a, ?_, c, Or.inl ?_⟩
      · rw [b, two_pred]; ring
      · rcases d with d | d <;> linarith
    · rw [if_neg h1]
      exact ⟨not_lt.1 h1, rfl, hs, Or.inr rfl⟩

theorem logDown_spec (n : ℕ) : ∀ (s : ℝ) (r : ℤ), IsDouble s → 1 ≤ s → s < (2 : ℝ) ^ ((n : ℤ) + 1) →
    1 ≤ (logDown R n s r).1 ∧ (logDown R n s r).1 < 2 ∧ (logDown R n s r).1 * 2 ^ (logDown R n s r).2 = s * 2 ^ r := by
  induction n with
  | zero =>
    intro s r hs h h'
    simp only [logDown]
    simp only [Nat.cast_zero, zero_add, zpow_one] at h'
    exact ⟨h, h', trivial⟩
  | succ n ih =>
    intro s r hs h h'
    simp only [logDown]
    by_cases h1 : 2 ≤ s
    · rw [if_pos h1]
      have hd : IsDouble (s / 2) := by
        refine double_half hs ?_
        rw [abs_of_pos (by linarith)]
        refine (two_le (f := 0) (by norm_num)).trans ?_
        rw [zpow_zero]
        exact h
      have e : R.div s 2 = s / 2 := round_exact R hd
      rw [e]
      have h2 : s / 2 < (2 : ℝ) ^ ((n : ℤ) + 1) := by
        have : (2 : ℝ) ^ (((n + 1 : ℕ) : ℤ) + 1) = 2 ^ ((n : ℤ) + 1) * 2 := by rw [← two_succ]; push_cast; rfl
        rw [this] at h'
        linarith
      obtain ⟨a, b, c⟩ := ih (s / 2) (r + 1) hd (by linarith) h2
      exact ⟨a, b, by rw [c, two_succ]; ring⟩
    · rw [if_neg h1]
      exact ⟨h, not_le.1 h1, rfl⟩

/-- The logarithm is determined by its bounds. -/
theorem log_unique {x : ℝ} {k l : ℤ} (h1 : (2 : ℝ) ^ k ≤ x) (h2 : x < 2 ^ (k + 1)) (h3 : (2 : ℝ) ^ l ≤ x) (h4 : x < 2 ^ (l + 1)) : k = l := by
  have a := two_lt (h1.trans_lt h4)
  have b := two_lt (h3.trans_lt h2)
  omega

/-- **C80**: `LogB` is the exponent of its argument, and its loops end. -/
theorem C80_log_b {fuel : ℕ} (hf : 1100 ≤ fuel) {x : ℝ} (hx : IsFinite x) (h0 : x ≠ 0) :
    (2 : ℝ) ^ (logB R fuel x) ≤ |x| ∧ |x| < (2 : ℝ) ^ (logB R fuel x + 1) := by
  have ha : (if 0 < x then x else R.sub 0 x) = |x| := by
    by_cases h : 0 < x
    · rw [if_pos h, abs_of_pos h]
    · rw [if_neg h, abs_of_nonpos (not_lt.1 h)]
      simp only [Rounding.sub, zero_sub]
      exact round_exact R hx.1.neg
  have hd : IsDouble |x| := by
    rcases abs_choice x with h | h <;> rw [h]
    · exact hx.1
    · exact hx.1.neg
  simp only [logB, ha]
  obtain ⟨a, b, c, d⟩ := logUp_spec R fuel |x| 0 hd ((two_le (by omega)).trans (hx.1.grid.one_le h0))
  have h5 : (logUp R fuel |x| 0).1 < (2 : ℝ) ^ ((fuel : ℤ) + 1) := by
    rcases d with d | d
    · refine d.trans_le ?_
      have := two_le (e := 1) (f := (fuel : ℤ) + 1) (by omega)
      rwa [zpow_one] at this
    · rw [d]
      refine hx.2.trans_le ?_
      exact two_le (by omega)
  obtain ⟨f, g, h⟩ := logDown_spec R fuel _ (logUp R fuel |x| 0).2 c a h5
  rw [b, zpow_zero, mul_one] at h
  have hp := two_pos (logDown R fuel (logUp R fuel |x| 0).1 (logUp R fuel |x| 0).2).2
  rw [two_succ]
  generalize (logDown R fuel (logUp R fuel |x| 0).1 (logUp R fuel |x| 0).2).1 = s at *
  generalize (2 : ℝ) ^ (logDown R fuel (logUp R fuel |x| 0).1 (logUp R fuel |x| 0).2).2 = t at *
  rw [← h]
  constructor
  · nlinarith
  · nlinarith

/-! ### ScaleB -/

theorem fl_exact {x : ℝ} (h : IsFinite x) : fl R x = Fl.finite x := by
  simp only [fl, round_exact R h.1]
  rw [if_pos h.2]

theorem fl_overflow {x : ℝ} (h : IsDouble x) (h' : (2 : ℝ) ^ (1024 : ℤ) ≤ |x|) : fl R x = Fl.infinity (decide (x < 0)) := by
  simp only [fl, round_exact R h]
  rw [if_neg (not_lt.2 h')]

theorem timesTwo_fl {x : ℝ} (h : IsDouble x) : (fl R x).timesTwo R = fl R (x * 2) := by
  by_cases h' : |x| < (2 : ℝ) ^ (1024 : ℤ)
  · rw [fl_exact R ⟨h, h'⟩]
    rfl
  · push Not at h'
    rw [fl_overflow R h h', fl_overflow R (double_times_two h)]
    · simp only [Fl.timesTwo, Fl.infinity.injEq, decide_eq_decide]
      constructor <;> intro h1 <;> linarith
    · rw [abs_mul, abs_two]
      have := abs_nonneg x
      generalize (2 : ℝ) ^ (1024 : ℤ) = M at *
      linarith

theorem timesRadix_fl (n : ℕ) : ∀ {x : ℝ}, IsDouble x → timesRadix R n (fl R x) = fl R (x * 2 ^ (n : ℤ)) := by
  induction n with
  | zero =>
    intro x h
    simp [timesRadix]
  | succ n ih =>
    intro x h
    rw [timesRadix, timesTwo_fl R h, ih (double_times_two h)]
    congr 1
    push_cast
    rw [two_succ]
    ring

theorem isFinite_one : IsFinite 1 := by
  refine ⟨by simpa using isDouble_two (e := 0) (by norm_num), ?_⟩
  rw [abs_one]
  exact one_lt_zpow₀ (by norm_num) (by norm_num)

/-- What is much smaller than the smallest double is rounded to zero. -/
theorem round_tiny {x : ℝ} (h : |x| < (2 : ℝ) ^ (-1075 : ℤ)) : R.round x = 0 := by
  have n := R.nearest x
  have h1 := n.2 0 isDouble_zero
  rw [sub_zero] at h1
  have h2 := tri_zero x (R.round x)
  by_contra h3
  have h4 := n.1.grid.one_le h3
  rw [show (-1074 : ℤ) = -1075 + 1 by norm_num, two_succ] at h4
  linarith
where
  tri_zero (x y : ℝ) : |y| ≤ |x| + |x - y| := by
    have := abs_sub x (x - y)
    rwa [sub_sub_cancel] at this

/-- Dividing by a power of the radix. -/
theorem quotient_radix (n : ℕ) {r : ℝ} (h : n < 1024 ∨ |r| < 2 * (2 : ℝ) ^ (-1022 : ℤ)) : Fl.quotient R r (timesRadix R n (Fl.finite 1)) = fl R (r * 2 ^ (-(n : ℤ))) := by
  rw [← fl_exact R isFinite_one, timesRadix_fl R n isFinite_one.1, one_mul]
  have hd : IsDouble ((2 : ℝ) ^ (n : ℤ)) := isDouble_two (by omega)
  by_cases hn : n < 1024
  · rw [fl_exact R ⟨hd, ?_⟩]
    · simp only [Fl.quotient]
      rw [zpow_neg, div_eq_mul_inv]
    · rw [abs_of_pos (two_pos _)]
      exact zpow_lt_zpow_right₀ (by norm_num) (by omega)
  · have h' := h.resolve_left hn
    rw [fl_overflow R hd]
    · simp only [Fl.quotient]
      have hz : R.round (r * 2 ^ (-(n : ℤ))) = 0 := by
        refine round_tiny R ?_
        rw [abs_mul, abs_of_pos (two_pos _)]
        have h1 : (2 : ℝ) ^ (-(n : ℤ)) ≤ 2 ^ (-1024 : ℤ) := two_le (by omega)
        have h2 : |r| * (2 : ℝ) ^ (-(n : ℤ)) ≤ |r| * 2 ^ (-1024 : ℤ) := mul_le_mul_of_nonneg_left h1 (abs_nonneg r)
        have h3 : |r| * (2 : ℝ) ^ (-1024 : ℤ) < 2 * 2 ^ (-1022 : ℤ) * 2 ^ (-1024 : ℤ) := mul_lt_mul_of_pos_right h' (two_pos _)
        rw [mul_comm 2, ← two_succ, ← two_add] at h3
        exact (h2.trans_lt h3).trans_le (two_le (by norm_num))
      simp only [fl, hz]
      rw [if_pos (by rw [abs_zero]; exact two_pos 1024)]
    · rw [abs_of_pos (two_pos _)]
      exact two_le (by omega)

theorem scaleDown_spec (n : ℕ) : ∀ {r : ℝ}, IsFinite r → 0 ≤ r → scaleDown R n r = fl R (r * 2 ^ (-(n : ℤ))) := by
  induction n with
  | zero =>
    intro r h h0
    simp only [scaleDown, Nat.cast_zero, neg_zero, zpow_zero, mul_one]
    exact (fl_exact R h).symm
  | succ n ih =>
    intro r h h0
    rw [scaleDown]
    by_cases h1 : r < 2 * (2 : ℝ) ^ (-1022 : ℤ)
    · rw [if_pos h1]
      exact quotient_radix R (n + 1) (Or.inr (by rwa [abs_of_nonneg h0]))
    · rw [if_neg h1]
      push Not at h1
      have hd : IsDouble (r / 2) := by
        refine double_half h.1 ?_
        rw [abs_of_nonneg h0, show (-1021 : ℤ) = -1022 + 1 by norm_num, two_succ]
        linarith
      have e : R.div r 2 = r / 2 := round_exact R hd
      rw [e, ih ⟨hd, ?_⟩ (by linarith)]
      · congr 1
        rw [show -(n : ℤ) = -((n + 1 : ℕ) : ℤ) + 1 by push_cast; ring, two_succ]
        ring
      · have := h.2
        rw [abs_div, abs_two]
        have := abs_nonneg r
        generalize (2 : ℝ) ^ (1024 : ℤ) = M at *
        linarith

/-- **C80**: `ScaleB` is the product by a power of two, rounded once, unless a negative number is scaled by less than 2^-1023. -/
theorem C80_scale_b {x : ℝ} (hx : IsFinite x) {N : ℤ} (h : 0 ≤ x ∨ -1023 ≤ N) : scaleB R x N = fl R (x * 2 ^ N) := by
  by_cases hN : N < 0
  · rw [scaleB, if_pos hN]
    have eN : (-(N.natAbs : ℤ)) = N := by omega
    by_cases h0 : 0 ≤ x
    · rw [scaleDown_spec R _ hx h0, eN]
    · have h1 := h.resolve_left h0
      push Not at h0
      obtain ⟨n, hn⟩ : ∃ n, N.natAbs = n + 1 := ⟨N.natAbs - 1, by omega⟩
      rw [hn, scaleDown, if_pos (h0.trans (by have := two_pos (-1022); linarith)), quotient_radix R (n + 1) (Or.inl (by omega)), ← hn, eN]
  · rw [scaleB, if_neg hN, ← fl_exact R hx, timesRadix_fl R _ hx.1]
    congr 2
    rw [show (N.natAbs : ℤ) = N by omega]

/-- **C80**: scaling the negative number -2^1000 by 2^-1100 should yield -2^-100, but the code yields zero. -/
theorem C80_scale_b_counterexample : IsFinite (-2 ^ (1000 : ℤ)) ∧ scaleB R (-2 ^ (1000 : ℤ)) (-1100) = Fl.finite 0 ∧ fl R (-2 ^ (1000 : ℤ) * 2 ^ (-1100 : ℤ)) = Fl.finite (-2 ^ (-100 : ℤ)) := by
  have lt1024 : ∀ k : ℤ, k < 1024 → (2 : ℝ) ^ k < 2 ^ (1024 : ℤ) := fun k hk => zpow_lt_zpow_right₀ (by norm_num) hk
  refine ⟨?_, ?_, ?_⟩
  · refine ⟨(isDouble_two (by norm_num)).neg, ?_⟩
    rw [abs_neg, abs_of_pos (two_pos _)]
    exact lt1024 _ (by norm_num)
  · rw [scaleB, if_pos (by norm_num), show (-1100 : ℤ).natAbs = 1099 + 1 by rfl, scaleDown, if_pos]
    · rw [← fl_exact R isFinite_one, timesRadix_fl R _ isFinite_one.1, one_mul, fl_overflow R (isDouble_two (by norm_num))]
      · rfl
      · rw [abs_of_pos (two_pos _)]
        exact two_le (by norm_num)
    · have h1 := two_pos (-1022)
      have h2 := two_pos 1000
      generalize (2 : ℝ) ^ (-1022 : ℤ) = t at *
      generalize (2 : ℝ) ^ (1000 : ℤ) = t' at *
      linarith
  · rw [neg_mul, ← two_add, show (1000 + -1100 : ℤ) = -100 by norm_num]
    refine fl_exact R ⟨(isDouble_two (by norm_num)).neg, ?_⟩
    rw [abs_neg, abs_of_pos (two_pos _)]
    exact lt1024 _ (by norm_num)

/-! ### NextUp -/

/-- The next double, when the exponents are not bounded. -/
def UNext (x y : ℝ) : Prop := IsDouble y ∧ x < y ∧ ∀ z, IsDouble z → x < z → y ≤ z

theorem next_of_unext {x y : ℝ} (hx : IsFinite x) (h : UNext x y) : IsNext (Fl.finite x) (fl R y) := by
  obtain ⟨h1, h2, h3⟩ := h
  by_cases hy : |y| < (2 : ℝ) ^ (1024 : ℤ)
  · rw [fl_exact R ⟨h1, hy⟩]
    refine ⟨⟨h1, hy⟩, h2, fun z hz hl => ?_⟩
    cases z with
    | finite z =>
      rcases (h3 z hz.1 hl).eq_or_lt with h4 | h4
      · exact Or.inl (by rw [h4])
      · exact Or.inr h4
    | infinity n => exact Or.inr hl
  · push Not at hy
    have h0 : 0 ≤ y := by
      by_contra h0
      push Not at h0
      rw [abs_of_neg h0] at hy
      have := (abs_lt.1 hx.2).1
      generalize (2 : ℝ) ^ (1024 : ℤ) = M at *
      linarith
    rw [fl_overflow R h1 hy, decide_eq_false (not_lt.2 h0)]
    refine ⟨trivial, rfl, fun z hz hl => ?_⟩
    cases z with
    | finite z =>
      have h4 := h3 z hz.1 hl
      have h5 := (abs_lt.1 hz.2).2
      rw [abs_of_nonneg h0] at hy
      exact absurd (hy.trans h4) (not_le.2 h5)
    | infinity n => exact Or.inl (by rw [show n = false from hl])

theorem grid_pos {e : ℤ} {x : ℝ} (h : Grid e x) (h0 : 0 < x) : (2 : ℝ) ^ e ≤ x := by
  have := h.one_le h0.ne'
  rwa [abs_of_pos h0] at this

theorem grid_two {e f : ℤ} (h : f ≤ e) : Grid f ((2 : ℝ) ^ e) := Grid.mono ⟨1, by simp⟩ h

theorem unext_subnormal {x : ℝ} (hx : IsDouble x) (h1 : -(2 : ℝ) ^ (-1022 : ℤ) ≤ x) (h2 : x < 2 ^ (-1022 : ℤ)) : UNext x (x + 2 ^ (-1074 : ℤ)) := by
  have hp := two_pos (-1074)
  have hle : (2 : ℝ) ^ (-1074 : ℤ) ≤ 2 ^ (-1022 : ℤ) := two_le (by norm_num)
  refine ⟨double_of_grid (hx.grid.add (grid_two le_rfl)) le_rfl ?_, by linarith [hp], fun z hz hl => ?_⟩
  · have e : (2 : ℝ) ^ (53 + -1074 : ℤ) = 2 ^ (-1022 : ℤ) * 2 := by rw [← two_succ]; norm_num
    rw [e, abs_le]
    generalize (2 : ℝ) ^ (-1022 : ℤ) = t at *
    generalize (2 : ℝ) ^ (-1074 : ℤ) = t' at *
    constructor <;> linarith
  · have := grid_pos (hz.grid.sub hx.grid) (by linarith)
    generalize (2 : ℝ) ^ (-1074 : ℤ) = t' at *
    linarith

theorem unext_normal {x : ℝ} {L : ℤ} (hx : IsDouble x) (hL : -1022 ≤ L) (h1 : (2 : ℝ) ^ L ≤ |x|) (h2 : |x| < 2 ^ (L + 1)) (h3 : x ≠ -2 ^ L) : UNext x (x + 2 ^ (L - 52)) := by
  have hp := two_pos (L - 52)
  have hpL := two_pos L
  have g : Grid (L - 52) x := grid_of_large hx (by rwa [show 52 + (L - 52) = L by ring])
  have gL : Grid (L - 52) ((2 : ℝ) ^ L) := grid_two (by omega)
  have gL' : Grid (L - 52) ((2 : ℝ) ^ (L + 1)) := grid_two (by omega)
  rcases lt_or_ge x 0 with h0 | h0
  · rw [abs_of_neg h0] at h1 h2
    have h4 : (2 : ℝ) ^ (L - 52) ≤ -x - 2 ^ L := grid_pos (g.neg.sub gL) (by
      rcases h1.eq_or_lt with h | h
      · exact absurd (by linarith) h3
      · linarith)
    refine ⟨double_of_grid (g.add (grid_two le_rfl)) (by omega) ?_, by linarith, fun z hz hl => ?_⟩
    · rw [show 53 + (L - 52) = L + 1 by ring, abs_le]
      constructor <;> linarith
    · by_contra h5
      push Not at h5
      have gz : Grid (L - 52) z := grid_of_large hz (by
        rw [show 52 + (L - 52) = L by ring, abs_of_neg (by linarith)]
        linarith)
      have := grid_pos (gz.sub g) (by linarith)
      linarith
  · rw [abs_of_nonneg h0] at h1 h2
    have h4 : (2 : ℝ) ^ (L - 52) ≤ 2 ^ (L + 1) - x := grid_pos (gL'.sub g) (by linarith)
    refine ⟨double_of_grid (g.add (grid_two le_rfl)) (by omega) ?_, by linarith, fun z hz hl => ?_⟩
    · rw [show 53 + (L - 52) = L + 1 by ring, abs_le]
      constructor <;> linarith
    · have gz : Grid (L - 52) z := grid_of_large hz (by
        rw [show 52 + (L - 52) = L by ring, abs_of_nonneg (by linarith)]
        linarith)
      have := grid_pos (gz.sub g) (by linarith)
      linarith

theorem unext_power {L : ℤ} (hL : -1021 ≤ L) : UNext (-2 ^ L) (-2 ^ L + 2 ^ (L - 53)) := by
  have hp := two_pos (L - 53)
  have hpL := two_pos (L - 1)
  have g : Grid (L - 53) ((2 : ℝ) ^ L) := grid_two (by omega)
  have hle : (2 : ℝ) ^ (L - 53) ≤ 2 ^ (L - 1) := two_le (by omega)
  have e : (2 : ℝ) ^ L = 2 ^ (L - 1) * 2 := by rw [← two_succ]; congr 1; ring
  refine ⟨double_of_grid (g.neg.add (grid_two le_rfl)) (by omega) ?_, by linarith, fun z hz hl => ?_⟩
  · rw [show 53 + (L - 53) = L by ring, abs_le]
    constructor <;> linarith
  · by_contra h5
    push Not at h5
    have gz : Grid (L - 53) z := grid_of_large hz (by
      rw [show 52 + (L - 53) = L - 1 by ring, abs_of_neg (by linarith)]
      linarith)
    have := grid_pos (gz.sub g.neg) (by linarith)
    linarith

/-- `NextUp` rounds the next double. -/
theorem nextUp_unext {x : ℝ} (hx : IsFinite x) : ∃ y, UNext x y ∧ nextUp R (Fl.finite x) = fl R y := by
  have sub := fun h => unext_subnormal hx.1 h
  simp only [nextUp]
  have q1 : (2 : ℝ) ^ (-1074 : ℤ) ≤ 2 ^ (-1022 : ℤ) := two_le (by norm_num)
  have q2 := two_pos (-1074)
  have q3 := two_pos (-1022)
  by_cases c1 : x = -(2 : ℝ) ^ (-1074 : ℤ)
  · rw [if_pos c1]
    refine ⟨_, sub (by rw [c1]; exact neg_le_neg q1) (by rw [c1]; exact (neg_neg_of_pos q2).trans q3), ?_⟩
    rw [c1, neg_add_cancel, fl_exact R ⟨isDouble_zero, by rw [abs_zero]; exact two_pos 1024⟩]
  rw [if_neg c1]
  by_cases c2 : x = 0
  · rw [if_pos c2]
    refine ⟨_, sub (by rw [c2]; exact (neg_neg_of_pos q3).le) (by rw [c2]; exact q3), ?_⟩
    rw [c2, zero_add, fl_exact R ⟨isDouble_two le_rfl, ?_⟩]
    rw [abs_of_pos q2]
    exact zpow_lt_zpow_right₀ (by norm_num) (by norm_num)
  rw [if_neg c2]
  by_cases c3 : -(2 : ℝ) ^ (-1022 : ℤ) ≤ x ∧ x < 2 ^ (-1022 : ℤ)
  · rw [if_pos c3]
    exact ⟨_, sub c3.1 c3.2, rfl⟩
  rw [if_neg c3]
  obtain ⟨l1, l2⟩ := C80_log_b R (le_refl 1100) hx c2
  generalize logB R 1100 x = L at *
  have L1 : -1022 ≤ L := by
    have h1 : (2 : ℝ) ^ (-1022 : ℤ) ≤ |x| := by
      by_contra h1
      push Not at h1
      exact c3 ⟨(abs_lt.1 h1).1.le, (abs_lt.1 h1).2⟩
    have := two_lt (h1.trans_lt l2)
    omega
  have L2 : L ≤ 1023 := by
    have := two_lt (l1.trans_lt hx.2)
    omega
  have eu : scaleB R (2 ^ (-52 : ℤ)) L = Fl.finite (2 ^ (L - 52)) := by
    have lt1024 : ∀ k : ℤ, -1074 ≤ k → k < 1024 → IsFinite ((2 : ℝ) ^ k) := fun k hk hk' =>
      ⟨isDouble_two hk, by rw [abs_of_pos (two_pos _)]; exact zpow_lt_zpow_right₀ (by norm_num) hk'⟩
    rw [C80_scale_b R (lt1024 _ (by norm_num) (by norm_num)) (Or.inl (two_pos _).le), ← two_add, show -52 + L = L - 52 by ring]
    exact fl_exact R (lt1024 _ (by omega) (by omega))
  have es : scaleB R x (-L) = Fl.finite (x * 2 ^ (-L)) := by
    rw [C80_scale_b R hx (Or.inr (by omega))]
    have e0 : (2 : ℝ) ^ L * 2 ^ (-L) = 1 := by rw [← two_add]; simp
    have hp := two_pos (-L)
    have b1 : 1 ≤ |x| * 2 ^ (-L) := by
      rw [← e0]
      exact mul_le_mul_of_nonneg_right l1 hp.le
    have b2 : |x| * 2 ^ (-L) ≤ 2 := by
      have := mul_le_mul_of_nonneg_right l2.le hp.le
      rw [two_succ, mul_right_comm, e0, one_mul] at this
      exact this
    refine fl_exact R ⟨DoublePrecision.double_scale hx.1 (Or.inr ?_), ?_⟩
    · refine le_trans ?_ b1
      have := two_le (e := -1022) (f := 0) (by norm_num)
      rwa [zpow_zero] at this
    · rw [abs_mul, abs_of_pos hp]
      refine b2.trans_lt ?_
      have : (2 : ℝ) ^ (1 : ℤ) < 2 ^ (1024 : ℤ) := zpow_lt_zpow_right₀ (by norm_num) (by norm_num)
      rwa [zpow_one] at this
  rw [eu, es]
  by_cases c4 : x = -2 ^ L
  · have e1 : x * 2 ^ (-L) = -1 := by
      rw [c4, neg_mul, ← two_add]
      simp
    have L3 : -1021 ≤ L := by
      by_contra h
      have h' : L = -1022 := by omega
      rw [h'] at c4
      exact c3 ⟨c4.ge, by rw [c4]; exact (neg_neg_of_pos q3).trans q3⟩
    rw [if_pos (by rw [e1])]
    have e2 : (Fl.finite ((2 : ℝ) ^ (L - 52))).half R = Fl.finite (2 ^ (L - 53)) := by
      simp only [Fl.half]
      rw [← two_pred, show L - 52 - 1 = L - 53 by ring]
      exact fl_exact R ⟨isDouble_two (by omega), by rw [abs_of_pos (two_pos _)]; exact zpow_lt_zpow_right₀ (by norm_num) (by omega)⟩
    rw [e2, c4]
    exact ⟨_, unext_power L3, rfl⟩
  · have e1 : ¬ (Fl.finite (x * 2 ^ (-L)) = Fl.finite (-1)) := by
      intro h
      simp only [Fl.finite.injEq] at h
      apply c4
      have : x * 2 ^ (-L) * 2 ^ L = -1 * 2 ^ L := by rw [h]
      rw [mul_assoc, ← two_add] at this
      simpa using this
    rw [if_neg e1]
    exact ⟨_, unext_normal hx.1 L1 l1 l2 c4, rfl⟩

/-- The smallest finite double. -/
theorem lowest {z : ℝ} (h : IsFinite z) : |z| ≤ (2 : ℝ) ^ (1024 : ℤ) - 2 ^ (971 : ℤ) := by
  have hd : IsDouble |z| := by
    rcases abs_choice z with h' | h' <;> rw [h']
    · exact h.1
    · exact h.1.neg
  have e : (2 : ℝ) ^ (1024 : ℤ) = 2 ^ (1023 : ℤ) + 2 ^ (1023 : ℤ) := by
    rw [show (1024 : ℤ) = 1023 + 1 by norm_num, two_succ, mul_two]
  by_cases h1 : (2 : ℝ) ^ (1023 : ℤ) ≤ |z|
  · have g : Grid 971 |z| := grid_of_large hd (by rw [abs_abs]; exact h1)
    have := grid_pos ((grid_two (e := 1024) (by norm_num)).sub g) (by have := h.2; generalize (2 : ℝ) ^ (1024 : ℤ) = M at *; linarith)
    generalize (2 : ℝ) ^ (1024 : ℤ) = M at *
    generalize (2 : ℝ) ^ (971 : ℤ) = M' at *
    linarith
  · push Not at h1
    have h2 : (2 : ℝ) ^ (971 : ℤ) ≤ 2 ^ (1023 : ℤ) := two_le (by norm_num)
    rw [e]
    generalize (2 : ℝ) ^ (1023 : ℤ) = M at *
    generalize (2 : ℝ) ^ (971 : ℤ) = M' at *
    linarith

theorem lowest_finite : IsFinite (-((2 : ℝ) ^ (1024 : ℤ) - 2 ^ (971 : ℤ))) := by
  have h1 : (2 : ℝ) ^ (971 : ℤ) ≤ 2 ^ (1024 : ℤ) := two_le (by norm_num)
  have h2 := two_pos 971
  have g : Grid 971 ((2 : ℝ) ^ (1024 : ℤ) - 2 ^ (971 : ℤ)) := (grid_two (by norm_num)).sub (grid_two le_rfl)
  have e : (53 + 971 : ℤ) = 1024 := by norm_num
  refine ⟨(double_of_grid g (by norm_num) ?_).neg, ?_⟩
  · rw [e, abs_of_nonneg (sub_nonneg.2 h1)]
    exact sub_le_self _ h2.le
  · rw [abs_neg, abs_of_nonneg (sub_nonneg.2 h1)]
    exact sub_lt_self _ h2

/-- **C80**: `NextUp` is the double immediately above a double, except above the positive infinity, where there is none. -/
theorem C80_next_up {x : Fl} (hx : x.IsFl) : (x ≠ Fl.infinity false → IsNext x (nextUp R x)) ∧ nextUp R (Fl.infinity false) = Fl.infinity false := by
  refine ⟨fun hi => ?_, by simp only [nextUp]⟩
  cases x with
  | finite x =>
    obtain ⟨y, h, e⟩ := nextUp_unext R hx
    rw [e]
    exact next_of_unext R hx h
  | infinity n =>
    cases n with
    | false => exact absurd rfl hi
    | true =>
      simp only [nextUp]
      refine ⟨lowest_finite, rfl, fun z hz hl => ?_⟩
      cases z with
      | finite z =>
        have h1 := lowest hz
        have h2 := (abs_le.1 h1).1
        rcases h2.eq_or_lt with h3 | h3
        · exact Or.inl (by rw [h3])
        · exact Or.inr h3
      | infinity m => exact Or.inr hl.2

theorem neg_neg_fl (x : Fl) : x.neg.neg = x := by
  cases x with
  | finite x => simp [Fl.neg]
  | infinity n => simp [Fl.neg]

theorem neg_isFl {x : Fl} (h : x.IsFl) : x.neg.IsFl := by
  cases x with
  | finite x => exact ⟨h.1.neg, by rw [abs_neg]; exact h.2⟩
  | infinity n => trivial

theorem neg_lt {x y : Fl} (h : x.lt y) : y.neg.lt x.neg := by
  cases x with
  | finite x =>
    cases y with
    | finite y => exact neg_lt_neg h
    | infinity n => simpa [Fl.neg, Fl.lt] using h
  | infinity m =>
    cases y with
    | finite y => simpa [Fl.neg, Fl.lt] using h
    | infinity n => simpa [Fl.neg, Fl.lt, and_comm] using h

/-- **C80**: `NextDown` is the double immediately below a double, except below the negative infinity, where there is none. -/
theorem C80_next_down {x : Fl} (hx : x.IsFl) : (x ≠ Fl.infinity true → IsPrevious x (nextDown R x)) ∧ nextDown R (Fl.infinity true) = Fl.infinity true := by
  have h := C80_next_up R (neg_isFl hx)
  constructor
  · intro hi
    obtain ⟨h1, h2, h3⟩ := h.1 (fun h' => hi (by rw [← neg_neg_fl x, h']; rfl))
    refine ⟨neg_isFl h1, ?_, fun z hz hl => ?_⟩
    · have := neg_lt h2
      rwa [neg_neg_fl] at this
    · rcases h3 z.neg (neg_isFl hz) (neg_lt hl) with h4 | h4
      · exact Or.inl (by rw [nextDown, ← h4, neg_neg_fl])
      · have := neg_lt h4
        rw [neg_neg_fl] at this
        exact Or.inr this
  · simp only [nextDown, Fl.neg, Bool.not_true, h.2, Bool.not_false]

end Principia.Numerics.Next
