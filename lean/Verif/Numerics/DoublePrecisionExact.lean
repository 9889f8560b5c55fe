import Verif.Numerics.DoublePrecisionLemmas
import Verif.Numerics.DoublePrecisionSpec

/-!
The exact transformations: `QuickTwoSum`, `TwoSum`, `TwoDifference` and `TwoProduct`.
-/

set_option linter.unusedVariables false
set_option linter.unusedSimpArgs false

namespace Principia.Numerics.DoublePrecisions

variable (R : Rounding)

theorem round_exact {x : ℝ} (h : IsDouble x) : R.round x = x := near_exact h (R.nearest x)

/-- The condition that the code checks, for doubles. -/
theorem ordered_of_properly {a b : ℝ} (ha : IsDouble a) (hb : IsDouble b) (h : ProperlyOrdered a b) : Ordered a b := by
  rcases h with h | h | ⟨m, h⟩
  · subst h
    exact ordered_zero hb
  · subst h
    exact ordered_of_le ha isDouble_zero (by rw [abs_zero]; exact abs_nonneg a)
  · by_cases h0 : b = 0
    · subst h0
      exact ordered_of_le ha isDouble_zero (by rw [abs_zero]; exact abs_nonneg a)
    obtain ⟨l1, l2⟩ := log_bounds h0
    by_cases hL : -1074 ≤ Int.log 2 |b| - 52
    · refine ⟨Int.log 2 |b| - 52, hL, ⟨m, h⟩, grid_of_large hb ?_, l2.trans_le (two_le (by omega))⟩
      exact (two_le (by omega)).trans l1
    · exact ⟨-1074, le_refl _, ha.grid, hb.grid, l2.trans_le (two_le (by omega))⟩

theorem quick_two_sum {a b : ℝ} (ha : IsDouble a) (hb : IsDouble b) (h : Ordered a b) :
    quickTwoSum R a b = ⟨R.round (a + b), a + b - R.round (a + b)⟩ := by
  have n := R.nearest (a + b)
  simp only [quickTwoSum, Rounding.add, Rounding.sub, DoublePrecision.mk.injEq, true_and]
  rw [round_exact R (quick_ordered ha hb n h)]
  have e1 : b - (R.round (a + b) - a) = a + b - R.round (a + b) := by ring
  rw [e1, round_exact R (add_error ha hb n)]

theorem quick_two_difference {a b : ℝ} (ha : IsDouble a) (hb : IsDouble b) (h : Ordered a (-b)) :
    quickTwoDifference R a b = ⟨R.round (a - b), a - b - R.round (a - b)⟩ := by
  have n := R.nearest (a - b)
  rw [sub_eq_add_neg] at n
  simp only [quickTwoDifference, Rounding.sub, DoublePrecision.mk.injEq, true_and]
  rw [sub_eq_add_neg a b]
  have d := (quick_ordered ha hb.neg n h).neg
  rw [neg_sub] at d
  rw [round_exact R d]
  have e1 : a - R.round (a + -b) - b = a + -b - R.round (a + -b) := by ring
  rw [e1, round_exact R (add_error ha hb.neg n)]

theorem two_sum {a b : ℝ} (ha : IsDouble a) (hb : IsDouble b) : twoSum R a b = ⟨R.round (a + b), a + b - R.round (a + b)⟩ := by
  have n := R.nearest (a + b)
  obtain ⟨c1, c2, c3⟩ := two_sum_core ha hb n (R.nearest (R.round (a + b) - a))
  simp only [twoSum, Rounding.add, Rounding.sub, DoublePrecision.mk.injEq, true_and]
  rw [round_exact R c1, round_exact R c2, round_exact R c3]
  generalize R.round (R.round (a + b) - a) = v
  have e1 : a - (R.round (a + b) - v) + (b - v) = a + b - R.round (a + b) := by ring
  rw [e1, round_exact R (add_error ha hb n)]

theorem two_difference {a b : ℝ} (ha : IsDouble a) (hb : IsDouble b) : twoDifference R a b = ⟨R.round (a - b), a - b - R.round (a - b)⟩ := by
  have n := R.nearest (a - b)
  rw [sub_eq_add_neg] at n
  obtain ⟨c1, c2, c3⟩ := two_sum_core ha hb.neg n (R.nearest (R.round (a + -b) - a))
  simp only [twoDifference, Rounding.add, Rounding.sub, DoublePrecision.mk.injEq, true_and]
  rw [sub_eq_add_neg a b]
  rw [round_exact R c1, round_exact R c2]
  have c4 := c3.neg
  generalize R.round (R.round (a + -b) - a) = v at c4
  have e2 : -(-b - v) = b + v := by ring
  rw [e2] at c4
  rw [round_exact R c4]
  have e1 : a - (R.round (a + -b) - v) - (b + v) = a + -b - R.round (a + -b) := by ring
  rw [e1, round_exact R (add_error ha hb.neg n)]

theorem two_difference_of_points {a b : ℝ} (ha : IsDouble a) (hb : IsDouble b) :
    twoDifferenceOfPoints R a b = ⟨R.round (a - b), a - b - R.round (a - b)⟩ := by
  have n := R.nearest (a - b)
  rw [sub_eq_add_neg] at n
  have nw := near_neg (R.nearest (a - R.round (a + -b)))
  rw [neg_sub] at nw
  obtain ⟨c1, c2, c3⟩ := two_sum_core ha hb.neg n nw
  simp only [twoDifferenceOfPoints, Rounding.add, Rounding.sub, DoublePrecision.mk.injEq, true_and]
  rw [sub_eq_add_neg a b]
  generalize R.round (a - R.round (a + -b)) = w at c1 c2 c3
  rw [sub_neg_eq_add] at c1 c2 c3
  rw [round_exact R c1, round_exact R c2]
  have e2 : -b + w = w - b := by ring
  rw [e2] at c3
  rw [round_exact R c3]
  have e1 : a - (R.round (a + -b) + w) + (w - b) = a + -b - R.round (a + -b) := by ring
  rw [e1, round_exact R (add_error ha hb.neg n)]

/-- The error of a product is a double when the product is a multiple of the smallest double. -/
theorem mul_error {a b z : ℝ} (ha : IsDouble a) (hb : IsDouble b) (hg : Grid (-1074) (a * b)) (h : Nearest (a * b) z) : IsDouble (a * b - z) := by
  obtain ⟨e, he, g, l, -⟩ := double_normal ha
  obtain ⟨f, hf, g', l', -⟩ := double_normal hb
  have hl : |a * b| ≤ (2 : ℝ) ^ (53 + (53 + (e + f))) := by
    rw [abs_mul, show 53 + (53 + (e + f)) = (53 + e) + (53 + f) by ring, two_add]
    exact mul_le_mul l.le l'.le (abs_nonneg _) (two_pos _).le
  by_cases hef : -1074 ≤ e + f
  · have gm := g.mul g'
    refine double_of_grid (gm.sub (near_grid gm h)) hef ?_
    refine (near_half h (by omega) hl).trans ?_
    have := two_pos (53 + (e + f))
    linarith
  · refine double_of_grid (hg.sub (near_grid hg h)) (le_refl _) ?_
    refine (near_half (i := 53 + -1074) h (by omega) (hl.trans (two_le (by omega)))).trans (half_le_self (two_pos _).le)

/-- Veltkamp's splitting. -/
theorem veltkamp {x : ℝ} {e : ℤ} (he : -1074 ≤ e) (g : Grid e x) (l : |x| < (2 : ℝ) ^ (53 + e)) (hn : (2 : ℝ) ^ (52 + e) ≤ |x|) :
    (veltkampSplitting R x).1 + (veltkampSplitting R x).2 = x ∧ Grid (27 + e) (veltkampSplitting R x).1 ∧ |(veltkampSplitting R x).1| ≤ (2 : ℝ) ^ (53 + e) ∧
      Grid e (veltkampSplitting R x).2 ∧ |(veltkampSplitting R x).2| ≤ (2 : ℝ) ^ (26 + e) := by
  have hp := two_pos e
  have p26 : (2 : ℝ) ^ (26 + e) = 2 ^ 26 * 2 ^ e := by rw [two_add]; norm_num
  have p27 : (2 : ℝ) ^ (27 + e) = 2 ^ 27 * 2 ^ e := by rw [two_add]; norm_num
  have p28 : (2 : ℝ) ^ (28 + e) = 2 ^ 28 * 2 ^ e := by rw [two_add]; norm_num
  have p52 : (2 : ℝ) ^ (52 + e) = 2 ^ 52 * 2 ^ e := by rw [two_add]; norm_num
  have p53 : (2 : ℝ) ^ (53 + e) = 2 ^ 53 * 2 ^ e := by rw [two_add]; norm_num
  have p79 : (2 : ℝ) ^ (52 + (27 + e)) = 2 ^ 79 * 2 ^ e := by rw [two_add, p27]; norm_num; ring
  have p80 : (2 : ℝ) ^ (53 + (27 + e)) = 2 ^ 80 * 2 ^ e := by rw [two_add, p27]; norm_num; ring
  have p81 : (2 : ℝ) ^ (53 + (28 + e)) = 2 ^ 81 * 2 ^ e := by rw [two_add, p28]; norm_num; ring
  have lx : |x| ≤ ((2 ^ 53 - 1 : ℤ) : ℝ) * 2 ^ e := by
    refine g.abs_le_of_lt (l.trans_le (le_of_eq ?_))
    rw [p53]
    push_cast
    ring
  push_cast at lx
  rw [p52] at hn
  -- The first product.
  have n1 := R.nearest ((2 ^ 27 + 1) * x)
  simp only [veltkampSplitting, Rounding.mul, Rounding.add, Rounding.sub]
  generalize R.round ((2 ^ 27 + 1) * x) = γ at n1 ⊢
  have a1 : |(2 ^ 27 + 1) * x| = (2 ^ 27 + 1) * |x| := by rw [abs_mul, abs_of_pos (by norm_num)]
  have h1 := near_half (i := 28 + e) n1 (by omega) (by rw [a1, p81]; linarith)
  rw [p28] at h1
  have gγ : Grid (27 + e) γ := by
    refine grid_of_large n1.1 (near_abs_ge n1 (isDouble_two (by omega)) ?_)
    rw [a1, p79]
    linarith
  -- The difference.
  have n2 := R.nearest (x - γ)
  generalize R.round (x - γ) = δ at n2 ⊢
  obtain ⟨ε, hε⟩ : ∃ ε, ε = (2 ^ 27 + 1) * x - γ := ⟨_, rfl⟩
  have h1' : |ε| ≤ 2 ^ 27 * 2 ^ e := by
    rw [hε]
    exact h1.trans (le_of_eq (by ring))
  have e2 : x - γ = -(2 ^ 27 * x) + ε := by rw [hε]; ring
  have a2 : |-(2 ^ 27 * x)| = 2 ^ 27 * |x| := by rw [abs_neg, abs_mul, abs_of_pos (by norm_num)]
  have u2 : |x - γ| ≤ (2 : ℝ) ^ (53 + (27 + e)) := by
    have t := abs_add_le (-(2 ^ 27 * x)) ε
    rw [← e2, a2] at t
    rw [p80]
    linarith
  have l2 : (2 : ℝ) ^ (52 + (27 + e)) ≤ |x - γ| := by
    rw [p79]
    by_cases hm : |x| = 2 ^ 52 * 2 ^ e
    · have hd : IsDouble ((2 ^ 27 + 1) * x) := by
        refine double_of_grid (e := 52 + e) ?_ (by omega) ?_
        · rcases abs_choice x with h | h
          · refine ⟨2 ^ 27 + 1, ?_⟩
            rw [← h, hm, p52]
            push_cast
            ring
          · refine ⟨-(2 ^ 27 + 1), ?_⟩
            rw [hm] at h
            rw [p52, h]
            push_cast
            linarith
        · rw [a1, hm, show 53 + (52 + e) = 105 + e by ring, two_add]
          norm_num
          linarith
      have := near_exact hd n1
      rw [e2, hε, this, sub_self, add_zero, a2, hm]
      linarith
    · have hm2 : (2 ^ 52 + 1) * 2 ^ e ≤ |x| := by
        by_contra h
        push Not at h
        have := g.abs_le_of_lt (n := 2 ^ 52) (by push_cast; linarith)
        push_cast at this
        exact hm (le_antisymm (by linarith) hn)
      have t := abs_sub (x - γ) ε
      rw [show x - γ - ε = -(2 ^ 27 * x) by rw [hε]; ring, a2] at t
      linarith
  have h2 := near_half (i := 27 + e) n2 (by omega) u2
  rw [p27] at h2
  have gδ : Grid (27 + e) δ := grid_of_large n2.1 (near_abs_ge n2 (isDouble_two (by omega)) l2)
  -- The head.
  have gh := gγ.add gδ
  have lh : |γ + δ| ≤ ((2 ^ 26 : ℤ) : ℝ) * 2 ^ (27 + e) := by
    refine gh.abs_le_of_lt ?_
    rw [p27]
    have t := abs_sub x (x - γ - δ)
    rw [show x - (x - γ - δ) = γ + δ by ring] at t
    push_cast
    linarith
  have lh' : |γ + δ| ≤ (2 : ℝ) ^ (53 + e) := by
    refine lh.trans (le_of_eq ?_)
    rw [p27, p53]
    push_cast
    ring
  have dh : IsDouble (γ + δ) := double_of_grid gh (by omega) (lh'.trans (two_le (by omega)))
  rw [round_exact R dh]
  -- The tail.
  have gt : Grid e (x - (γ + δ)) := g.sub (gh.mono (by omega))
  have lt : |x - (γ + δ)| ≤ (2 : ℝ) ^ (26 + e) := by
    rw [p26, ← sub_sub]
    linarith
  rw [round_exact R (double_of_grid gt he (lt.trans (two_le (by omega))))]
  exact ⟨by ring, gh, lh', gt, lt⟩

theorem abs_mul_le {a b c d : ℝ} (h : |a| ≤ c) (h' : |b| ≤ d) : |a * b| ≤ c * d := by
  rw [abs_mul]
  exact mul_le_mul h h' (abs_nonneg _) ((abs_nonneg _).trans h)

/-- The product of Veltkamp and Dekker is exact. -/
theorem dekker {x y : ℝ} (hx : IsDouble x) (hy : IsDouble y) (nx : (2 : ℝ) ^ (-1022 : ℤ) ≤ |x|) (ny : (2 : ℝ) ^ (-1022 : ℤ) ≤ |y|)
    (nxy : (2 : ℝ) ^ (-969 : ℤ) ≤ |x * y|) : veltkampDekkerProduct R x y = ⟨R.round (x * y), x * y - R.round (x * y)⟩ := by
  obtain ⟨e, he, g, l, hn⟩ := double_normal hx
  obtain ⟨f, hf, g', l', hn'⟩ := double_normal hy
  have hn : (2 : ℝ) ^ (52 + e) ≤ |x| := by
    rcases hn with h | h
    · rw [h]; exact (two_le (by norm_num)).trans nx
    · exact h
  have hn' : (2 : ℝ) ^ (52 + f) ≤ |y| := by
    rcases hn' with h | h
    · rw [h]; exact (two_le (by norm_num)).trans ny
    · exact h
  obtain ⟨sx, ghx, lhx, gtx, ltx⟩ := veltkamp R he g l hn
  obtain ⟨sy, ghy, lhy, gty, lty⟩ := veltkamp R hf g' l' hn'
  have hef : -1074 ≤ e + f := by
    have h1 : (2 : ℝ) ^ (-969 : ℤ) < (2 : ℝ) ^ ((53 + e) + (53 + f)) := by
      rw [two_add (53 + e)]
      refine nxy.trans_lt ?_
      rw [abs_mul]
      exact mul_lt_mul'' l l' (abs_nonneg _) (abs_nonneg _)
    have := two_lt h1
    omega
  simp only [veltkampDekkerProduct, Rounding.mul, Rounding.add, Rounding.sub, DoublePrecision.mk.injEq, true_and]
  have n := R.nearest (x * y)
  have gxy := g.mul g'
  have lxy : (2 : ℝ) ^ (52 + (52 + (e + f))) ≤ |x * y| := by
    rw [show 52 + (52 + (e + f)) = (52 + e) + (52 + f) by ring, two_add (52 + e), abs_mul]
    exact mul_le_mul hn hn' (two_pos _).le (abs_nonneg _)
  have gz : Grid (52 + (e + f)) (R.round (x * y)) := grid_of_large n.1 (near_abs_ge n (isDouble_two (by omega)) lxy)
  have gz0 := near_grid gxy n
  have uz := near_half (i := 53 + (e + f)) n (by omega) (by
    rw [abs_mul, show 53 + (53 + (e + f)) = (53 + e) + (53 + f) by ring, two_add (53 + e)]
    exact mul_le_mul l.le l'.le (abs_nonneg _) (two_pos _).le)
  generalize R.round (x * y) = z at n gz gz0 uz ⊢
  generalize (veltkampSplitting R x).1 = hx at *
  generalize (veltkampSplitting R x).2 = tx at *
  generalize (veltkampSplitting R y).1 = hy at *
  generalize (veltkampSplitting R y).2 = ty at *
  obtain ⟨P, hP⟩ : ∃ P, P = (2 : ℝ) ^ (e + f) := ⟨_, rfl⟩
  have hp : 0 < P := hP ▸ two_pos _
  have pw : ∀ n : ℕ, (2 : ℝ) ^ ((n : ℤ) + (e + f)) = 2 ^ n * P := by
    intro n
    rw [two_add, hP, zpow_natCast]
  have m1 : |hx * hy| ≤ 2 ^ 106 * P := by
    refine (abs_mul_le lhx lhy).trans (le_of_eq ?_)
    rw [← two_add, ← pw 106]
    congr 1
    push_cast; ring
  have m2 : |hx * ty| ≤ 2 ^ 79 * P := by
    refine (abs_mul_le lhx lty).trans (le_of_eq ?_)
    rw [← two_add, ← pw 79]
    congr 1
    push_cast; ring
  have m3 : |tx * hy| ≤ 2 ^ 79 * P := by
    refine (abs_mul_le ltx lhy).trans (le_of_eq ?_)
    rw [← two_add, ← pw 79]
    congr 1
    push_cast; ring
  have m4 : |tx * ty| ≤ 2 ^ 52 * P := by
    refine (abs_mul_le ltx lty).trans (le_of_eq ?_)
    rw [← two_add, ← pw 52]
    congr 1
    push_cast; ring
  have uz' : |x * y - z| ≤ 2 ^ 52 * P := by
    have := pw 53
    push_cast at this
    rw [this] at uz
    linarith
  have g1 : Grid (54 + (e + f)) (hx * hy) := by
    have := ghx.mul ghy
    rwa [show 27 + e + (27 + f) = 54 + (e + f) by ring] at this
  have g2 : Grid (27 + (e + f)) (hx * ty) := by
    have := ghx.mul gty
    rwa [show 27 + e + f = 27 + (e + f) by ring] at this
  have g3 : Grid (27 + (e + f)) (tx * hy) := by
    have := gtx.mul ghy
    rwa [show e + (27 + f) = 27 + (e + f) by ring] at this
  have g4 : Grid (e + f) (tx * ty) := gtx.mul gty
  have b0 : (2 : ℝ) ^ (53 + (e + f)) = 2 ^ 53 * P := by exact_mod_cast pw 53
  have b27 : (2 : ℝ) ^ (53 + (27 + (e + f))) = 2 ^ 80 * P := by
    rw [← pw 80]; congr 1; push_cast; ring
  have b52 : (2 : ℝ) ^ (53 + (52 + (e + f))) = 2 ^ 105 * P := by
    rw [← pw 105]; congr 1; push_cast; ring
  have b54 : (2 : ℝ) ^ (53 + (54 + (e + f))) = 2 ^ 107 * P := by
    rw [← pw 107]; congr 1; push_cast; ring
  have exy : x * y = hx * hy + hx * ty + tx * hy + tx * ty := by
    rw [← sx, ← sy]; ring
  rw [abs_le] at m1 m2 m3 m4 uz'
  have d1 : IsDouble (hx * hy) := double_of_grid g1 (by omega) (by rw [b54, abs_le]; constructor <;> linarith)
  have d2 : IsDouble (hx * ty) := double_of_grid g2 (by omega) (by rw [b27, abs_le]; constructor <;> linarith)
  have d3 : IsDouble (tx * hy) := double_of_grid g3 (by omega) (by rw [b27, abs_le]; constructor <;> linarith)
  have d4 : IsDouble (tx * ty) := double_of_grid g4 hef (by rw [b0, abs_le]; constructor <;> linarith)
  rw [round_exact R d1, round_exact R d2, round_exact R d3, round_exact R d4]
  have d5 : IsDouble (hx * hy - z) := double_of_grid ((g1.mono (by omega)).sub gz) (by omega) (by
    rw [b52, abs_le]; constructor <;> linarith)
  rw [round_exact R d5]
  have d6 : IsDouble (hx * hy - z + hx * ty) := double_of_grid (e := 27 + (e + f)) (((g1.mono (by omega)).sub (gz.mono (by omega))).add g2) (by omega) (by
    rw [b27, abs_le]; constructor <;> linarith)
  rw [round_exact R d6]
  have d7 : IsDouble (hx * hy - z + hx * ty + tx * hy) := double_of_grid (e := 27 + (e + f)) ((((g1.mono (by omega)).sub (gz.mono (by omega))).add g2).add g3) (by omega) (by
    rw [b27, abs_le]; constructor <;> linarith)
  rw [round_exact R d7]
  have e8 : hx * hy - z + hx * ty + tx * hy + tx * ty = x * y - z := by rw [exy]; ring
  rw [e8]
  exact round_exact R (double_of_grid (gxy.sub gz0) hef (by rw [b0, abs_le]; constructor <;> linarith))

theorem fma_product {a b : ℝ} (ha : IsDouble a) (hb : IsDouble b) (hg : Grid (-1074) (a * b)) :
    twoProduct R true a b = ⟨R.round (a * b), a * b - R.round (a * b)⟩ := by
  simp only [twoProduct, if_true, Rounding.mul, Rounding.fms, DoublePrecision.mk.injEq, true_and]
  exact round_exact R (mul_error ha hb hg (R.nearest _))

/-- A large product is a multiple of the smallest double. -/
theorem grid_of_large_product {a b : ℝ} (ha : IsDouble a) (hb : IsDouble b) (h : (2 : ℝ) ^ (-969 : ℤ) ≤ |a * b|) : Grid (-1074) (a * b) := by
  obtain ⟨e, he, g, l, hn⟩ := double_normal ha
  obtain ⟨f, hf, g', l', hn'⟩ := double_normal hb
  refine (g.mul g').mono ?_
  have h1 : (2 : ℝ) ^ (-969 : ℤ) < (2 : ℝ) ^ ((53 + e) + (53 + f)) := by
    rw [two_add (53 + e)]
    refine h.trans_lt ?_
    rw [abs_mul]
    exact mul_lt_mul'' l l' (abs_nonneg _) (abs_nonneg _)
  have := two_lt h1
  omega

theorem two_product (fma : Bool) {a b : ℝ} (ha : IsDouble a) (hb : IsDouble b) (h : NoUnderflow a b) :
    twoProduct R fma a b = ⟨R.round (a * b), a * b - R.round (a * b)⟩ := by
  cases fma with
  | true => exact fma_product R ha hb (grid_of_large_product ha hb h.2.2)
  | false =>
    simp only [twoProduct, Bool.false_eq_true, if_false]
    exact dekker R ha hb h.1 h.2.1 h.2.2

end Principia.Numerics.DoublePrecisions
