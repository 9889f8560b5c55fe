import Verif.Numerics.DoublePrecisionExact
import Verif.Numerics.DoublePrecisionSpec

/-!
The accuracy of the arithmetic in double precision.
-/

set_option linter.unusedVariables false
set_option linter.unusedSimpArgs false

namespace Principia.Numerics.DoublePrecisions

/-- A sum which is not a double is not much smaller than its terms. -/
theorem inexact_bound {x y : ℝ} (hx : IsDouble x) (hy : IsDouble y) (h : ¬ IsDouble (x + y)) : |x| + |y| ≤ 3 * |x + y| ∧ |y| ≤ 2 * |x + y| := by
  have t1 : |y| ≤ |x + y| + |x| := by
    have := abs_sub (x + y) x
    rwa [add_sub_cancel_left] at this
  have t2 : |x| ≤ |x + y| + |y| := by
    have := abs_sub (x + y) y
    rwa [add_sub_cancel_right] at this
  by_cases h1 : |x + y| ≤ |x|
  · have h2 : ¬ |x + y| ≤ |y| := fun h2 => h (sterbenz_add hx hy h1 h2)
    constructor <;> linarith
  · constructor <;> linarith

/-- The addition of a double and a pair. -/
theorem add_core {x y e s v : ℝ} (hx : IsDouble x) (hy : IsDouble y) (he : IsDouble e) (hye : |e| ≤ |y| / 2 ^ 53)
    (hs : Nearest (x + y) s) (hv : Nearest (x + y - s + e) v) :
    Ordered s v ∧ |s + v - (x + y + e)| ≤ 4 * (1 / 2 ^ 53) ^ 2 * |x + y + e| := by
  by_cases hd : IsDouble (x + y)
  · have h1 := near_exact hd hs
    subst h1
    rw [sub_self, zero_add] at hv
    have h2 := near_exact he hv
    subst h2
    refine ⟨?_, by rw [sub_self, abs_zero]; positivity⟩
    by_cases h0 : x + y = 0
    · rw [h0]
      exact ordered_zero he
    · exact ordered_of_le hd he (hye.trans (cancel hx hy h0))
  · have b := (inexact_bound hx hy hd).2
    have r1 := (near_rel (hx.grid.add hy.grid) hs).1
    have r2 := (near_rel ((add_error hx hy hs).grid.add he.grid) hv).1
    have t1 := abs_add_le (x + y - s) e
    have t2 : |v| ≤ |x + y - s + e| + |x + y - s + e - v| := by
      have := abs_sub (x + y - s + e) (x + y - s + e - v)
      rwa [sub_sub_cancel] at this
    have t3 : |x + y| ≤ |x + y - s| + |s| := by
      have := abs_add_le (x + y - s) s
      rwa [sub_add_cancel] at this
    have t4 : |x + y| ≤ |x + y + e| + |e| := by
      have := abs_sub (x + y + e) e
      rwa [add_sub_cancel_right] at this
    have e1 : s + v - (x + y + e) = -(x + y - s + e - v) := by ring
    rw [e1, abs_neg]
    have p := abs_nonneg (x + y)
    generalize |x + y - s + e - v| = q at *
    generalize |x + y - s + e| = w at *
    generalize |x + y - s| = z at *
    generalize |x + y + e| = E at *
    generalize |x + y| = S at *
    refine ⟨ordered_of_le hs.1 hv.1 ?_, ?_⟩ <;> norm_num at * <;> linarith

/-- The first `QuickTwoSum` of the addition of pairs, when the sum of the values is exact. -/
theorem ordered_add {x xe y ye t : ℝ} (hx : IsDouble x) (hy : IsDouble y) (hxe : |xe| ≤ |x| / 2 ^ 53) (hye : |ye| ≤ |y| / 2 ^ 53)
    (hd : IsDouble (x + y)) (ht : Nearest (xe + ye) t) (dxe : IsDouble xe) (dye : IsDouble ye) : Ordered (x + y) t := by
  have key : ∀ {x xe y ye : ℝ} {e f : ℤ}, |xe| ≤ |x| / 2 ^ 53 → |ye| ≤ |y| / 2 ^ 53 → IsDouble (x + y) → Nearest (xe + ye) t → IsDouble xe → IsDouble ye →
      -1074 ≤ e → Grid e x → |x| < (2 : ℝ) ^ (53 + e) → Grid f y → e ≤ f → Ordered (x + y) t := by
    intro x xe y ye e f hxe hye hd ht dxe dye he g l g' hef
    have p53 : (2 : ℝ) ^ (53 + e) = 2 ^ 53 * 2 ^ e := by rw [two_add]; norm_num
    have p3 : (2 : ℝ) ^ (3 + e) = 2 ^ 3 * 2 ^ e := by rw [two_add]; norm_num
    have hp := two_pos e
    have t1 := abs_add_le xe ye
    have t2 : |y| ≤ |x + y| + |x| := by
      have := abs_sub (x + y) x
      rwa [add_sub_cancel_left] at this
    rw [p53] at l
    by_cases hS : |x + y| ≤ 2 ^ 54 * 2 ^ e
    · have b : |t| ≤ (2 : ℝ) ^ (3 + e) := by
        refine near_abs_le ht (isDouble_two (by omega)) ?_
        rw [p3]
        norm_num at *
        linarith
      obtain ⟨h, hh, gt, lt, hn⟩ := double_normal ht.1
      refine ⟨h, hh, (g.add (g'.mono hef)).mono ?_, gt, lt⟩
      rcases hn with h1 | h1
      · omega
      · by_contra h2
        have := (two_le (e := 4 + e) (f := 52 + h) (by omega)).trans (h1.trans b)
        rw [p3, two_add] at this
        norm_num at this
        linarith
    · push Not at hS
      have r := (near_rel (dxe.grid.add dye.grid) ht).1
      have t3 : |t| ≤ |xe + ye| + |xe + ye - t| := by
        have := abs_sub (xe + ye) (xe + ye - t)
        rwa [sub_sub_cancel] at this
      refine ordered_of_le hd ht.1 ?_
      norm_num at *
      linarith
  obtain ⟨e, he, g, l, -⟩ := double_normal hx
  obtain ⟨f, hf, g', l', -⟩ := double_normal hy
  rcases le_total e f with h | h
  · exact key hxe hye hd ht dxe dye he g l g' h
  · rw [add_comm] at hd ht ⊢
    exact key hye hxe hd ht dye dxe hf g' l' g h

/-- The addition of pairs. -/
theorem add_add_core {x xe y ye s t c v w : ℝ} (hx : IsDouble x) (hxe : IsDouble xe) (hy : IsDouble y) (hye : IsDouble ye)
    (bx : |xe| ≤ |x| / 2 ^ 53) (by_ : |ye| ≤ |y| / 2 ^ 53)
    (hs : Nearest (x + y) s) (ht : Nearest (xe + ye) t) (hc : Nearest (x + y - s + t) c) (hv : Nearest (s + c) v)
    (hw : Nearest (xe + ye - t + (s + c - v)) w) :
    Ordered s c ∧ Ordered v w ∧ |v + w - (x + xe + (y + ye))| ≤ 6 * (1 / 2 ^ 53) ^ 2 * |x + xe + (y + ye)| := by
  have rt := near_rel (hxe.grid.add hye.grid) ht
  have de := add_error hxe hye ht
  by_cases hd : IsDouble (x + y)
  · have h1 := near_exact hd hs
    subst h1
    rw [sub_self, zero_add] at hc
    have h2 := near_exact ht.1 hc
    subst h2
    rw [add_comm (xe + ye - c)] at hw
    obtain ⟨o, b⟩ := add_core hd ht.1 de rt.2 hv hw
    refine ⟨ordered_add hx hy bx by_ hd ht hxe hye, o, ?_⟩
    have e1 : x + y + c + (xe + ye - c) = x + xe + (y + ye) := by ring
    rw [e1] at b
    refine b.trans ?_
    have := abs_nonneg (x + xe + (y + ye))
    norm_num
    linarith
  · have b := (inexact_bound hx hy hd).1
    have r1 := (near_rel (hx.grid.add hy.grid) hs).1
    have r2 := (near_rel ((add_error hx hy hs).grid.add ht.1.grid) hc).1
    have r3 := (near_rel (hs.1.grid.add hc.1.grid) hv).1
    have r4 := (near_rel (de.grid.add (add_error hs.1 hc.1 hv).grid) hw).1
    have rt1 := rt.1
    have t1 := abs_add_le xe ye
    have t2 : |t| ≤ |xe + ye| + |xe + ye - t| := by
      have := abs_sub (xe + ye) (xe + ye - t)
      rwa [sub_sub_cancel] at this
    have t3 := abs_add_le (x + y - s) t
    have t4 : |c| ≤ |x + y - s + t| + |x + y - s + t - c| := by
      have := abs_sub (x + y - s + t) (x + y - s + t - c)
      rwa [sub_sub_cancel] at this
    have t5 : |x + y| ≤ |x + y - s| + |s| := by
      have := abs_add_le (x + y - s) s
      rwa [sub_add_cancel] at this
    have t5' : |s| ≤ |x + y| + |x + y - s| := by
      have := abs_sub (x + y) (x + y - s)
      rwa [sub_sub_cancel] at this
    have t6 := abs_add_le s c
    have t6' : |s| ≤ |s + c| + |c| := by
      have := abs_sub (s + c) c
      rwa [add_sub_cancel_right] at this
    have t7 : |s + c| ≤ |s + c - v| + |v| := by
      have := abs_add_le (s + c - v) v
      rwa [sub_add_cancel] at this
    have t8 := abs_add_le (xe + ye - t) (s + c - v)
    have t9 : |w| ≤ |xe + ye - t + (s + c - v)| + |xe + ye - t + (s + c - v) - w| := by
      have := abs_sub (xe + ye - t + (s + c - v)) (xe + ye - t + (s + c - v) - w)
      rwa [sub_sub_cancel] at this
    have t10 : |x + y| ≤ |x + xe + (y + ye)| + |xe + ye| := by
      have := abs_sub (x + xe + (y + ye)) (xe + ye)
      rwa [show x + xe + (y + ye) - (xe + ye) = x + y by ring] at this
    have e1 : v + w - (x + xe + (y + ye)) = -(x + y - s + t - c) - (xe + ye - t + (s + c - v) - w) := by ring
    have t11 : |v + w - (x + xe + (y + ye))| ≤ |x + y - s + t - c| + |xe + ye - t + (s + c - v) - w| := by
      rw [e1]
      have := abs_sub (-(x + y - s + t - c)) (xe + ye - t + (s + c - v) - w)
      rwa [abs_neg] at this
    have p := abs_nonneg (x + y)
    generalize |v + w - (x + xe + (y + ye))| = Z at *
    generalize |x + xe + (y + ye)| = E at *
    generalize |xe + ye - t + (s + c - v) - w| = a1 at *
    generalize |xe + ye - t + (s + c - v)| = a2 at *
    generalize |x + y - s + t - c| = a3 at *
    generalize |x + y - s + t| = a4 at *
    generalize |xe + ye - t| = a5 at *
    generalize |s + c - v| = a6 at *
    generalize |x + y - s| = a7 at *
    generalize |xe + ye| = a8 at *
    generalize |s + c| = a9 at *
    generalize |x + y| = S at *
    refine ⟨ordered_of_le hs.1 hc.1 ?_, ordered_of_le hv.1 hw.1 ?_, ?_⟩ <;> norm_num at * <;> linarith

theorem tiny {P : ℝ} (h : (2 : ℝ) ^ (-969 : ℤ) ≤ P) : (2 : ℝ) ^ (-1075 : ℤ) ≤ P / 2 ^ 106 := by
  rw [show (-1075 : ℤ) = -106 + -969 by norm_num, two_add, le_div_iff₀ (by positivity)]
  have e1 : (2 : ℝ) ^ (-106 : ℤ) * 2 ^ (-969 : ℤ) * 2 ^ 106 = 2 ^ (-969 : ℤ) := by
    rw [mul_comm, ← mul_assoc]
    have : (2 : ℝ) ^ 106 * 2 ^ (-106 : ℤ) = 1 := by rw [zpow_neg]; norm_num
    rw [this, one_mul]
  rw [e1]
  exact h

/-- The product of a double and a pair. -/
theorem mul_core {x y e z m err : ℝ} (hx : IsDouble x) (hy : IsDouble y) (he : IsDouble e) (b : |e| ≤ |y| / 2 ^ 53)
    (hu : (2 : ℝ) ^ (-969 : ℤ) ≤ |x * y|) (hz : Nearest (x * y) z) (hm : Nearest (x * e) m) (herr : Nearest (x * y - z + m) err) :
    Ordered z err ∧ |z + err - x * (y + e)| ≤ 5 * (1 / 2 ^ 53) ^ 2 * |x * (y + e)| := by
  have g := grid_of_large_product hx hy hu
  have r1 := (near_rel g hz).1
  have r2 := near_abs hm
  have r3 := (near_rel ((mul_error hx hy g hz).grid.add hm.1.grid) herr).1
  have ht := tiny hu
  have b1 : |x * e| ≤ |x * y| / 2 ^ 53 := by
    rw [abs_mul, abs_mul, mul_div_assoc]
    exact mul_le_mul_of_nonneg_left b (abs_nonneg _)
  have t1 := abs_add_le (x * y - z) m
  have t2 : |m| ≤ |x * e| + |x * e - m| := by
    have := abs_sub (x * e) (x * e - m)
    rwa [sub_sub_cancel] at this
  have t3 : |err| ≤ |x * y - z + m| + |x * y - z + m - err| := by
    have := abs_sub (x * y - z + m) (x * y - z + m - err)
    rwa [sub_sub_cancel] at this
  have t4 : |x * y| ≤ |x * y - z| + |z| := by
    have := abs_add_le (x * y - z) z
    rwa [sub_add_cancel] at this
  have t5 : |x * y| ≤ |x * (y + e)| + |x * e| := by
    have := abs_sub (x * (y + e)) (x * e)
    rwa [show x * (y + e) - x * e = x * y by ring] at this
  have e1 : z + err - x * (y + e) = -(x * y - z + m - err) - (x * e - m) := by ring
  have t6 : |z + err - x * (y + e)| ≤ |x * y - z + m - err| + |x * e - m| := by
    rw [e1]
    have := abs_sub (-(x * y - z + m - err)) (x * e - m)
    rwa [abs_neg] at this
  have p := abs_nonneg (x * y)
  generalize |z + err - x * (y + e)| = Z at *
  generalize |x * (y + e)| = E at *
  generalize |x * y - z + m - err| = a1 at *
  generalize |x * y - z + m| = a2 at *
  generalize |x * e - m| = a3 at *
  generalize |x * e| = a4 at *
  generalize |x * y - z| = a5 at *
  generalize |x * y| = P at *
  generalize (2 : ℝ) ^ (-1075 : ℤ) = τ at *
  clear hu
  refine ⟨ordered_of_le hz.1 herr.1 ?_, ?_⟩ <;> norm_num at * <;> linarith

/-- The product of pairs. -/
theorem mul_mul_core {x xe y ye z a m n k err : ℝ} (hx : IsDouble x) (hxe : IsDouble xe) (hy : IsDouble y) (hye : IsDouble ye)
    (bx : |xe| ≤ |x| / 2 ^ 53) (by_ : |ye| ≤ |y| / 2 ^ 53) (hu : (2 : ℝ) ^ (-969 : ℤ) ≤ |x * y|) (hz : Nearest (x * y) z)
    (ha : Nearest (x + xe) a) (hm : Nearest (a * ye) m) (hn : Nearest (xe * y) n) (hk : Nearest (m + n) k) (herr : Nearest (x * y - z + k) err) :
    Ordered z err ∧ |z + err - (x + xe) * (y + ye)| ≤ 11 * (1 / 2 ^ 53) ^ 2 * |(x + xe) * (y + ye)| := by
  have g := grid_of_large_product hx hy hu
  have r1 := (near_rel g hz).1
  have ra := (near_rel (hx.grid.add hxe.grid) ha).1
  have rm := near_abs hm
  have rn := near_abs hn
  have rk := (near_rel (hm.1.grid.add hn.1.grid) hk).1
  have re := (near_rel ((mul_error hx hy g hz).grid.add hk.1.grid) herr).1
  have ht := tiny hu
  have px := abs_nonneg x
  have py := abs_nonneg y
  have ta : |x + xe| ≤ |x| * (1 + 1 / 2 ^ 53) := by
    have := abs_add_le x xe
    linarith
  have ba : |x + xe - a| ≤ |x| * ((1 + 1 / 2 ^ 53) / 2 ^ 53) := by
    refine ra.trans ?_
    norm_num at ta ⊢
    linarith
  have ba' : |a| ≤ |x| * (1 + 3 / 2 ^ 53) := by
    have := abs_sub (x + xe) (x + xe - a)
    rw [sub_sub_cancel] at this
    norm_num at ta ba this ⊢
    linarith
  have by' : |ye| ≤ |y| * (1 / 2 ^ 53) := by
    refine by_.trans (le_of_eq ?_)
    ring
  have bx' : |xe| ≤ |x| * (1 / 2 ^ 53) := by
    refine bx.trans (le_of_eq ?_)
    ring
  have c1 : |a * ye| ≤ |x * y| * ((1 + 3 / 2 ^ 53) * (1 / 2 ^ 53)) := by
    refine (abs_mul_le ba' by').trans (le_of_eq ?_)
    rw [abs_mul]; ring
  have c2 : |xe * y| ≤ |x * y| * (1 / 2 ^ 53) := by
    refine (abs_mul_le bx' (le_refl |y|)).trans (le_of_eq ?_)
    rw [abs_mul]; ring
  have c3 : |(x + xe - a) * ye| ≤ |x * y| * ((1 + 1 / 2 ^ 53) / 2 ^ 53 * (1 / 2 ^ 53)) := by
    refine (abs_mul_le ba by').trans (le_of_eq ?_)
    rw [abs_mul]; ring
  have c4 : |xe * ye| ≤ |x * y| * (1 / 2 ^ 53 * (1 / 2 ^ 53)) := by
    refine (abs_mul_le bx' by').trans (le_of_eq ?_)
    rw [abs_mul]; ring
  have c5 : |x * ye| ≤ |x * y| * (1 / 2 ^ 53) := by
    refine (abs_mul_le (le_refl |x|) by').trans (le_of_eq ?_)
    rw [abs_mul]; ring
  have t1 := abs_add_le (x * y - z) k
  have t2 : |m| ≤ |a * ye| + |a * ye - m| := by
    have := abs_sub (a * ye) (a * ye - m)
    rwa [sub_sub_cancel] at this
  have t2' : |n| ≤ |xe * y| + |xe * y - n| := by
    have := abs_sub (xe * y) (xe * y - n)
    rwa [sub_sub_cancel] at this
  have tmn := abs_add_le m n
  have t2'' : |k| ≤ |m + n| + |m + n - k| := by
    have := abs_sub (m + n) (m + n - k)
    rwa [sub_sub_cancel] at this
  have t3 : |err| ≤ |x * y - z + k| + |x * y - z + k - err| := by
    have := abs_sub (x * y - z + k) (x * y - z + k - err)
    rwa [sub_sub_cancel] at this
  have t4 : |x * y| ≤ |x * y - z| + |z| := by
    have := abs_add_le (x * y - z) z
    rwa [sub_add_cancel] at this
  have t5 : |x * y| ≤ |(x + xe) * (y + ye)| + |xe * y| + |x * ye| + |xe * ye| := by
    have e0 : x * y = (x + xe) * (y + ye) - xe * y - x * ye - xe * ye := by ring
    have s1 := abs_sub ((x + xe) * (y + ye) - xe * y - x * ye) (xe * ye)
    have s2 := abs_sub ((x + xe) * (y + ye) - xe * y) (x * ye)
    have s3 := abs_sub ((x + xe) * (y + ye)) (xe * y)
    rw [← e0] at s1
    linarith
  have e1 : z + err - (x + xe) * (y + ye) = -(x * y - z + k - err) - (m + n - k) - (xe * y - n) - (a * ye - m) - (x + xe - a) * ye := by ring
  have t6 : |z + err - (x + xe) * (y + ye)| ≤ |x * y - z + k - err| + |m + n - k| + |xe * y - n| + |a * ye - m| + |(x + xe - a) * ye| := by
    have s1 := abs_sub (-(x * y - z + k - err) - (m + n - k) - (xe * y - n) - (a * ye - m)) ((x + xe - a) * ye)
    have s2 := abs_sub (-(x * y - z + k - err) - (m + n - k) - (xe * y - n)) (a * ye - m)
    have s3 := abs_sub (-(x * y - z + k - err) - (m + n - k)) (xe * y - n)
    have s4 := abs_sub (-(x * y - z + k - err)) (m + n - k)
    rw [abs_neg] at s4
    rw [← e1] at s1
    linarith
  have p := abs_nonneg (x * y)
  generalize |z + err - (x + xe) * (y + ye)| = Z at *
  generalize |(x + xe) * (y + ye)| = E at *
  generalize |x * y - z + k - err| = a1 at *
  generalize |x * y - z + k| = a2 at *
  generalize |xe * y - n| = a3 at *
  generalize |a * ye - m| = a4 at *
  generalize |(x + xe - a) * ye| = a5 at *
  generalize |x * y - z| = a6 at *
  generalize |m + n - k| = a7 at *
  generalize |m + n| = a8 at *
  generalize |xe * y| = a9 at *
  generalize |x * ye| = a10 at *
  generalize |xe * ye| = a11 at *
  generalize |a * ye| = a12 at *
  generalize |x * y| = P at *
  generalize (2 : ℝ) ^ (-1075 : ℤ) = τ at *
  clear hu ra ta ba ba' by' bx' bx by_
  refine ⟨ordered_of_le hz.1 herr.1 ?_, ?_⟩ <;> norm_num at * <;> linarith

end Principia.Numerics.DoublePrecisions
