import Verif.Numerics.DoublePrecisionProps

/-!
C79: the division in double precision.
-/

set_option linter.unusedVariables false
set_option linter.unusedSimpArgs false

namespace Principia.Numerics.DoublePrecisions

theorem tri_of_diff (x y : ℝ) : |y| ≤ |x| + |x - y| := by
  have := abs_sub x (x - y)
  rwa [sub_sub_cancel] at this

theorem tri_of_diff' (x y : ℝ) : |x| ≤ |y| + |x - y| := by
  have := abs_add_le y (x - y)
  rwa [add_sub_cancel] at this

/-- The division. -/
theorem div_core {a ae b be z p q1 q2 q3 m q4 d w : ℝ} (ha : IsDouble a) (hae : IsDouble ae) (hb : IsDouble b) (hbe : IsDouble be)
    (ba : |ae| ≤ |a| / 2 ^ 53) (bb : |be| ≤ |b| / 2 ^ 53) (hb0 : b ≠ 0) (hu : (2 : ℝ) ^ (-968 : ℤ) ≤ |a|) (hu' : (2 : ℝ) ^ (-968 : ℤ) ≤ |a / b|)
    (hz : Nearest (a / b) z) (hp : Nearest (b * z) p) (h1 : Nearest (a - p) q1) (h2 : Nearest (q1 - (b * z - p)) q2) (h3 : Nearest (q2 + ae) q3)
    (hm : Nearest (z * be) m) (h4 : Nearest (q3 - m) q4) (hd : Nearest (b + be) d) (hw : Nearest (q4 / d) w) :
    (2 : ℝ) ^ (-1022 : ℤ) ≤ |z| ∧ (2 : ℝ) ^ (-969 : ℤ) ≤ |b * z| ∧ Ordered z w ∧
      |z + w - (a + ae) / (b + be)| ≤ 19 * (1 / 2 ^ 53) ^ 2 * |(a + ae) / (b + be)| := by
  have pa := abs_nonneg a
  have pb := abs_pos.2 hb0
  have e969 : (2 : ℝ) ^ (-968 : ℤ) = 2 * 2 ^ (-969 : ℤ) := by
    rw [show (-968 : ℤ) = 1 + -969 by norm_num, two_add]
    norm_num
  have p969 := two_pos (-969)
  have hτ := tiny (P := |a / b|) (by rw [e969] at hu'; linarith)
  have hτa := tiny (P := |a|) (by rw [e969] at hu; linarith)
  have hz0 : (2 : ℝ) ^ (-968 : ℤ) ≤ |z| := near_abs_ge hz (isDouble_two (by norm_num)) hu'
  have eab : |b| * |a / b| = |a| := by rw [← abs_mul, mul_div_cancel₀ _ hb0]
  have bτ : |b| * (2 : ℝ) ^ (-1075 : ℤ) ≤ |a| / 2 ^ 106 := by
    refine (mul_le_mul_of_nonneg_left hτ pb.le).trans (le_of_eq ?_)
    rw [← mul_div_assoc, eab]
  have rz : |a - b * z| ≤ |a| / 2 ^ 53 + |b| * 2 ^ (-1075 : ℤ) := by
    have e1 : |a - b * z| = |b| * |a / b - z| := by rw [← abs_mul, mul_sub, mul_div_cancel₀ _ hb0]
    rw [e1]
    refine (mul_le_mul_of_nonneg_left (near_abs hz) pb.le).trans (le_of_eq ?_)
    rw [mul_add, ← mul_div_assoc, eab]
  have c1 := tri_of_diff a (b * z)
  have c1' := tri_of_diff' a (b * z)
  have hbz : (2 : ℝ) ^ (-969 : ℤ) ≤ |b * z| := by
    rw [e969] at hu
    norm_num at bτ rz
    norm_num
    rw [abs_mul] at c1'
    norm_num at hu
    linarith
  have rp := (near_rel (grid_of_large_product hb hz.1 hbz) hp).1
  have dpe := mul_error hb hz.1 (grid_of_large_product hb hz.1 hbz) hp
  have r1 := (near_rel (ha.grid.sub hp.1.grid) h1).1
  have r2 := (near_rel (h1.1.grid.sub dpe.grid) h2).1
  have r3 := (near_rel (h2.1.grid.add hae.grid) h3).1
  have rm := near_abs hm
  have r4 := (near_rel (h3.1.grid.sub hm.1.grid) h4).1
  have rd := near_rel (hb.grid.add hbe.grid) hd
  have bm : |z * be| ≤ |b * z| / 2 ^ 53 := by
    rw [abs_mul, abs_mul, mul_comm |b|, mul_div_assoc]
    exact mul_le_mul_of_nonneg_left bb (abs_nonneg z)
  -- The sizes.
  have s1 : |a - p| ≤ |a - b * z| + |b * z - p| := by
    have := abs_add_le (a - b * z) (b * z - p)
    rwa [sub_add_sub_cancel] at this
  have s2 : |q1 - (b * z - p)| ≤ |a - b * z| + |a - p - q1| := by
    have := abs_sub (a - b * z) (a - p - q1)
    rwa [show a - b * z - (a - p - q1) = q1 - (b * z - p) by ring] at this
  have s2' := tri_of_diff (q1 - (b * z - p)) q2
  have s3 := abs_add_le q2 ae
  have s3' := tri_of_diff (q2 + ae) q3
  have s4 := abs_sub q3 m
  have s4' := tri_of_diff (q3 - m) q4
  have sm := tri_of_diff (z * be) m
  have sd := abs_add_le b be
  have sd' := tri_of_diff (b + be) d
  have sd'' := tri_of_diff' (b + be) d
  have sb : |b| ≤ |b + be| + |be| := by
    have := abs_sub (b + be) be
    rwa [add_sub_cancel_right] at this
  have rd1 := rd.1
  have rd2 := rd.2
  have dlow : |b| / 2 ≤ |d| := by
    generalize |b + be - d| = x1 at *
    generalize |b + be| = x2 at *
    clear bm bτ rz c1 c1' hbz rp r1 r2 r3 rm r4 s1 s2 s2' s3 s3' s4 s4' sm hτ hτa hz0 hu hu' eab e969 p969
    norm_num at *
    linarith
  have dhigh : |d| ≤ 2 * |b| := by
    generalize |b + be - d| = x1 at *
    generalize |b + be| = x2 at *
    clear bm bτ rz c1 c1' hbz rp r1 r2 r3 rm r4 s1 s2 s2' s3 s3' s4 s4' sm hτ hτa hz0 hu hu' eab e969 p969
    norm_num at *
    linarith
  have hd0 : d ≠ 0 := by
    rw [← abs_pos]
    linarith
  have B0 : b + be ≠ 0 := by
    rw [← abs_pos]
    norm_num at bb sb
    linarith
  have pd := abs_pos.2 hd0
  have dτ : |d| * (2 : ℝ) ^ (-1075 : ℤ) ≤ 2 * (|a| / 2 ^ 106) := by
    have := mul_le_mul_of_nonneg_right dhigh (two_pos (-1075)).le
    linarith
  have rw_ : |q4 - w * d| ≤ |q4| / 2 ^ 53 + |d| * 2 ^ (-1075 : ℤ) := by
    have e1 : |q4 - w * d| = |d| * |q4 / d - w| := by rw [← abs_mul, mul_sub, mul_div_cancel₀ _ hd0, mul_comm w]
    rw [e1]
    refine (mul_le_mul_of_nonneg_left (near_abs hw) pd.le).trans (le_of_eq ?_)
    rw [mul_add, ← mul_div_assoc, ← abs_mul, mul_div_cancel₀ _ hd0]
  have sw := tri_of_diff q4 (w * d)
  have bw : |w * (b + be - d)| ≤ |w * d| / 2 ^ 53 := by
    rw [abs_mul, abs_mul, mul_div_assoc]
    exact mul_le_mul_of_nonneg_left rd2 (abs_nonneg w)
  have total : |(z + w) * (b + be) - (a + ae)| ≤ |a - p - q1| + |q1 - (b * z - p) - q2| + |q2 + ae - q3| + |z * be - m| + |q3 - m - q4| + |q4 - w * d| + |w * (b + be - d)| := by
    have e1 : (z + w) * (b + be) - (a + ae) =
        -(a - p - q1) - (q1 - (b * z - p) - q2) - (q2 + ae - q3) + (z * be - m) - (q3 - m - q4) - (q4 - w * d) + w * (b + be - d) := by ring
    rw [e1]
    have i1 := abs_add_le (-(a - p - q1) - (q1 - (b * z - p) - q2) - (q2 + ae - q3) + (z * be - m) - (q3 - m - q4) - (q4 - w * d)) (w * (b + be - d))
    have i2 := abs_sub (-(a - p - q1) - (q1 - (b * z - p) - q2) - (q2 + ae - q3) + (z * be - m) - (q3 - m - q4)) (q4 - w * d)
    have i3 := abs_sub (-(a - p - q1) - (q1 - (b * z - p) - q2) - (q2 + ae - q3) + (z * be - m)) (q3 - m - q4)
    have i4 := abs_add_le (-(a - p - q1) - (q1 - (b * z - p) - q2) - (q2 + ae - q3)) (z * be - m)
    have i5 := abs_sub (-(a - p - q1) - (q1 - (b * z - p) - q2)) (q2 + ae - q3)
    have i6 := abs_sub (-(a - p - q1)) (q1 - (b * z - p) - q2)
    rw [abs_neg] at i6
    linarith
  have sa := abs_sub (a + ae) ae
  rw [add_sub_cancel_right] at sa
  have zd : |a| / 4 ≤ |z * d| := by
    have h5 : |z| * (|b| / 2) ≤ |z| * |d| := mul_le_mul_of_nonneg_left dlow (abs_nonneg z)
    have h6 : |b * z| = |z| * |b| := by rw [abs_mul, mul_comm]
    rw [abs_mul z d]
    have h7 : |a| / 2 ≤ |b * z| := by
      generalize |b * z| = x1 at *
      clear bm dτ rw_ sw bw total hτ hτa
      norm_num at *
      linarith
    linarith
  have key : |w * d| ≤ |z * d| ∧ |(z + w) * (b + be) - (a + ae)| ≤ 19 * (1 / 2 ^ 53) ^ 2 * |a + ae| := by
    generalize |(z + w) * (b + be) - (a + ae)| = x1 at *
    generalize |w * (b + be - d)| = x2 at *
    generalize |q4 - w * d| = x3 at *
    generalize |q3 - m - q4| = x4 at *
    generalize |z * be - m| = x5 at *
    generalize |q2 + ae - q3| = x6 at *
    generalize |q1 - (b * z - p) - q2| = x7 at *
    generalize |a - p - q1| = x8 at *
    generalize |w * d| = x9 at *
    generalize |z * d| = x10 at *
    generalize |a + ae| = x11 at *
    generalize |q3 - m| = x12 at *
    generalize |q2 + ae| = x13 at *
    generalize |q1 - (b * z - p)| = x14 at *
    generalize |z * be| = x15 at *
    generalize |b * z - p| = x16 at *
    generalize |a - b * z| = x17 at *
    generalize |a - p| = x18 at *
    generalize |b * z| = x19 at *
    generalize |b| * (2 : ℝ) ^ (-1075 : ℤ) = x20 at *
    generalize |d| * (2 : ℝ) ^ (-1075 : ℤ) = x21 at *
    generalize (2 : ℝ) ^ (-1075 : ℤ) = τ at *
    generalize |a| = A at *
    clear hτ hz0 hu hu' eab e969 p969 hbz rd rd1 rd2 sd sd' sd'' sb dlow dhigh pb pd bb
    constructor <;> norm_num at * <;> linarith
  refine ⟨(two_le (by norm_num)).trans hz0, hbz, ordered_of_le hz.1 hw.1 ?_, ?_⟩
  · have := key.1
    rw [abs_mul, abs_mul] at this
    exact le_of_mul_le_mul_right this pd
  · have e1 : z + w - (a + ae) / (b + be) = ((z + w) * (b + be) - (a + ae)) / (b + be) := by
      field_simp
    rw [e1, abs_div, abs_div, ← mul_div_assoc]
    exact div_le_div_of_nonneg_right key.2 (abs_nonneg _)

namespace DoublePrecision

variable (R : Rounding)

/-- **C79**: the quotient of numbers in double precision. -/
theorem C79_div (fma : Bool) {a b : DoublePrecision} (ha : a.Small) (hb : b.Small) (hu : NoUnderflowInQuotient a.value b.value) :
    divChecks R fma a b ∧ (div R fma a b).Represents R 19 (a.exact / b.exact) := by
  obtain ⟨hu1, hu2, hu3⟩ := hu
  have hb0 : b.value ≠ 0 := abs_pos.1 ((two_pos (-1022)).trans_le hu1)
  obtain ⟨n1, n2, o, e⟩ := div_core ha.1 ha.2.1 hb.1 hb.2.1 ha.2.2 hb.2.2 hb0 hu2 hu3 (R.nearest _) (R.nearest _) (R.nearest _) (R.nearest _) (R.nearest _) (R.nearest _)
    (R.nearest _) (R.nearest _) (R.nearest _)
  have ep := two_product R fma hb.1 (R.nearest (a.value / b.value)).1 ⟨hu1, n1, n2⟩
  obtain ⟨e', n⟩ := finish R (R.nearest _).1 (R.nearest _).1 o
  rw [← e'] at e
  simp only [divChecks, div, Rounding.div, ep]
  exact ⟨properly_of_ordered o, e, n⟩

/-- **C79**: the quotient of a double by a number in double precision. -/
theorem C79_div_left (fma : Bool) {a : ℝ} {b : DoublePrecision} (ha : IsDouble a) (hb : b.Small) (hu : NoUnderflowInQuotient a b.value) :
    divLeftChecks R fma a b ∧ (divLeft R fma a b).Represents R 19 (a / b.exact) := by
  obtain ⟨hu1, hu2, hu3⟩ := hu
  have hb0 : b.value ≠ 0 := abs_pos.1 ((two_pos (-1022)).trans_le hu1)
  have h3 : ∀ q : ℝ, IsDouble q → Nearest (q + 0) q := fun q hq => by rw [add_zero]; exact near_self hq
  obtain ⟨n1, n2, o, e⟩ := div_core ha isDouble_zero hb.1 hb.2.1 (by rw [abs_zero]; positivity) hb.2.2 hb0 hu2 hu3 (R.nearest _) (R.nearest _) (R.nearest _) (R.nearest _)
    (h3 _ (R.nearest _).1) (R.nearest _) (R.nearest _) (R.nearest _) (R.nearest _)
  have ep := two_product R fma hb.1 (R.nearest (a / b.value)).1 ⟨hu1, n1, n2⟩
  obtain ⟨e', n⟩ := finish R (R.nearest _).1 (R.nearest _).1 o
  rw [← e', add_zero] at e
  simp only [divLeftChecks, divLeft, Rounding.div, ep]
  exact ⟨properly_of_ordered o, e, n⟩

/-- **C79**: the quotient of a number in double precision by a double. -/
theorem C79_div_right (fma : Bool) {a : DoublePrecision} {b : ℝ} (ha : a.Small) (hb : IsDouble b) (hu : NoUnderflowInQuotient a.value b) :
    divRightChecks R fma a b ∧ (divRight R fma a b).Represents R 19 (a.exact / b) := by
  obtain ⟨hu1, hu2, hu3⟩ := hu
  have hb0 : b ≠ 0 := abs_pos.1 ((two_pos (-1022)).trans_le hu1)
  have h3 : ∀ q : ℝ, IsDouble q → Nearest (q + 0) q := fun q hq => by rw [add_zero]; exact near_self hq
  have h4 : ∀ q : ℝ, IsDouble q → Nearest (q - 0) q := fun q hq => by rw [sub_zero]; exact near_self hq
  have h5 : ∀ q : ℝ, Nearest (q * 0) 0 := fun q => by rw [mul_zero]; exact near_self isDouble_zero
  obtain ⟨n1, n2, o, e⟩ := div_core ha.1 ha.2.1 hb isDouble_zero ha.2.2 (by rw [abs_zero]; positivity) hb0 hu2 hu3 (R.nearest _) (R.nearest _) (R.nearest _) (R.nearest _)
    (R.nearest _) (h5 _) (h4 _ (R.nearest _).1) (h3 _ hb) (R.nearest _)
  have ep := two_product R fma hb (R.nearest (a.value / b)).1 ⟨hu1, n1, n2⟩
  obtain ⟨e', n⟩ := finish R (R.nearest _).1 (R.nearest _).1 o
  rw [← e', add_zero] at e
  simp only [divRightChecks, divRight, Rounding.div, ep]
  exact ⟨properly_of_ordered o, e, n⟩

example (fma : Bool) : (div R fma ⟨3, 0⟩ fiveHalves).Represents R 19 ((3 + 0) / fiveHalves.exact) := by
  refine (C79_div R fma (a := ⟨3, 0⟩) ⟨isDouble_three, isDouble_zero, by norm_num⟩ fiveHalves_small ⟨?_, ?_, ?_⟩).2
  all_goals
    refine (two_le (f := 0) (by norm_num)).trans ?_
    simp only [fiveHalves]
    norm_num [abs_of_pos]

example (fma : Bool) : (divRight R fma fiveHalves 3).Represents R 19 (fiveHalves.exact / 3) := by
  refine (C79_div_right R fma fiveHalves_small isDouble_three ⟨?_, ?_, ?_⟩).2
  all_goals
    refine (two_le (f := -1) (by norm_num)).trans ?_
    try simp only [fiveHalves]
    norm_num [abs_of_pos]

end DoublePrecision

end Principia.Numerics.DoublePrecisions
