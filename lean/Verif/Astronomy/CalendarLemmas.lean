import Mathlib.Tactic.FieldSimp
import Mathlib.Tactic.Ring
import Mathlib.Tactic.IntervalCases
import Mathlib.Tactic.Positivity
import Mathlib.Tactic.Push
import Verif.Astronomy.CalendarModel

/-!
# Arithmetic facts about the calendar model: rounding never matters
-/

set_option linter.unusedSimpArgs false
set_option linter.unusedVariables false

namespace Principia.Calendar

theorem trunc_int (n : ℤ) : trunc n = n := by
  unfold trunc; split <;> simp

theorem trunc_neg (x : ℚ) : trunc (-x) = -trunc x := by
  unfold trunc
  rcases lt_trichotomy x 0 with h | h | h
  · rw [if_pos (by linarith), if_neg (by linarith), Int.floor_neg]
  · subst h; simp
  · rw [if_neg (by linarith), if_pos h.le, Int.ceil_neg]

theorem trunc_eq_of {x : ℚ} {n : ℤ} (h0 : 0 ≤ n) (h1 : (n : ℚ) ≤ x) (h2 : x < n + 1) : trunc x = n := by
  unfold trunc
  have : (0 : ℚ) ≤ n := by exact_mod_cast h0
  rw [if_pos (by linarith), Int.floor_eq_iff]
  exact ⟨h1, h2⟩

/-- A number less than 1/b away from a fraction of denominator b has the same integer part, unless that fraction is an
integer. -/
theorem trunc_near {x : ℚ} {a b : ℤ} (hb : 0 < b) (hd : a % b ≠ 0) (hx : |x - a / b| < 1 / b) :
    trunc x = a.tdiv b := by
  have key : ∀ {x : ℚ} {a : ℤ}, 0 ≤ a → a % b ≠ 0 → |x - a / b| < 1 / b → trunc x = a.tdiv b := by
    intro x a ha hd hx
    rw [Int.tdiv_eq_ediv_of_nonneg ha]
    have hbq : (0 : ℚ) < b := by exact_mod_cast hb
    have e := Int.emod_add_mul_ediv a b
    have m0 := Int.emod_nonneg a hb.ne'
    have m1 := Int.emod_lt_of_pos a hb
    obtain ⟨l, u⟩ := abs_lt.1 hx
    have e' : (a : ℚ) = (a % b : ℤ) + b * (a / b : ℤ) := by exact_mod_cast e.symm
    have e'' : (a : ℚ) / b = (a % b : ℤ) / b + (a / b : ℤ) := by
      rw [e']; field_simp
    have hm0 : (1 : ℚ) / b ≤ (a % b : ℤ) / b := by
      apply div_le_div_of_nonneg_right _ hbq.le
      exact_mod_cast (by omega : 1 ≤ a % b)
    have hm1 : ((a % b : ℤ) : ℚ) / b ≤ 1 - 1 / b := by
      rw [div_le_iff₀ hbq]
      have : (1 - 1 / (b : ℚ)) * b = b - 1 := by field_simp
      rw [this]
      exact_mod_cast (by omega : a % b ≤ b - 1)
    refine trunc_eq_of (Int.ediv_nonneg ha hb.le) ?_ ?_ <;> linarith
  rcases le_or_gt 0 a with ha | ha
  · exact key ha hd hx
  · have h := key (x := -x) (a := -a) (by omega) (fun h => hd (Int.emod_eq_zero_of_dvd
      (Int.dvd_neg.1 (Int.dvd_of_emod_eq_zero h))))
      (by
        have : -x - ((-a : ℤ) : ℚ) / b = -(x - a / b) := by push_cast; ring
        rw [this, abs_neg]; exact hx)
    rw [trunc_neg, Int.neg_tdiv] at h
    omega

theorem trunc_ratio (a b : ℤ) (hb : 0 < b) : trunc ((a : ℚ) / b) = a.tdiv b := by
  have hbq : (0 : ℚ) < b := by exact_mod_cast hb
  by_cases hd : a % b = 0
  · obtain ⟨c, rfl⟩ := Int.dvd_of_emod_eq_zero hd
    have : ((b * c : ℤ) : ℚ) / b = (c : ℤ) := by push_cast; field_simp
    rw [this, trunc_int, Int.mul_tdiv_cancel_left _ hb.ne']
  · exact trunc_near hb hd (by rw [sub_self, abs_zero]; positivity)

namespace Fp
variable (R : Fp)

theorem fl_eq {x : ℚ} (n : ℤ) (h : x = n / 4) (hb : |n| ≤ 2 ^ 53) : R.fl x = x := by
  subst h; exact R.exact n hb

theorem fl_int (n : ℤ) (hb : |n| ≤ 2 ^ 51) : R.fl n = n :=
  R.fl_eq (4 * n) (by push_cast; ring) (by rw [abs_mul]; norm_num at *; omega)

theorem add_int (a b : ℤ) (h : |a + b| ≤ 2 ^ 51) : R.add a b = ((a + b : ℤ) : ℚ) := by
  unfold add; rw [← Int.cast_add]; exact R.fl_int _ h

theorem sub_int (a b : ℤ) (h : |a - b| ≤ 2 ^ 51) : R.sub a b = ((a - b : ℤ) : ℚ) := by
  unfold sub; rw [← Int.cast_sub]; exact R.fl_int _ h

/-- Sums and differences of an integer and a half integer. -/
theorem add_half (a b : ℤ) (h : |a + b| ≤ 2 ^ 50) : R.add (a - 1 / 2) b = ((a + b : ℤ) : ℚ) - 1 / 2 := by
  unfold add
  rw [show ((a : ℚ) - 1 / 2) + b = ((a + b : ℤ) : ℚ) - 1 / 2 by push_cast; ring]
  refine R.fl_eq (4 * (a + b) - 2) (by push_cast; ring) ?_
  have := abs_le.1 h
  exact abs_le.2 ⟨by omega, by omega⟩

/-- The rounding of a quotient of integers has the right integer part. -/
theorem trunc_div (a b : ℤ) (hb : 0 < b) (hb' : b < 2 ^ 18) (ha : |a| ≤ 2 ^ 51) (hq : |a| ≤ 2 ^ 33 * b) :
    trunc (R.fl ((a : ℚ) / b)) = a.tdiv b := by
  have hbq : (0 : ℚ) < b := by exact_mod_cast hb
  by_cases hd : a % b = 0
  · obtain ⟨c, rfl⟩ := Int.dvd_of_emod_eq_zero hd
    have : ((b * c : ℤ) : ℚ) / b = (c : ℤ) := by push_cast; field_simp
    rw [this, R.fl_int, trunc_int, Int.mul_tdiv_cancel_left _ hb.ne']
    rw [abs_mul, abs_of_pos hb] at hq
    have : |c| ≤ 2 ^ 33 := by
      by_contra hc
      push Not at hc
      nlinarith
    norm_num at *; omega
  · apply trunc_near hb hd
    have ha0 : a ≠ 0 := by rintro rfl; simp at hd
    have hb'' : (b : ℚ) < 2 ^ 18 := by exact_mod_cast hb'
    have e : |(a : ℚ) / b| = |(a : ℚ)| / b := by rw [abs_div, abs_of_pos hbq]
    have habs : (|(a : ℚ)|) ≤ 2 ^ 33 * b := by
      have : ((|a| : ℤ) : ℚ) ≤ ((2 ^ 33 * b : ℤ) : ℚ) := by exact_mod_cast hq
      push_cast at this; exact this
    have habs1 : (1 : ℚ) ≤ |(a : ℚ)| := by
      have : 1 ≤ |a| := Int.one_le_abs ha0
      exact_mod_cast this
    have hup : |(a : ℚ) / b| ≤ 2 ^ 33 := by
      rw [e, div_le_iff₀ hbq]; exact habs
    have hlo : 1 / 2 ^ 20 ≤ |(a : ℚ) / b| := by
      rw [e, div_le_div_iff₀ (by positivity) hbq]
      nlinarith
    refine lt_of_le_of_lt (R.close _ hlo (hup.trans (by norm_num))) ?_
    calc |(a : ℚ) / b| / 2 ^ 52 ≤ (2 ^ 33 / 2 ^ 52 : ℚ) := by
          apply div_le_div_of_nonneg_right hup (by positivity)
      _ < 1 / (b : ℚ) := by
          rw [div_lt_div_iff₀ (by positivity) hbq]
          nlinarith

/-- The literal 30.6001. -/
theorem fl_306001 : |R.fl 30.6001 - 30.6001| ≤ 1 / 2 ^ 47 := by
  refine (R.close _ ?_ ?_).trans ?_ <;> (rw [abs_of_nonneg (by norm_num)]; norm_num)

/-- The multiplication of a small integer by 30.6001. -/
theorem trunc_mul_306001 (E : ℤ) (h1 : 4 ≤ E) (h2 : E ≤ 15) :
    trunc (R.mul (R.fl 30.6001) E) = (306001 * E) / 10000 := by
  have h0 := abs_le.1 R.fl_306001
  have h1' : (4 : ℚ) ≤ E := by exact_mod_cast h1
  have h2' : (E : ℚ) ≤ 15 := by exact_mod_cast h2
  rw [← Int.tdiv_eq_ediv_of_nonneg (by omega)]
  apply trunc_near (by norm_num)
  · interval_cases E <;> decide
  · unfold mul
    set c := R.fl 30.6001
    have hc : (30 : ℚ) ≤ c ∧ c ≤ 31 := by constructor <;> norm_num at * <;> linarith
    have hp : 120 ≤ c * E ∧ c * E ≤ 465 := by constructor <;> nlinarith
    have hcl := R.close (c * E) (by rw [abs_of_nonneg (by linarith)]; norm_num; linarith)
      (by rw [abs_of_nonneg (by linarith)]; norm_num; linarith)
    rw [abs_of_nonneg (by linarith : (0 : ℚ) ≤ c * E)] at hcl
    have hcl' := abs_le.1 hcl
    have e1 : c * E - 30.6001 * E ≤ 15 / 2 ^ 47 := by
      have : c - 30.6001 ≤ 1 / 2 ^ 47 := h0.2
      nlinarith
    have e2 : -(15 / 2 ^ 47) ≤ c * E - 30.6001 * E := by
      have : -(1 / 2 ^ 47) ≤ c - 30.6001 := h0.1
      nlinarith
    have e3 : c * E / 2 ^ 52 ≤ 465 / 2 ^ 52 := div_le_div_of_nonneg_right hp.2 (by positivity)
    have e4 : ((306001 * E : ℤ) : ℚ) / (10000 : ℤ) = 30.6001 * E := by push_cast; ring
    rw [e4, abs_lt]
    norm_num at *
    constructor <;> linarith

/-- The division by 30.6001 in the computation of the month. -/
theorem trunc_div_306001 (k : ℤ) (h1 : 122 ≤ k) (h2 : k ≤ 489) :
    trunc (R.div k (R.fl 30.6001)) = (10000 * k) / 306001 := by
  have h0 := abs_le.1 R.fl_306001
  have h1' : (122 : ℚ) ≤ k := by exact_mod_cast h1
  have h2' : (k : ℚ) ≤ 489 := by exact_mod_cast h2
  rw [← Int.tdiv_eq_ediv_of_nonneg (by omega)]
  apply trunc_near (by norm_num)
  · omega
  · unfold div
    set c := R.fl 30.6001
    have hc : (30 : ℚ) ≤ c ∧ c ≤ 31 := by constructor <;> norm_num at * <;> linarith
    have hc0 : (0 : ℚ) < c := by linarith
    have hp : 1 ≤ k / c ∧ k / c ≤ 17 := by
      constructor
      · rw [le_div_iff₀ hc0]; linarith
      · rw [div_le_iff₀ hc0]; nlinarith
    have hcl := R.close (k / c) (by rw [abs_of_nonneg (by linarith)]; norm_num; linarith)
      (by rw [abs_of_nonneg (by linarith)]; norm_num; linarith)
    rw [abs_of_nonneg (by linarith : (0 : ℚ) ≤ k / c)] at hcl
    have hcl' := abs_le.1 hcl
    have e3 : k / c / 2 ^ 52 ≤ 17 / 2 ^ 52 := div_le_div_of_nonneg_right hp.2 (by positivity)
    have e4 : ((10000 * k : ℤ) : ℚ) / (306001 : ℤ) = k / 30.6001 := by push_cast; ring
    have e5 : (k : ℚ) / c - k / 30.6001 = (k / c) * ((30.6001 - c) / 30.6001) := by
      field_simp
    have e6 : |(k : ℚ) / c - k / 30.6001| ≤ 17 / 2 ^ 47 := by
      rw [e5, abs_mul, abs_of_nonneg (by linarith : (0 : ℚ) ≤ k / c), abs_div, abs_sub_comm,
        abs_of_pos (by norm_num : (0 : ℚ) < 30.6001)]
      have a1 : |c - 30.6001| / 30.6001 ≤ 1 / 2 ^ 47 := by
        rw [div_le_iff₀ (by norm_num)]
        refine R.fl_306001.trans ?_
        norm_num
      have a2 : 0 ≤ |c - 30.6001| / 30.6001 := by positivity
      nlinarith
    have e7 := abs_le.1 e6
    rw [e4, abs_lt]
    norm_num at *
    constructor <;> linarith

/-- The computation of the century in `Date::JD`. -/
theorem trunc_century (Z : ℤ) (h1 : 2299161 ≤ Z) (h2 : Z ≤ 2 ^ 41) :
    trunc (R.div (R.sub Z (R.fl 1867216.25)) (R.fl 36524.25)) = (4 * Z - 7468865) / 146097 := by
  rw [R.fl_eq (x := 1867216.25) 7468865 (by norm_num) (by norm_num),
    R.fl_eq (x := 36524.25) 146097 (by norm_num) (by norm_num)]
  unfold sub div
  rw [R.fl_eq (x := (Z : ℚ) - 1867216.25) (4 * Z - 7468865) (by push_cast; ring)
    (abs_le.2 ⟨by omega, by omega⟩)]
  have e : ((Z : ℚ) - 1867216.25) / 36524.25 = ((4 * Z - 7468865 : ℤ) : ℚ) / (146097 : ℤ) := by
    push_cast; ring
  rw [e, R.trunc_div _ _ (by norm_num) (by norm_num) (abs_le.2 ⟨by omega, by omega⟩)
    (abs_le.2 ⟨by omega, by omega⟩), Int.tdiv_eq_ediv_of_nonneg (by omega)]

/-- The computation of the year in `Date::JD`. -/
theorem trunc_year (B : ℤ) (h1 : 123 ≤ B) (h2 : B ≤ 2 ^ 42) :
    trunc (R.div (R.sub B (R.fl 122.1)) (R.fl 365.25)) = (20 * B - 2442) / 7305 := by
  rw [R.fl_eq (x := 365.25) 1461 (by norm_num) (by norm_num)]
  have hc := abs_le.1 (R.close 122.1 (by rw [abs_of_nonneg (by norm_num)]; norm_num)
    (by rw [abs_of_nonneg (by norm_num)]; norm_num))
  rw [abs_of_nonneg (by norm_num)] at hc
  have h1' : (123 : ℚ) ≤ B := by exact_mod_cast h1
  have h2' : (B : ℚ) ≤ 2 ^ 42 := by exact_mod_cast h2
  rw [← Int.tdiv_eq_ediv_of_nonneg (by omega)]
  apply trunc_near (by norm_num)
  · omega
  · unfold sub div
    set c := R.fl 122.1
    have b1 : (0.5 : ℚ) ≤ B - c := by norm_num at *; linarith
    have b2 : (B : ℚ) - c ≤ 2 ^ 42 := by norm_num at *; linarith
    have k1 := R.close (B - c) (by rw [abs_of_nonneg (by linarith)]; norm_num at *; linarith)
      (by rw [abs_of_nonneg (by linarith)]; norm_num at *; linarith)
    rw [abs_of_nonneg (by linarith : (0 : ℚ) ≤ B - c)] at k1
    have k1' := abs_le.1 k1
    have e1 : (B - c) / 2 ^ 52 ≤ (1 / 2 ^ 10 : ℚ) := by rw [div_le_iff₀ (by positivity)]; norm_num at *; linarith
    set u := R.fl (B - c)
    have u1 : (0.4 : ℚ) ≤ u := by norm_num at *; linarith
    have u2 : u ≤ 2 ^ 42 + 1 := by norm_num at *; linarith
    have q1 : (1 / 1000 : ℚ) ≤ u / 365.25 := by rw [le_div_iff₀ (by norm_num)]; norm_num at *; linarith
    have q2 : u / 365.25 ≤ 2 ^ 34 := by rw [div_le_iff₀ (by norm_num)]; norm_num at *; linarith
    have k2 := R.close (u / 365.25) (by rw [abs_of_nonneg (by linarith)]; norm_num at *; linarith)
      (by rw [abs_of_nonneg (by linarith)]; norm_num at *; linarith)
    rw [abs_of_nonneg (by linarith : (0 : ℚ) ≤ u / 365.25)] at k2
    have k2' := abs_le.1 k2
    have e2 : u / 365.25 / 2 ^ 52 ≤ (1 / 2 ^ 18 : ℚ) := by
      rw [div_le_iff₀ (by positivity)]; norm_num at *; linarith
    have e4 : ((20 * B - 2442 : ℤ) : ℚ) / (7305 : ℤ) = (B - 122.1) / 365.25 := by push_cast; ring
    have e5 : |u / 365.25 - (B - 122.1) / 365.25| ≤ 1 / 365000 := by
      rw [← sub_div, abs_div, abs_of_pos (by norm_num : (0 : ℚ) < 365.25), div_le_iff₀ (by norm_num), abs_le]
      norm_num at *
      constructor <;> linarith
    have e5' := abs_le.1 e5
    rw [e4, abs_lt]
    norm_num at *
    constructor <;> linarith

theorem trunc_mul_36525 (y : ℤ) (h : |y| ≤ 2 ^ 33) :
    trunc (R.mul (R.fl 365.25) y) = (1461 * y).tdiv 4 := by
  have h' := abs_le.1 h
  rw [R.fl_eq (x := 365.25) 1461 (by norm_num) (by norm_num)]
  unfold mul
  have e : (365.25 : ℚ) * y = ((1461 * y : ℤ) : ℚ) / (4 : ℤ) := by push_cast; ring
  rw [e, R.fl_eq (1461 * y) (by norm_num) (abs_le.2 ⟨by omega, by omega⟩)]
  exact trunc_ratio _ _ (by norm_num)
end Fp

/-- The year counted from March. -/
def Date.my (d : Date) : ℤ := if d.month ≤ 2 then d.year - 1 else d.year

/-- The month, 3 for March to 14 for February. -/
def Date.mm (d : Date) : ℤ := if d.month ≤ 2 then d.month + 12 else d.month

/-- The century correction, with truncated divisions. -/
def corr (d : Date) : ℤ :=
  if d.calendar = .julian then 0 else 2 - d.my.tdiv 100 + (d.my.tdiv 100).tdiv 4

/-- The number of the day: the Julian day number of its noon. -/
def Date.num (d : Date) : ℤ :=
  (1461 * (d.my + 4716)).tdiv 4 + (306001 * (d.mm + 1)) / 10000 + d.day + corr d - 1524

/-- The range in which we reason: months and days are in their usual ranges, and the year is representable as an
`int` (with some margin). -/
structure Date.InRange (d : Date) : Prop where
  year1 : -2000000000 ≤ d.year
  year2 : d.year ≤ 2000000000
  month1 : 1 ≤ d.month
  month2 : d.month ≤ 12
  day1 : 1 ≤ d.day
  day2 : d.day ≤ 31

theorem tdiv_bounds (a : ℤ) (b : ℤ) (hb : b = 4 ∨ b = 100) (h1 : -2 ^ 45 ≤ a) (h2 : a ≤ 2 ^ 45) :
    -2 ^ 45 ≤ a.tdiv b ∧ a.tdiv b ≤ 2 ^ 45 ∧
      (b = 4 → -2 ^ 45 - 3 ≤ 4 * a.tdiv b ∧ 4 * a.tdiv b ≤ 2 ^ 45) ∧
      (0 ≤ a → a.tdiv b = a / b) ∧ (a ≤ 0 → a.tdiv b = -((-a) / b)) := by
  have hp : 0 ≤ a → a.tdiv b = a / b := Int.tdiv_eq_ediv_of_nonneg
  have hn : a ≤ 0 → a.tdiv b = -((-a) / b) := by
    intro h
    rw [← Int.tdiv_eq_ediv_of_nonneg (by omega : 0 ≤ -a), Int.neg_tdiv]; omega
  rcases le_total 0 a with h | h
  · rw [hp h]
    rcases hb with rfl | rfl <;> refine ⟨by omega, by omega, by omega, by omega, by omega⟩
  · rw [hn h]
    rcases hb with rfl | rfl <;> refine ⟨by omega, by omega, by omega, by omega, by omega⟩

theorem jd_eq (R : Fp) (d : Date) (h : d.InRange) : d.jd R = (d.num : ℚ) - 1 / 2 := by
  obtain ⟨y1, y2, m1, m2, d1, d2⟩ := h
  have hY : (if d.month ≤ 2 then R.sub d.year 1 else (d.year : ℚ)) = (d.my : ℚ) := by
    unfold Date.my
    split
    · have := R.sub_int d.year 1 (abs_le.2 ⟨by omega, by omega⟩)
      simpa using this
    · rfl
  have hM : (if d.month ≤ 2 then R.add d.month 12 else (d.month : ℚ)) = (d.mm : ℚ) := by
    unfold Date.mm
    split
    · have := R.add_int d.month 12 (abs_le.2 ⟨by omega, by omega⟩)
      simpa using this
    · rfl
  have my1 : -2000000001 ≤ d.my ∧ d.my ≤ 2000000000 := by unfold Date.my; split <;> omega
  have mm1 : 3 ≤ d.mm ∧ d.mm ≤ 14 := by unfold Date.mm; split <;> omega
  have tb1 := tdiv_bounds d.my 100 (Or.inr rfl) (by omega) (by omega)
  have tb1' : -20000001 ≤ d.my.tdiv 100 ∧ d.my.tdiv 100 ≤ 20000000 := by
    rcases le_total 0 d.my with h | h
    · rw [tb1.2.2.2.1 h]; omega
    · rw [tb1.2.2.2.2 h]; omega
  have tb2 := tdiv_bounds (d.my.tdiv 100) 4 (Or.inl rfl) (by omega) (by omega)
  have tb2' : -5000001 ≤ (d.my.tdiv 100).tdiv 4 ∧ (d.my.tdiv 100).tdiv 4 ≤ 5000000 := by
    rcases le_total 0 (d.my.tdiv 100) with h | h
    · rw [tb2.2.2.2.1 h]; omega
    · rw [tb2.2.2.2.2 h]; omega
  have tb3 := tdiv_bounds (1461 * (d.my + 4716)) 4 (Or.inl rfl) (by omega) (by omega)
  have hB : (if d.calendar = .julian then (0 : ℚ) else
      R.add (R.sub 2 (trunc (R.div d.my 100) : ℤ)) (trunc (R.div (trunc (R.div d.my 100) : ℤ) 4) : ℤ)) = (corr d : ℚ) := by
    unfold corr
    split
    · simp
    · have e1 : trunc (R.div d.my 100) = d.my.tdiv 100 := by
        have := R.trunc_div d.my 100 (by norm_num) (by norm_num) (abs_le.2 ⟨by omega, by omega⟩)
          (abs_le.2 ⟨by omega, by omega⟩)
        unfold Fp.div; simpa using this
      have e2 : trunc (R.div (d.my.tdiv 100 : ℤ) 4) = (d.my.tdiv 100).tdiv 4 := by
        have := R.trunc_div (d.my.tdiv 100) 4 (by norm_num) (by norm_num) (abs_le.2 ⟨by omega, by omega⟩)
          (abs_le.2 ⟨by omega, by omega⟩)
        unfold Fp.div; simpa using this
      rw [e1, e2]
      have e3 := R.sub_int 2 (d.my.tdiv 100) (abs_le.2 ⟨by omega, by omega⟩)
      rw [show ((2 : ℤ) : ℚ) = 2 from rfl] at e3
      rw [e3, R.add_int _ _ (abs_le.2 ⟨by omega, by omega⟩)]
  have corrb : -2 ^ 30 ≤ corr d ∧ corr d ≤ 2 ^ 30 := by unfold corr; split <;> omega
  unfold Date.jd
  simp only
  rw [hY, hM, hB]
  have e4 : R.add d.my 4716 = ((d.my + 4716 : ℤ) : ℚ) := by
    have := R.add_int d.my 4716 (abs_le.2 ⟨by omega, by omega⟩); simpa using this
  have e5 : R.add d.mm 1 = ((d.mm + 1 : ℤ) : ℚ) := by
    have := R.add_int d.mm 1 (abs_le.2 ⟨by omega, by omega⟩); simpa using this
  rw [e4, e5, R.trunc_mul_36525 _ (abs_le.2 ⟨by omega, by omega⟩), R.trunc_mul_306001 _ (by omega) (by omega),
    R.add_int _ _ (abs_le.2 ⟨by omega, by omega⟩), R.add_int _ _ (abs_le.2 ⟨by omega, by omega⟩),
    R.fl_eq (x := 1524.5) 6098 (by norm_num) (by norm_num)]
  unfold Fp.sub
  rw [R.fl_eq (4 * d.num - 2)]
  · unfold Date.num; push_cast; ring
  · unfold Date.num; push_cast; ring
  · unfold Date.num; exact abs_le.2 ⟨by omega, by omega⟩

/-- The date computed by `Date::JD` from a day number, with integer divisions. -/
def ofNum (Z : ℤ) : Date :=
  let α := (4 * Z - 7468865) / 146097
  let B := (if Z < 2299161 then Z else Z + 1 + α - α / 4) + 1524
  let C := (20 * B - 2442) / 7305
  let D := 1461 * C / 4
  let E := 10000 * (B - D) / 306001
  let m := if E < 14 then E - 1 else E - 13
  ⟨if m > 2 then C - 4716 else C - 4715, m, B - D - 306001 * E / 10000,
    if Z < 2299161 then .julian else .gregorian⟩

theorem ofJD_eq (R : Fp) (Z : ℤ) (h1 : -1401 ≤ Z) (h2 : Z ≤ 2 ^ 40) :
    Date.ofJD R ((Z : ℚ) - 1 / 2) = some (ofNum Z) := by
  have e0 : R.add ((Z : ℚ) - 1 / 2) 0.5 = Z := by
    unfold Fp.add
    rw [show (Z : ℚ) - 1 / 2 + 0.5 = Z by ring]
    exact R.fl_int _ (abs_le.2 ⟨by omega, by omega⟩)
  unfold Date.ofJD
  simp only [e0, trunc_int]
  rw [if_pos trivial]
  -- The part common to both calendars.
  have common : ∀ (A : ℤ) (c : Cal), -1401 ≤ A → A ≤ 2 ^ 41 →
      (let B : ℚ := R.add A 1524
       let C : ℚ := trunc (R.div (R.sub B (R.fl 122.1)) (R.fl 365.25))
       let D : ℚ := trunc (R.mul (R.fl 365.25) C)
       let E : ℚ := trunc (R.div (R.sub B D) (R.fl 30.6001))
       let d : ℤ := trunc (R.sub (R.sub B D) (trunc (R.mul (R.fl 30.6001) E)))
       let m : ℤ := trunc (if E < 14 then R.sub E 1 else R.sub E 13)
       let y : ℤ := trunc (if m > 2 then R.sub C 4716 else R.sub C 4715)
       (⟨y, m, d, c⟩ : Date)) =
      (let B := A + 1524
       let C := (20 * B - 2442) / 7305
       let D := 1461 * C / 4
       let E := 10000 * (B - D) / 306001
       let m := if E < 14 then E - 1 else E - 13
       ⟨if m > 2 then C - 4716 else C - 4715, m, B - D - 306001 * E / 10000, c⟩) := by
    intro A c a1 a2
    have b0 : R.add A 1524 = ((A + 1524 : ℤ) : ℚ) := by
      have := R.add_int A 1524 (abs_le.2 ⟨by omega, by omega⟩); simpa using this
    simp only [b0]
    generalize hB : A + 1524 = B
    simp only [R.trunc_year B (by omega) (by omega)]
    generalize hC : (20 * B - 2442) / 7305 = C
    have c1 : 0 ≤ C := by omega
    have c2 : C ≤ 2 ^ 33 + 2 ^ 30 := by omega
    have d0 : trunc (R.mul (R.fl 365.25) (C : ℚ)) = 1461 * C / 4 := by
      rw [R.trunc_mul_36525 C (abs_le.2 ⟨by omega, by omega⟩), Int.tdiv_eq_ediv_of_nonneg (by omega)]
    simp only [d0]
    generalize hD : 1461 * C / 4 = D
    have bd : 123 ≤ B - D ∧ B - D ≤ 488 := by omega
    have s0 : R.sub B D = ((B - D : ℤ) : ℚ) := R.sub_int _ _ (abs_le.2 ⟨by omega, by omega⟩)
    simp only [s0, R.trunc_div_306001 _ (by omega : 122 ≤ B - D) (by omega : B - D ≤ 489)]
    generalize hE : 10000 * (B - D) / 306001 = E
    have e1 : 4 ≤ E ∧ E ≤ 15 := by omega
    simp only [R.trunc_mul_306001 E e1.1 e1.2]
    have s1 : R.sub ((B - D : ℤ) : ℚ) ((306001 * E / 10000 : ℤ) : ℚ) = ((B - D - 306001 * E / 10000 : ℤ) : ℚ) :=
      R.sub_int _ _ (abs_le.2 ⟨by omega, by omega⟩)
    have s2 : ∀ k : ℤ, 0 ≤ k → k ≤ 20 → R.sub E k = ((E - k : ℤ) : ℚ) := fun k k1 k2 =>
      R.sub_int _ _ (abs_le.2 ⟨by omega, by omega⟩)
    have s3 : ∀ k : ℤ, 0 ≤ k → k ≤ 5000 → R.sub C k = ((C - k : ℤ) : ℚ) := fun k k1 k2 =>
      R.sub_int _ _ (abs_le.2 ⟨by omega, by omega⟩)
    have hm : trunc (if (E : ℚ) < 14 then R.sub E 1 else R.sub E 13) = if E < 14 then E - 1 else E - 13 := by
      have x1 := s2 1 (by norm_num) (by norm_num)
      have x2 := s2 13 (by norm_num) (by norm_num)
      rw [show ((1 : ℤ) : ℚ) = 1 from rfl] at x1
      rw [show ((13 : ℤ) : ℚ) = 13 from rfl] at x2
      have : (E : ℚ) < 14 ↔ E < 14 := by exact_mod_cast Iff.rfl
      rw [x1, x2]
      by_cases h : E < 14
      · rw [if_pos (this.2 h), if_pos h, trunc_int]
      · rw [if_neg (fun h' => h (this.1 h')), if_neg h, trunc_int]
    have x1 := s3 4716 (by norm_num) (by norm_num)
    have x2 := s3 4715 (by norm_num) (by norm_num)
    rw [show ((4716 : ℤ) : ℚ) = 4716 from rfl] at x1
    rw [show ((4715 : ℤ) : ℚ) = 4715 from rfl] at x2
    simp only [s1, trunc_int, hm, x1, x2]
    congr 1
    split <;> split <;> exact trunc_int _
  by_cases hz : Z < 2299161
  · have hz' : (Z : ℚ) < 2299161 := by exact_mod_cast hz
    simp only [if_pos hz']
    refine congrArg some ((common Z .julian (by omega) (by omega)).trans ?_)
    unfold ofNum
    simp only [if_pos hz]
  · have hz' : ¬ (Z : ℚ) < 2299161 := by exact_mod_cast hz
    simp only [if_neg hz']
    simp only [R.trunc_century Z (by omega) (by omega)]
    generalize hα : (4 * Z - 7468865) / 146097 = α
    have f1 : trunc (R.div (α : ℚ) 4) = α / 4 := by
      have := R.trunc_div α 4 (by norm_num) (by norm_num) (abs_le.2 ⟨by omega, by omega⟩)
          (abs_le.2 ⟨by omega, by omega⟩)
      rw [Int.tdiv_eq_ediv_of_nonneg (by omega)] at this
      unfold Fp.div; simpa using this
    have f2 : R.add (Z : ℚ) 1 = ((Z + 1 : ℤ) : ℚ) := by
      have := R.add_int Z 1 (abs_le.2 ⟨by omega, by omega⟩); simpa using this
    have f3 : R.sub (R.add (R.add (Z : ℚ) 1) α) ((α / 4 : ℤ) : ℚ) = ((Z + 1 + α - α / 4 : ℤ) : ℚ) := by
      rw [f2, R.add_int _ _ (abs_le.2 ⟨by omega, by omega⟩), R.sub_int _ _ (abs_le.2 ⟨by omega, by omega⟩)]
    simp only [f1, f3]
    refine congrArg some ((common (Z + 1 + α - α / 4) .gregorian (by omega) (by omega)).trans ?_)
    unfold ofNum
    simp only [if_neg hz, hα]
end Principia.Calendar
