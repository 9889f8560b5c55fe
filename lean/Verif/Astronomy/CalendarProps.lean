import Verif.Astronomy.CalendarLemmas
import Verif.Astronomy.CalendarSpec
import Verif.Base.ModProps

/-!
# C27: calendar arithmetic
-/

set_option linter.unusedSimpArgs false
set_option linter.unusedVariables false

namespace Principia.Calendar
open Spec

theorem tmod_zero (a b : ℤ) : a.tmod b = 0 ↔ b ∣ a := by
  rw [Int.dvd_iff_tmod_eq_zero]

theorem isLeapYear_iff (y : ℤ) (c : Cal) : isLeapYear y c = true ↔ Leap c y := by
  unfold isLeapYear Leap
  cases c <;> simp [tmod_zero]

theorem monthLength_eq (y m : ℤ) (c : Cal) (h1 : 1 ≤ m) (h2 : m ≤ 12) : monthLength y m c = daysInMonth c y m := by
  unfold monthLength daysInMonth
  simp only [isLeapYear_iff]
  by_cases hl : Leap c y <;> interval_cases m <;> simp [hl, nonLeapMonthLength]

theorem yearLength_eq (y : ℤ) (c : Cal) : yearLength y c = daysInYear c y := by
  unfold yearLength daysInYear; simp only [isLeapYear_iff]

theorem valid_inRange {d : Date} (h : Valid d) (hs : Supported d) : d.InRange := by
  obtain ⟨m1, m2, d1, d2⟩ := h
  have : daysInMonth d.calendar d.year d.month ≤ 31 := by
    unfold daysInMonth; split
    · split <;> omega
    · split <;> omega
  exact ⟨by have := hs.1; omega, by have := hs.2.1; omega, m1, m2, d1, by omega⟩

theorem tdiv100_400 (a : ℤ) (h : a < 0 → (100 : ℤ) ∣ a → (400 : ℤ) ∣ a) :
    -a.tdiv 100 + (a.tdiv 100).tdiv 4 = -(a / 100) + a / 400 := by
  rcases le_or_gt 0 a with h0 | h0
  · rw [Int.tdiv_eq_ediv_of_nonneg h0, Int.tdiv_eq_ediv_of_nonneg (by omega)]; omega
  · have e1 : a.tdiv 100 = -((-a) / 100) := by
      rw [← Int.tdiv_eq_ediv_of_nonneg (by omega : 0 ≤ -a), Int.neg_tdiv]; omega
    have e2 : (-((-a) / 100)).tdiv 4 = -((-a) / 100 / 4) := by
      rw [Int.neg_tdiv, Int.tdiv_eq_ediv_of_nonneg (by omega)]
    rw [e1, e2]
    have := h h0
    omega

theorem leap_julian (y : ℤ) : Leap .julian y ↔ y % 4 = 0 := by
  show (4 : ℤ) ∣ y ↔ _
  omega

theorem leap_gregorian (y : ℤ) : Leap .gregorian y ↔ y % 4 = 0 ∧ (y % 100 ≠ 0 ∨ y % 400 = 0) := by
  show (4 : ℤ) ∣ y ∧ (¬ (100 : ℤ) ∣ y ∨ (400 : ℤ) ∣ y) ↔ _
  omega

/-- The beginning of the year that starts in March. -/
def ystart (c : Cal) (y : ℤ) : ℤ := 1461 * (y + 4716) / 4 + (if c = .julian then 0 else 2 - y / 100 + y / 400)

theorem ystart_eq (c : Cal) (y : ℤ) :
    ystart c y = 365 * (y + 4716) + 1179 + y / 4 + (if c = .julian then 0 else 2 - y / 100 + y / 400) := by
  unfold ystart
  have : 1461 * (y + 4716) / 4 = 365 * (y + 4716) + 1179 + y / 4 := by
    rw [show 1461 * (y + 4716) = (365 * (y + 4716) + 1179) * 4 + y by ring]
    omega
  rw [this]

theorem ystart_step (c : Cal) (y : ℤ) : ystart c y = ystart c (y - 1) + daysInYear c y := by
  rw [ystart_eq, ystart_eq]
  unfold daysInYear
  cases c
  · have := leap_julian y
    by_cases hl : Leap .julian y
    · have := this.1 hl; simp only [hl, if_true]; omega
    · have := (not_congr this).1 hl; simp only [hl, if_false, if_true]; omega
  · have := leap_gregorian y
    by_cases hl : Leap .gregorian y
    · have := this.1 hl
      rw [if_neg (by decide), if_pos hl, if_neg (by decide)]; omega
    · have := (not_congr this).1 hl
      rw [if_neg (by decide), if_neg hl, if_neg (by decide)]; omega

/-- The number of a supported day, with floored divisions. -/
theorem num_eq (d : Date) (hv : 1 ≤ d.month ∧ d.month ≤ 12) (hs : Supported d) :
    d.num = ystart d.calendar d.my + 306001 * (d.mm + 1) / 10000 + d.day - 1524 := by
  have h1 : (1461 * (d.my + 4716)).tdiv 4 = 1461 * (d.my + 4716) / 4 :=
    Int.tdiv_eq_ediv_of_nonneg (by have := hs.1; unfold Date.my; split <;> omega)
  have h2 : corr d = if d.calendar = .julian then 0 else 2 - d.my / 100 + d.my / 400 := by
    unfold corr
    split
    · rfl
    · rename_i hc
      have hg : d.calendar = .gregorian := by
        cases h : d.calendar
        · exact absurd h hc
        · rfl
      have := tdiv100_400 d.my (hs.2.2 hg)
      omega
  unfold Date.num ystart
  rw [h1, h2]
  omega

theorem daysInMonth_pos (c : Cal) (y m : ℤ) : 28 ≤ daysInMonth c y m := by
  unfold daysInMonth; split
  · split <;> omega
  · split <;> omega

theorem tomorrow_valid (d : Date) (h : Valid d) : Valid (tomorrow d) := by
  obtain ⟨m1, m2, d1, d2⟩ := h
  unfold tomorrow
  split
  · exact ⟨m1, m2, by show 1 ≤ d.day + 1; omega, by show d.day + 1 ≤ daysInMonth d.calendar d.year d.month; omega⟩
  · split
    · exact ⟨by show 1 ≤ d.month + 1; omega, by show d.month + 1 ≤ 12; omega, le_refl _,
        (by norm_num : (1 : ℤ) ≤ 28).trans (daysInMonth_pos _ _ _)⟩
    · exact ⟨le_refl _, by norm_num, le_refl _, (by norm_num : (1 : ℤ) ≤ 28).trans (daysInMonth_pos _ _ _)⟩

theorem num_tomorrow (d : Date) (h : Valid d) (hs : Supported d) (ht : Supported (tomorrow d)) :
    (tomorrow d).num = d.num + 1 := by
  have htv := tomorrow_valid d h
  rw [num_eq _ ⟨htv.1, htv.2.1⟩ ht, num_eq _ ⟨h.1, h.2.1⟩ hs]
  clear ht htv
  obtain ⟨y, m, dd, c⟩ := d
  obtain ⟨m1, m2, d1, d2⟩ := h
  simp only at m1 m2 d1 d2
  have st := ystart_step c y
  unfold tomorrow daysInMonth daysInYear Date.my Date.mm at *
  by_cases hl : Leap c y <;> simp only [hl, if_true, if_false] at * <;>
    interval_cases m <;> simp at * <;> split <;> simp at * <;> omega

/-- C27: consecutive dates of either calendar have consecutive Julian dates. -/
theorem C27_consecutive (R : Fp) (d : Date) (h : Valid d) (hs : Supported d) (ht : Supported (tomorrow d)) :
    (tomorrow d).jd R = d.jd R + 1 := by
  rw [jd_eq R _ (valid_inRange (tomorrow_valid d h) ht), jd_eq R _ (valid_inRange h hs), num_tomorrow d h hs ht]
  push_cast; ring

/-- The number of days of the year before the given month. -/
def cum (c : Cal) (y m : ℤ) : ℤ :=
  [0, 31, 59, 90, 120, 151, 181, 212, 243, 273, 304, 334].getD (m - 1).toNat 0
    + if Leap c y ∧ 2 < m then 1 else 0

theorem ordinal_eq (d : Date) (h : 1 ≤ d.month ∧ d.month ≤ 12) : Spec.ordinal d = cum d.calendar d.year d.month + d.day := by
  obtain ⟨y, m, dd, c⟩ := d
  obtain ⟨h1, h2⟩ := h
  simp only at h1 h2
  unfold Spec.ordinal cum daysInMonth
  by_cases hl : Leap c y <;> interval_cases m <;> simp [hl, List.range, List.range.loop]

theorem num_ordinal (d : Date) (h : Valid d) (hs : Supported d) :
    d.num = ystart d.calendar (d.year - 1) + 428 - 1524 + Spec.ordinal d := by
  rw [ordinal_eq d ⟨h.1, h.2.1⟩, num_eq d ⟨h.1, h.2.1⟩ hs]
  have st := ystart_step d.calendar d.year
  clear hs
  obtain ⟨y, m, dd, c⟩ := d
  obtain ⟨h1, h2, -, -⟩ := h
  simp only at h1 h2
  unfold Date.my Date.mm cum
  unfold daysInYear at st
  by_cases hl : Leap c y <;> simp only [hl, if_true, if_false] at * <;> interval_cases m <;> simp at * <;> omega

theorem ordinal_bounds (d : Date) (h : Valid d) : 1 ≤ Spec.ordinal d ∧ Spec.ordinal d ≤ daysInYear d.calendar d.year := by
  rw [ordinal_eq d ⟨h.1, h.2.1⟩]
  obtain ⟨y, m, dd, c⟩ := d
  obtain ⟨h1, h2, h3, h4⟩ := h
  unfold cum
  unfold daysInMonth at h4
  unfold daysInYear
  simp only at *
  by_cases hl : Leap c y <;> simp only [hl, if_true, if_false] at * <;> interval_cases m <;> simp at * <;> omega

theorem cum_mono (c : Cal) (y m m' : ℤ) (h1 : 1 ≤ m) (h : m < m') (h2 : m' ≤ 12) :
    cum c y m + daysInMonth c y m ≤ cum c y m' := by
  unfold cum daysInMonth
  have h3 : m < 12 := by omega
  have h4 : 1 < m' := by omega
  by_cases hl : Leap c y <;> simp only [hl, if_true, if_false, true_and, false_and] <;> interval_cases m <;> interval_cases m' <;>
    first | omega | decide

theorem ystart_mono (c : Cal) (y y' : ℤ) (h : y ≤ y') : ystart c y ≤ ystart c y' := by
  rw [ystart_eq, ystart_eq]
  cases c
  · simp; omega
  · rw [if_neg (by decide), if_neg (by decide)]; omega

theorem num_lt (d e : Date) (hd : Valid d) (he : Valid e) (hds : Supported d) (hes : Supported e)
    (hc : d.calendar = e.calendar) (h : Before d e) : d.num < e.num := by
  rw [num_ordinal d hd hds, num_ordinal e he hes, hc]
  rcases h with h | ⟨h, h'⟩
  · have b1 := ordinal_bounds d hd
    have b2 := ordinal_bounds e he
    have st := ystart_step d.calendar d.year
    have mo := ystart_mono d.calendar d.year (e.year - 1) (by omega)
    rw [hc] at *
    omega
  · rw [h]
    have : Spec.ordinal d < Spec.ordinal e := by
      rw [ordinal_eq d ⟨hd.1, hd.2.1⟩, ordinal_eq e ⟨he.1, he.2.1⟩, hc, h]
      rcases h' with h' | ⟨h', h''⟩
      · have := cum_mono e.calendar e.year d.month e.month hd.1 h' he.2.1
        have b := hd.2.2.2
        rw [hc, h] at b
        have := he.2.2.1
        omega
      · rw [h']; omega
    omega

theorem before_trichotomy (d e : Date) (hc : d.calendar = e.calendar) : Before d e ∨ d = e ∨ Before e d := by
  obtain ⟨y, m, dd, c⟩ := d
  obtain ⟨y', m', dd', c'⟩ := e
  unfold Before
  simp only [Date.mk.injEq] at *
  subst hc
  by_cases h1 : y < y' ∨ y' < y
  · rcases h1 with h | h <;> simp [h]
  · have : y = y' := by omega
    subst this
    by_cases h2 : m < m' ∨ m' < m
    · rcases h2 with h | h <;> simp [h]
    · have : m = m' := by omega
      subst this
      by_cases h3 : dd < dd' ∨ dd' < dd
      · rcases h3 with h | h <;> simp [h]
      · have : dd = dd' := by omega
        subst this; simp

/-- C27: the order of dates is the chronological order. -/
theorem C27_order (R : Fp) (d e : Date) (hd : Valid d) (he : Valid e) (hds : Supported d) (hes : Supported e)
    (hc : d.calendar = e.calendar) :
    (d.lt R e ↔ Before d e) ∧ (d.eqv R e ↔ d = e) := by
  unfold Date.lt Date.eqv
  rw [jd_eq R _ (valid_inRange hd hds), jd_eq R _ (valid_inRange he hes)]
  have k1 := num_lt d e hd he hds hes hc
  have k2 := num_lt e d he hd hes hds hc.symm
  have e1 : ((d.num : ℚ) - 1 / 2 < (e.num : ℚ) - 1 / 2) ↔ d.num < e.num := by
    constructor
    · intro h; exact_mod_cast (by linarith : (d.num : ℚ) < e.num)
    · intro h; have : (d.num : ℚ) < e.num := by exact_mod_cast h
      linarith
  have e2 : ((d.num : ℚ) - 1 / 2 = (e.num : ℚ) - 1 / 2) ↔ d.num = e.num := by
    constructor
    · intro h; exact_mod_cast (by linarith : (d.num : ℚ) = e.num)
    · intro h; rw [h]
  rw [e1, e2]
  rcases before_trichotomy d e hc with h | h | h
  · have := k1 h
    refine ⟨⟨fun _ => h, fun _ => this⟩, ⟨fun h' => absurd h' this.ne, ?_⟩⟩
    rintro rfl; omega
  · subst h
    exact ⟨⟨fun h => absurd h (lt_irrefl _), k1⟩, ⟨fun _ => rfl, fun _ => rfl⟩⟩
  · have := k2 h
    refine ⟨⟨fun h' => by omega, fun h' => k1 h'⟩, ⟨fun h' => by omega, ?_⟩⟩
    rintro rfl; omega

/-- The computation of the year from the day number of the Julian calendar. -/
theorem year_inverse (y k : ℤ) (h1 : 123 ≤ k) (h2 : k ≤ 487 ∨ (k = 488 ∧ y % 4 = 3)) :
    (20 * (1461 * y / 4 + k) - 2442) / 7305 = y := by
  have e : 1461 * y / 4 = 365 * y + y / 4 := by
    rw [show 1461 * y = (365 * y) * 4 + y by ring]; omega
  rw [e]
  obtain ⟨q, r, rfl, r0, r3⟩ : ∃ q r, y = 4 * q + r ∧ 0 ≤ r ∧ r ≤ 3 := ⟨y / 4, y % 4, by omega, by omega, by omega⟩
  interval_cases r <;> omega

/-- The computation of the century from the day number of the Gregorian calendar. -/
theorem century_inverse (y k : ℤ) (h1 : 123 ≤ k) (h2 : k ≤ 487 ∨ (k = 488 ∧ Leap .gregorian (y + 1))) :
    (4 * (ystart .gregorian y + k - 1524) - 7468865) / 146097 = y / 100 - 4 := by
  rw [leap_gregorian] at h2
  rw [ystart_eq, if_neg (by decide)]
  obtain ⟨A, r, rfl, r0, r3⟩ : ∃ A r, y = 100 * A + r ∧ 0 ≤ r ∧ r ≤ 99 :=
    ⟨y / 100, y % 100, by omega, by omega, by omega⟩
  obtain ⟨a, b, rfl, b0, b3⟩ : ∃ a b, A = 4 * a + b ∧ 0 ≤ b ∧ b ≤ 3 := ⟨A / 4, A % 4, by omega, by omega, by omega⟩
  obtain ⟨s, t, rfl, t0, t3⟩ : ∃ s t, r = 4 * s + t ∧ 0 ≤ t ∧ t ≤ 3 := ⟨r / 4, r % 4, by omega, by omega, by omega⟩
  have e1 : (100 * (4 * a + b) + (4 * s + t)) / 100 = 4 * a + b := by omega
  have e2 : (100 * (4 * a + b) + (4 * s + t)) / 4 = 100 * a + 25 * b + s := by omega
  have e3 : (100 * (4 * a + b) + (4 * s + t)) / 400 = a := by omega
  rw [e1, e2, e3]
  have e4 : 4 * (365 * (100 * (4 * a + b) + (4 * s + t) + 4716) + 1179 + (100 * a + 25 * b + s) + (2 - (4 * a + b) + a)
      + k - 1524) - 7468865 = 146097 * (4 * a + b - 4) + (1460 * (4 * s + t) + 4 * s - b + 4 * k - 489) := by ring
  have hu : 1460 * (4 * s + t) + 4 * s - b + 4 * k - 489 < 146097 := by
    rcases h2 with h2 | ⟨h2, h3, h4⟩
    · omega
    · by_cases hs : 4 * s + t = 99
      · have : b = 3 := by omega
        omega
      · omega
  rw [e4]
  omega

/-- The day number within the year that starts in March. -/
theorem k_bounds (d : Date) (h : Valid d) :
    123 ≤ 306001 * (d.mm + 1) / 10000 + d.day ∧
    (306001 * (d.mm + 1) / 10000 + d.day ≤ 487 ∨
      (306001 * (d.mm + 1) / 10000 + d.day = 488 ∧ Leap d.calendar (d.my + 1))) := by
  obtain ⟨y, m, dd, c⟩ := d
  obtain ⟨h1, h2, h3, h4⟩ := h
  unfold daysInMonth at h4
  unfold Date.mm Date.my
  simp only at *
  by_cases hl : Leap c y <;> simp only [hl, if_true, if_false] at h4 <;> interval_cases m <;> simp at h4 ⊢ <;>
    first
    | omega
    | (refine ⟨by omega, ?_⟩
       by_cases hd : dd = 29
       · right; exact ⟨by omega, hl⟩
       · left; omega)

/-- The computation of the month and day. -/
theorem month_inverse (d : Date) (h : Valid d) (C : ℤ) (hC : C = d.my + 4716) :
    let k := 306001 * (d.mm + 1) / 10000 + d.day
    let E := 10000 * k / 306001
    let m := if E < 14 then E - 1 else E - 13
    m = d.month ∧ k - 306001 * E / 10000 = d.day ∧ (if m > 2 then C - 4716 else C - 4715) = d.year := by
  subst hC
  have hr : d.day ≤ daysInMonth d.calendar d.year d.month := h.2.2.2
  obtain ⟨y, m, dd, c⟩ := d
  obtain ⟨h1, h2, h3, -⟩ := h
  unfold Date.mm Date.my
  unfold daysInMonth at hr
  simp only at *
  have hr' : m = 2 → dd ≤ 29 := by rintro rfl; simp at hr; split at hr <;> omega
  interval_cases m <;> simp at * <;> refine ⟨?_, ?_, ?_⟩ <;> (try split) <;> (try split) <;> omega

theorem civil_num (d : Date) (h : Civil d) (hs : Supported d) :
    (d.calendar = .julian → d.num < 2299161) ∧ (d.calendar = .gregorian → 2299161 ≤ d.num) := by
  have v1 : Valid lastJulian := by decide
  have v2 : Valid firstGregorian := by decide
  have s1 : Supported lastJulian := by decide
  have s2 : Supported firstGregorian := by decide
  have n1 : lastJulian.num = 2299160 := by decide
  have n2 : firstGregorian.num = 2299161 := by decide
  obtain ⟨hv, ⟨hc, hb⟩ | ⟨hc, hb⟩⟩ := h
  · refine ⟨fun _ => ?_, fun h => by rw [hc] at h; cases h⟩
    rcases before_trichotomy d lastJulian hc with h | h | h
    · have := num_lt d lastJulian hv v1 hs s1 hc h; omega
    · rw [h, n1]; norm_num
    · exact absurd h hb
  · refine ⟨fun h => (by rw [hc] at h; cases h), fun _ => ?_⟩
    rcases before_trichotomy d firstGregorian hc with h | h | h
    · exact absurd h hb
    · rw [h, n2]
    · have := num_lt firstGregorian d v2 hv s2 hs hc.symm h; omega

theorem ofNum_num (d : Date) (h : Civil d) (hs : Supported d) : ofNum d.num = d := by
  have cn := civil_num d h hs
  have hv := h.1
  have kb := k_bounds d hv
  have ne := num_eq d ⟨hv.1, hv.2.1⟩ hs
  have mi := month_inverse d hv (d.my + 4716) rfl
  simp only at mi
  -- Once the century correction has been undone.
  have fin : ∀ B, B = 1461 * (d.my + 4716) / 4 + (306001 * (d.mm + 1) / 10000 + d.day) →
      ((20 * B - 2442) / 7305 = d.my + 4716) →
      (let C := (20 * B - 2442) / 7305
       let D := 1461 * C / 4
       let E := 10000 * (B - D) / 306001
       let m := if E < 14 then E - 1 else E - 13
       (⟨if m > 2 then C - 4716 else C - 4715, m, B - D - 306001 * E / 10000, d.calendar⟩ : Date)) = d := by
    intro B hB hC
    simp only [hC]
    have : B - 1461 * (d.my + 4716) / 4 = 306001 * (d.mm + 1) / 10000 + d.day := by omega
    rw [this, mi.2.1, mi.2.2, mi.1]
  unfold ofNum
  simp only
  rcases hc : d.calendar with _ | _
  · have z := cn.1 hc
    rw [if_pos z, if_pos z]
    rw [hc] at kb ne fin
    unfold ystart at ne
    rw [if_pos rfl] at ne
    have hB : d.num + 1524 = 1461 * (d.my + 4716) / 4 + (306001 * (d.mm + 1) / 10000 + d.day) := by omega
    refine fin _ hB ?_
    rw [hB]
    apply year_inverse _ _ kb.1
    rcases kb.2 with k | ⟨k, k'⟩
    · exact Or.inl k
    · rw [leap_julian] at k'; exact Or.inr ⟨k, by omega⟩
  · have z : ¬ d.num < 2299161 := by have := cn.2 hc; omega
    rw [if_neg z, if_neg z]
    rw [hc] at kb ne fin
    have ci := century_inverse d.my _ kb.1 kb.2
    have e : ystart .gregorian d.my + (306001 * (d.mm + 1) / 10000 + d.day) - 1524 = d.num := by omega
    rw [e] at ci
    rw [ci]
    unfold ystart at ne
    rw [if_neg (by decide)] at ne
    have hB : d.num + 1 + (d.my / 100 - 4) - (d.my / 100 - 4) / 4 + 1524 =
        1461 * (d.my + 4716) / 4 + (306001 * (d.mm + 1) / 10000 + d.day) := by omega
    refine fin _ hB ?_
    rw [hB]
    apply year_inverse _ _ kb.1
    rcases kb.2 with k | ⟨k, k'⟩
    · exact Or.inl k
    · rw [leap_gregorian] at k'; exact Or.inr ⟨k, by omega⟩

theorem num_bounds (d : Date) (h : Valid d) (hs : Supported d) : -1401 ≤ d.num ∧ d.num ≤ 2 ^ 40 - 1000 := by
  have kb := k_bounds d h
  rw [num_eq d ⟨h.1, h.2.1⟩ hs, ystart_eq]
  have h1 := hs.1
  have h2 := hs.2.1
  have my1 : -4716 ≤ d.my ∧ d.my ≤ 1000000000 := by unfold Date.my; split <;> omega
  have : (if d.calendar = .julian then 0 else 2 - d.my / 100 + d.my / 400) ≥ -10000000 - 50 ∧
    (if d.calendar = .julian then 0 else 2 - d.my / 100 + d.my / 400) ≤ 50 ∧
    (d.my ≤ 0 → (if d.calendar = .julian then 0 else 2 - d.my / 100 + d.my / 400) ≥ 0) ∧
    (0 ≤ d.my → (if d.calendar = .julian then 0 else 2 - d.my / 100 + d.my / 400) + d.my ≥ 0):= by
      split <;> omega
  omega

/-- C27: converting a date to a Julian date and back yields the same date. -/
theorem C27_round_trip (R : Fp) (d : Date) (h : Civil d) (hs : Supported d) : Date.ofJD R (d.jd R) = some d := by
  have nb := num_bounds d h.1 hs
  rw [jd_eq R d (valid_inRange h.1 hs), ofJD_eq R _ (by omega) (by omega), ofNum_num d h hs]

theorem tomorrow_calendar (d : Date) : (tomorrow d).calendar = d.calendar := by
  unfold tomorrow; split
  · rfl
  · split <;> rfl

theorem tomorrow_year (d : Date) : d.year ≤ (tomorrow d).year ∧ (tomorrow d).year ≤ d.year + 1 := by
  unfold tomorrow; split
  · simp
  · split <;> simp

theorem civil_supported (d : Date) (h : Civil d) (h1 : -4715 ≤ d.year) (h2 : d.year ≤ 1000000000) : Supported d := by
  refine ⟨h1, h2, fun hc => ?_⟩
  rcases h.2 with ⟨hc', _⟩ | ⟨_, hb⟩
  · rw [hc] at hc'; cases hc'
  · intro y hy
    unfold Before firstGregorian at hb
    simp only at hb
    have : y ≥ d.year - 1 := by simp only [y]; split <;> omega
    omega

theorem not_before_of_num_le (d e : Date) (hd : Valid d) (he : Valid e) (hds : Supported d) (hes : Supported e)
    (hc : d.calendar = e.calendar) (h : e.num ≤ d.num) : ¬ Before d e := fun hb => by
  have := num_lt d e hd he hds hes hc hb
  omega

theorem civil_tomorrow (d : Date) (h : Civil d) (h1 : -4715 ≤ d.year) (h2 : d.year < 1000000000) :
    Civil (civilTomorrow d) ∧ (civilTomorrow d).num = d.num + 1 ∧ Supported (civilTomorrow d) := by
  have hs := civil_supported d h h1 (by omega)
  unfold civilTomorrow
  split
  · rename_i hd
    subst hd
    refine ⟨⟨by decide, Or.inr ⟨rfl, by unfold Before firstGregorian; omega⟩⟩, by decide, by decide⟩
  · rename_i hd
    have ty := tomorrow_year d
    have hv := tomorrow_valid d h.1
    have hcn := civil_num d h hs
    have tc := tomorrow_calendar d
    rcases h.2 with ⟨hc, hb⟩ | ⟨hc, hb⟩
    · have st : Supported (tomorrow d) := ⟨by omega, by omega, fun h' => by rw [tc, hc] at h'; cases h'⟩
      have nt := num_tomorrow d h.1 hs st
      refine ⟨⟨hv, Or.inl ⟨tc.trans hc, ?_⟩⟩, nt, st⟩
      refine not_before_of_num_le lastJulian _ (by decide) hv (by decide) st (by rw [tc, hc]; rfl) ?_
      have n1 : lastJulian.num = 2299160 := by decide
      rcases before_trichotomy d lastJulian hc with h' | h' | h'
      · have := num_lt d lastJulian h.1 (by decide) hs (by decide) hc h'; omega
      · exact absurd h' hd
      · exact absurd h' hb
    · have yb : 1582 ≤ d.year := by unfold Before firstGregorian at hb; simp only at hb; omega
      have st : Supported (tomorrow d) := ⟨by omega, by omega, fun h' => by
        intro y hy
        have : y ≥ (tomorrow d).year - 1 := by simp only [y]; split <;> omega
        omega⟩
      have nt := num_tomorrow d h.1 hs st
      refine ⟨⟨hv, Or.inr ⟨tc.trans hc, ?_⟩⟩, nt, st⟩
      refine not_before_of_num_le _ firstGregorian hv (by decide) st (by decide) (by rw [tc, hc]; rfl) ?_
      have n1 : firstGregorian.num = 2299161 := by decide
      have := hcn.2 hc
      omega

theorem year_of_num (d : Date) (h : Civil d) (hs : Supported d) (hn : d.num ≤ 365000000000) : d.year < 1000000000 - 1 := by
  have ob := ordinal_bounds d h.1
  rw [num_ordinal d h.1 hs, ystart_eq] at hn
  have : 0 ≤ d.year → (d.year - 1) / 4 + (if d.calendar = .julian then 0 else 2 - (d.year - 1) / 100 + (d.year - 1) / 400) ≥ -2 := by
    intro; split <;> omega
  by_contra hc
  have := this (by omega)
  omega

theorem exists_civil (n : ℕ) (hn : (n : ℤ) ≤ 365000000000) : ∃ d, Civil d ∧ Supported d ∧ d.num = (n : ℤ) - 1095 := by
  induction n with
  | zero =>
    refine ⟨⟨-4715, 1, 1, .julian⟩, ⟨by decide, Or.inl ⟨rfl, by unfold Before lastJulian; simp⟩⟩, by decide, by decide⟩
  | succ n ih =>
    push_cast at hn ⊢
    obtain ⟨d, h1, h2, h3⟩ := ih (by omega)
    have hy := year_of_num d h1 h2 (by omega)
    obtain ⟨c1, c2, c3⟩ := civil_tomorrow d h1 h2.1 (by omega)
    exact ⟨civilTomorrow d, c1, c3, by omega⟩

/-- C27: every day has a civil date, which is the one computed from the Julian date of its beginning (the range is that
of the years -4715 to 999 000 000). -/
theorem C27_every_day (R : Fp) (Z : ℤ) (h1 : -1095 ≤ Z) (h2 : Z ≤ 364000000000) :
    ∃ d, Date.ofJD R ((Z : ℚ) - 1 / 2) = some d ∧ Civil d ∧ d.jd R = Z - 1 / 2 := by
  obtain ⟨d, h, hs, hn⟩ := exists_civil (Z + 1095).toNat (by omega)
  have hn' : d.num = Z := by omega
  have hj := jd_eq R d (valid_inRange h.1 hs)
  rw [hn'] at hj
  exact ⟨d, by rw [← hj]; exact C27_round_trip R d h hs, h, hj⟩

/-- C27: next_day() is the following day of civil history, from Thursday 4 October 1582 to Friday 15 October 1582 at the
reform. -/
theorem C27_next_day (R : Fp) (d : Date) (h : Civil d) (h1 : -4715 ≤ d.year) (h2 : d.year < 1000000000) :
    d.nextDay R = some (civilTomorrow d) := by
  obtain ⟨c1, c2, c3⟩ := civil_tomorrow d h h1 h2
  have hs := civil_supported d h h1 (by omega)
  have nb := num_bounds d h.1 hs
  unfold Date.nextDay
  have e : R.add (d.jd R) 1 = (civilTomorrow d).jd R := by
    rw [jd_eq R _ (valid_inRange h.1 hs), jd_eq R _ (valid_inRange c1.1 c3), c2]
    have := R.add_half d.num 1 (abs_le.2 ⟨by omega, by omega⟩)
    simpa using this
  rw [e, C27_round_trip R _ c1 c3]

/-- C27: for a date of the Julian calendar after the reform, or of the Gregorian calendar before it, next_day() denotes
the same day as the next day of that calendar. -/
theorem C27_next_day_proleptic (R : Fp) (d : Date) (h : Valid d) (hs : Supported d) (ht : Supported (tomorrow d))
    (h2 : d.year < 990000000) (h1 : -4700 ≤ d.year) :
    ∃ e, d.nextDay R = some e ∧ Civil e ∧ e.eqv R (tomorrow d) := by
  have nb : -1095 ≤ d.num + 1 ∧ d.num + 1 ≤ 364000000000 := by
    have kb := k_bounds d h
    rw [num_eq d ⟨h.1, h.2.1⟩ hs, ystart_eq]
    have my1 : -4701 ≤ d.my ∧ d.my ≤ 990000000 := by unfold Date.my; split <;> omega
    have : (if d.calendar = .julian then 0 else 2 - d.my / 100 + d.my / 400) ≤ 50 ∧
      (d.my ≤ 0 → (if d.calendar = .julian then 0 else 2 - d.my / 100 + d.my / 400) ≥ 0) ∧
      (0 ≤ d.my → (if d.calendar = .julian then 0 else 2 - d.my / 100 + d.my / 400) + d.my ≥ 0):= by
        split <;> omega
    omega
  obtain ⟨e, he, hc, hj⟩ := C27_every_day R (d.num + 1) nb.1 nb.2
  have e1 : R.add (d.jd R) 1 = ((d.num + 1 : ℤ) : ℚ) - 1 / 2 := by
    rw [jd_eq R _ (valid_inRange h hs)]
    have := R.add_half d.num 1 (abs_le.2 ⟨by omega, by omega⟩)
    simpa using this
  refine ⟨e, by unfold Date.nextDay; rw [e1]; exact he, hc, ?_⟩
  unfold Date.eqv
  rw [hj, jd_eq R _ (valid_inRange (tomorrow_valid d h) ht), num_tomorrow d h hs ht]

/-- C27: reference points: noon on 1 January 4713 BC of the Julian calendar is Julian date 0; 1 January 2000 starts at
2 451 544.5; 4 October 1582 (Julian) is followed by 15 October 1582 (Gregorian). -/
theorem C27_anchors (R : Fp) :
    Date.jd R ⟨-4712, 1, 1, .julian⟩ = -1 / 2 ∧ Date.jd R ⟨2000, 1, 1, .gregorian⟩ = 2451544 + 1 / 2 ∧
    firstGregorian.jd R = lastJulian.jd R + 1 := by
  refine ⟨?_, ?_, ?_⟩
  · rw [jd_eq R _ (valid_inRange (by decide) (by decide)),
      show (Date.mk (-4712) 1 1 .julian).num = 0 by decide]; norm_num
  · rw [jd_eq R _ (valid_inRange (by decide) (by decide)),
      show (Date.mk 2000 1 1 .gregorian).num = 2451545 by decide]; norm_num
  · rw [jd_eq R _ (valid_inRange (by decide) (by decide)), jd_eq R _ (valid_inRange (by decide) (by decide)),
      show firstGregorian.num = 2299161 by decide, show lastJulian.num = 2299160 by decide]; norm_num

/-- C27: the ordinal of a date is its rank in its year. -/
theorem C27_ordinal (R : Fp) (d : Date) (h : Valid d) (hs : Supported d)
    (hj : Supported ⟨d.year, 1, 1, d.calendar⟩) : d.ordinal R = Spec.ordinal d := by
  have v1 : Valid ⟨d.year, 1, 1, d.calendar⟩ :=
    ⟨le_refl _, by norm_num, le_refl _, (by norm_num : (1 : ℤ) ≤ 28).trans (daysInMonth_pos _ _ _)⟩
  have ob := ordinal_bounds d h
  have yl : daysInYear d.calendar d.year ≤ 366 := by unfold daysInYear; split <;> omega
  have o1 : Spec.ordinal ⟨d.year, 1, 1, d.calendar⟩ = 1 := by rw [ordinal_eq _ ⟨le_refl _, by norm_num⟩]; simp [cum]
  unfold Date.ordinal
  rw [jd_eq R _ (valid_inRange h hs), jd_eq R _ (valid_inRange v1 hj), num_ordinal d h hs, num_ordinal _ v1 hj, o1]
  simp only
  have e1 : R.sub (((ystart d.calendar (d.year - 1) + 428 - 1524 + Spec.ordinal d : ℤ) : ℚ) - 1 / 2)
      (((ystart d.calendar (d.year - 1) + 428 - 1524 + 1 : ℤ) : ℚ) - 1 / 2) = ((Spec.ordinal d - 1 : ℤ) : ℚ) := by
    unfold Fp.sub
    rw [← R.fl_int (Spec.ordinal d - 1) (abs_le.2 ⟨by omega, by omega⟩)]
    congr 1; push_cast; ring
  have e2 := R.add_int (Spec.ordinal d - 1) 1 (abs_le.2 ⟨by omega, by omega⟩)
  rw [show ((1 : ℤ) : ℚ) = 1 from rfl] at e2
  rw [e1, e2, trunc_int]; ring

/-- Every number up to the length of the year is the ordinal of a date. -/
theorem exists_ordinal (c : Cal) (y n : ℤ) (h1 : 1 ≤ n) (h2 : n ≤ daysInYear c y) :
    ∃ d, Valid d ∧ d.year = y ∧ d.calendar = c ∧ Spec.ordinal d = n := by
  suffices h : ∃ m, 1 ≤ m ∧ m ≤ 12 ∧ cum c y m < n ∧ n ≤ cum c y m + daysInMonth c y m by
    obtain ⟨m, m1, m2, m3, m4⟩ := h
    refine ⟨⟨y, m, n - cum c y m, c⟩, ⟨m1, m2, by show 1 ≤ n - cum c y m; omega, ?_⟩, rfl, rfl, ?_⟩
    · show n - cum c y m ≤ daysInMonth c y m; omega
    · rw [ordinal_eq _ ⟨m1, m2⟩]; simp
  have step : ∀ m, 1 ≤ m → m ≤ 11 → cum c y (m + 1) = cum c y m + daysInMonth c y m := by
    intro m m1 m2
    unfold cum daysInMonth
    by_cases hl : Leap c y <;> simp only [hl, if_true, if_false, true_and, false_and] <;> interval_cases m <;> decide
  have last : cum c y 12 + daysInMonth c y 12 = daysInYear c y := by
    unfold cum daysInMonth daysInYear
    by_cases hl : Leap c y <;> simp [hl]
  have first : cum c y 1 = 0 := by unfold cum; simp
  by_contra hcon
  push Not at hcon
  have all : ∀ k : ℕ, k ≤ 11 → cum c y ((k : ℤ) + 1) < n := by
    intro k
    induction k with
    | zero => intro _; simp [first]; omega
    | succ k ih =>
      intro hk
      have := hcon ((k : ℤ) + 1) (by omega) (by omega) (ih (by omega))
      push_cast
      rw [step _ (by omega) (by omega)]; exact this
  have := hcon 12 (by norm_num) (by norm_num) (by have := all 11 (le_refl _); norm_num at this; exact this)
  omega

theorem jan1_valid (y : ℤ) (c : Cal) : Valid ⟨y, 1, 1, c⟩ :=
  ⟨le_refl _, by norm_num, le_refl _, (by norm_num : (1 : ℤ) ≤ 28).trans (daysInMonth_pos _ _ _)⟩

theorem jan1_num (y : ℤ) (c : Cal) (hs : Supported ⟨y, 1, 1, c⟩) : (Date.mk y 1 1 c).num = ystart c (y - 1) + 428 - 1524 + 1 := by
  rw [num_ordinal _ (jan1_valid y c) hs, ordinal_eq _ ⟨le_refl _, by norm_num⟩]; simp [cum]

/-- The ranges used for dates built from ordinals and weeks. -/
theorem num_range (d : Date) (h : Valid d) (hs : Supported d) (h1 : -4700 ≤ d.year) (h2 : d.year < 990000000) :
    -1000 ≤ d.num ∧ d.num + 1000 ≤ 364000000000 := by
  have kb := k_bounds d h
  rw [num_eq d ⟨h.1, h.2.1⟩ hs, ystart_eq]
  have my1 : -4701 ≤ d.my ∧ d.my ≤ 990000000 := by unfold Date.my; split <;> omega
  have : (if d.calendar = .julian then 0 else 2 - d.my / 100 + d.my / 400) ≤ 50 ∧
    (d.my ≤ 0 → (if d.calendar = .julian then 0 else 2 - d.my / 100 + d.my / 400) ≥ 0) ∧
    (0 ≤ d.my → (if d.calendar = .julian then 0 else 2 - d.my / 100 + d.my / 400) + d.my ≥ 0):= by
      split <;> omega
  omega

/-- C27: constructing a date from its year and ordinal yields that date if it is in the calendar that was in force, and
otherwise the same day in the calendar that was in force. -/
theorem C27_from_ordinal (R : Fp) (d : Date) (h : Valid d) (hs : Supported d)
    (hj : Supported ⟨d.year, 1, 1, d.calendar⟩) (h1 : -4700 ≤ d.year) (h2 : d.year < 990000000) :
    ∃ e, Date.ofOrdinal R d.year (Spec.ordinal d) (some d.calendar) = some e ∧ Civil e ∧ e.eqv R d ∧ (Civil d → e = d) := by
  have ob := ordinal_bounds d h
  have yl : daysInYear d.calendar d.year ≤ 366 := by unfold daysInYear; split <;> omega
  have nr := num_range d h hs h1 h2
  have no := num_ordinal d h hs
  have j1 := jan1_num _ _ hj
  have e1 : R.add (Date.jd R ⟨d.year, 1, 1, d.calendar⟩) ((Spec.ordinal d - 1 : ℤ) : ℚ) = (d.num : ℚ) - 1 / 2 := by
    rw [jd_eq R _ (valid_inRange (jan1_valid _ _) hj), R.add_half _ _ (abs_le.2 ⟨by omega, by omega⟩)]
    congr 2; omega
  have hdj := jd_eq R d (valid_inRange h hs)
  have e2 : Date.ofOrdinal R d.year (Spec.ordinal d) (some d.calendar) = Date.ofJD R (d.jd R) := by
    unfold Date.ofOrdinal
    simp only [defaultCalendar, Option.bind_eq_bind, Option.bind_some, yearLength_eq]
    rw [if_pos ob, e1, hdj]
  obtain ⟨e, he, hc, hje⟩ := C27_every_day R d.num (by omega) (by omega)
  refine ⟨e, by rw [e2, hdj]; exact he, hc, by unfold Date.eqv; rw [hje, hdj], fun hcd => ?_⟩
  have := C27_round_trip R d hcd hs
  rw [hdj, he] at this
  exact Option.some.inj this

/-- C27: the ordinals accepted are those of the days of the year, and the Gregorian calendar is assumed from 1583 on only. -/
theorem C27_from_ordinal_checks (R : Fp) (y n : ℤ) (c : Option Cal) :
    (c = none → Date.ofOrdinal R y n c = if 1583 ≤ y then Date.ofOrdinal R y n (some .gregorian) else none) ∧
    (∀ c', c = some c' → ¬ (∃ d, Valid d ∧ d.year = y ∧ d.calendar = c' ∧ Spec.ordinal d = n) → Date.ofOrdinal R y n c = none) := by
  constructor
  · rintro rfl
    unfold Date.ofOrdinal
    by_cases h : 1583 ≤ y
    · simp [h, defaultCalendar]
    · simp [h, defaultCalendar]
  · rintro c' rfl h
    unfold Date.ofOrdinal
    simp only [defaultCalendar, Option.bind_eq_bind, Option.bind_some, yearLength_eq]
    rw [if_neg]
    rintro ⟨a, b⟩
    exact h (exists_ordinal c' y n a b)

/-- C27: constructing a date from its fields succeeds exactly for the dates that exist (in the years up to 9999), with the
Gregorian calendar being assumed from 1583 on only. -/
theorem C27_from_fields (y m n : ℤ) (c : Option Cal) (d : Date) :
    Date.ofCalendar y m n c = some d ↔
      d.year = y ∧ d.month = m ∧ d.day = n ∧ (c = some d.calendar ∨ c = none ∧ 1583 ≤ y ∧ d.calendar = .gregorian) ∧
      Valid d ∧ y ≤ 9999 := by
  have key : ∀ c' : Cal, ((if y ≤ 9999 ∧ m ≥ 1 ∧ m ≤ 12 ∧ n ≥ 1 ∧ n ≤ monthLength y m c' then some (Date.mk y m n c') else none)
      = some d) ↔ d = ⟨y, m, n, c'⟩ ∧ Valid ⟨y, m, n, c'⟩ ∧ y ≤ 9999 := by
    intro c'
    by_cases hm : 1 ≤ m ∧ m ≤ 12
    · rw [monthLength_eq y m c' hm.1 hm.2]
      unfold Valid
      simp only
      split
      · rename_i h
        constructor
        · intro h'; exact ⟨(Option.some.inj h').symm, ⟨hm.1, hm.2, h.2.2.2⟩, h.1⟩
        · rintro ⟨rfl, -⟩; rfl
      · rename_i h
        constructor
        · intro h'; cases h'
        · rintro ⟨-, hv, hy⟩; exact absurd ⟨hy, hm.1, hm.2, hv.2.2⟩ h
    · rw [if_neg (by omega)]
      constructor
      · intro h'; cases h'
      · rintro ⟨-, hv, -⟩; exact absurd ⟨hv.1, hv.2.1⟩ hm
  unfold Date.ofCalendar
  cases c with
  | some c' =>
    simp only [defaultCalendar, Option.bind_eq_bind, Option.bind_some]
    rw [key]
    constructor
    · rintro ⟨rfl, hv, hy⟩; exact ⟨rfl, rfl, rfl, Or.inl rfl, hv, hy⟩
    · rintro ⟨rfl, rfl, rfl, h | h, hv, hy⟩
      · cases h; exact ⟨rfl, hv, hy⟩
      · exact absurd h.1 (by simp)
  | none =>
    by_cases h : y ≥ 1583
    · have hdc : defaultCalendar y none = some .gregorian := if_pos h
      rw [hdc, Option.bind_eq_bind, Option.bind_some, key]
      constructor
      · rintro ⟨rfl, hv, hy⟩; exact ⟨rfl, rfl, rfl, Or.inr ⟨rfl, h, rfl⟩, hv, hy⟩
      · rintro ⟨rfl, rfl, rfl, h' | h', hv, hy⟩
        · cases h'
        · refine ⟨?_, ?_, hy⟩
          · rw [← h'.2.2]
          · rw [← h'.2.2]; exact hv
    · have hdc : defaultCalendar y none = none := if_neg h
      rw [hdc]
      simp only [Option.bind_eq_bind, Option.bind_none]
      constructor
      · intro h'; cases h'
      · rintro ⟨rfl, rfl, rfl, h' | h', hv, hy⟩
        · cases h'
        · omega

theorem supported_gregorian (d : Date) (hc : 1583 ≤ d.year) (h2 : d.year ≤ 20000) : Supported d := by
  refine ⟨by omega, by omega, fun _ => ?_⟩
  intro y hy
  have : y ≥ d.year - 1 := by simp only [y]; split <;> omega
  omega

theorem dayOfWeek_eq (R : Fp) (y : ℤ) (h1 : 1583 ≤ y) (h2 : y ≤ 9999) :
    dayOfWeekOnJanuary1st R y = some (((Date.mk y 1 1 .gregorian).num + 1) % 7) := by
  have hs : Supported ⟨y, 1, 1, .gregorian⟩ := supported_gregorian _ h1 (by show y ≤ 20000; omega)
  have hc : Date.ofCalendar y 1 1 none = some ⟨y, 1, 1, .gregorian⟩ :=
    (C27_from_fields _ _ _ _ _).2 ⟨rfl, rfl, rfl, Or.inr ⟨rfl, h1, rfl⟩, jan1_valid _ _, h2⟩
  have jn := jan1_num y .gregorian hs
  rw [ystart_eq, if_neg (by decide)] at jn
  unfold dayOfWeekOnJanuary1st
  rw [hc]
  simp only [Option.bind_eq_bind, Option.bind_some]
  rw [jd_eq R _ (valid_inRange (jan1_valid _ _) hs), R.fl_eq (x := 1.5) 6 (by norm_num) (by norm_num)]
  generalize hJ : (Date.mk y 1 1 .gregorian).num = J at *
  have e : R.add ((J : ℚ) - 1 / 2) 1.5 = ((J + 1 : ℤ) : ℚ) := by
    unfold Fp.add
    rw [← R.fl_int (J + 1) (abs_le.2 ⟨by omega, by omega⟩)]
    congr 1; push_cast; ring
  have ei : Mod.inInt (J + 1) := by unfold Mod.inInt; omega
  rw [e, trunc_int, show Mod.ck (J + 1) = some (J + 1) from if_pos ei]
  simp only [Option.bind_some]
  obtain ⟨r, r1, r2, r3⟩ := Mod.C04_mod_small_divisor (J + 1) 7 ei (by norm_num) (by norm_num) (by omega)
  rw [r1, r3 ((J + 1) % 7) ⟨by omega, by omega, by omega⟩]

theorem ordinalOfW011_eq (R : Fp) (y : ℤ) (h1 : 1583 ≤ y) (h2 : y ≤ 9999) :
    ordinalOfW011 R y = some ((4 - ((Date.mk y 1 1 .gregorian).num + 1) % 7) % 7 - 2) := by
  unfold ordinalOfW011
  rw [dayOfWeek_eq R y h1 h2]
  simp only [Option.bind_eq_bind, Option.bind_some]
  generalize hw : ((Date.mk y 1 1 .gregorian).num + 1) % 7 = w
  have hw1 : 0 ≤ w ∧ w < 7 := by omega
  obtain ⟨r, r1, r2, r3⟩ := Mod.C04_mod_offset (2 - w) 7 (-2) (by unfold Mod.inInt; omega) (by unfold Mod.inInt; omega)
    (by norm_num) (by omega)
    (by have := Mod.tmod_cases (2 - w - -2) 7 (by norm_num); unfold Mod.inInt; omega)
    (by intro r hr; have := hr.2.1 (by norm_num); unfold Mod.inInt; omega)
  rw [r1, r3 ((4 - w) % 7 - 2) ⟨by omega, by omega, by omega⟩]

theorem weekday_num (R : Fp) (d : Date) (h : Valid d) (hs : Supported d) (k : ℤ) :
    Weekday (d.jd R) k ↔ 1 ≤ k ∧ k ≤ 7 ∧ d.num % 7 = k - 1 := by
  unfold Weekday
  rw [jd_eq R d (valid_inRange h hs)]
  constructor
  · rintro ⟨h1, h2, n, hn⟩
    have : d.num = 7 * n + (k - 1) := by
      have : (d.num : ℚ) = 7 * n + (k - 1) := by linarith
      exact_mod_cast this
    exact ⟨h1, h2, by omega⟩
  · rintro ⟨h1, h2, h3⟩
    refine ⟨h1, h2, d.num / 7, ?_⟩
    have : d.num = 7 * (d.num / 7) + (k - 1) := by omega
    have : (d.num : ℚ) = 7 * ((d.num / 7 : ℤ) : ℚ) + (k - 1) := by exact_mod_cast this
    linarith

/-- The evaluation of `Date::Week`. -/
theorem ofWeek_eq (R : Fp) (y w k : ℤ) :
    Date.ofWeek R y w k =
      if 1583 ≤ y ∧ y ≤ 9999 ∧ 1 ≤ w ∧ 1 ≤ k ∧ k ≤ 7 ∧
        (4 - ((Date.mk y 1 1 .gregorian).num + 1) % 7) % 7 + 1 + 7 * (w - 1) ≤ daysInYear .gregorian y then
        Date.ofJD R ((((Date.mk y 1 1 .gregorian).num + (4 - ((Date.mk y 1 1 .gregorian).num + 1) % 7) % 7 - 3
          + 7 * (w - 1) + (k - 1) : ℤ) : ℚ) - 1 / 2)
      else none := by
  unfold Date.ofWeek
  by_cases h1 : y ≥ 1583 ∧ w ≥ 1
  · rw [if_pos h1]
    by_cases h2 : y ≤ 9999
    · have hs : Supported ⟨y, 1, 1, .gregorian⟩ := supported_gregorian _ h1.1 (by show y ≤ 20000; omega)
      have hc : Date.ofCalendar y 1 1 none = some ⟨y, 1, 1, .gregorian⟩ :=
        (C27_from_fields _ _ _ _ _).2 ⟨rfl, rfl, rfl, Or.inr ⟨rfl, h1.1, rfl⟩, jan1_valid _ _, h2⟩
      have jn := jan1_num y .gregorian hs
      rw [ystart_eq, if_neg (by decide)] at jn
      have hn : numberOfIsoWeeksInYear R y = some (if ((Date.mk y 1 1 .gregorian).num + 1) % 7 = 4 ∨
          (Leap .gregorian y ∧ ((Date.mk y 1 1 .gregorian).num + 1) % 7 = 3) then 53 else 52) := by
        unfold numberOfIsoWeeksInYear
        rw [dayOfWeek_eq R y h1.1 h2]
        simp only [Option.bind_eq_bind, Option.bind_some, isLeapYear_iff]
        rfl
      rw [hn, hc, ordinalOfW011_eq R y h1.1 h2]
      simp only [Option.bind_eq_bind, Option.bind_some]
      generalize hJ : (Date.mk y 1 1 .gregorian).num = J at *
      have hcond : (w ≤ (if (J + 1) % 7 = 4 ∨ (Leap .gregorian y ∧ (J + 1) % 7 = 3) then 53 else 52) ∧ k ≥ 1 ∧ k ≤ 7) ↔
          (1583 ≤ y ∧ y ≤ 9999 ∧ 1 ≤ w ∧ 1 ≤ k ∧ k ≤ 7 ∧
            (4 - (J + 1) % 7) % 7 + 1 + 7 * (w - 1) ≤ daysInYear .gregorian y) := by
        unfold daysInYear
        have hω : 0 ≤ (J + 1) % 7 ∧ (J + 1) % 7 < 7 := by omega
        obtain ⟨ω1, ω2⟩ := hω
        generalize (J + 1) % 7 = ω at *
        clear hn jn
        by_cases hl : Leap .gregorian y
        · simp only [hl, true_and, if_true]
          interval_cases ω <;> norm_num <;> omega
        · simp only [hl, false_and, or_false, if_false]
          interval_cases ω <;> norm_num <;> omega
      by_cases hw : (w ≤ (if (J + 1) % 7 = 4 ∨ (Leap .gregorian y ∧ (J + 1) % 7 = 3) then 53 else 52) ∧ k ≥ 1 ∧ k ≤ 7)
      · have hw' := hcond.1 hw
        have : daysInYear .gregorian y ≤ 366 := by unfold daysInYear; split <;> omega
        rw [if_pos hw, if_pos hw', jd_eq R _ (valid_inRange (jan1_valid _ _) hs), hJ]
        rw [R.add_half _ _ (abs_le.2 ⟨by omega, by omega⟩), R.add_half _ _ (abs_le.2 ⟨by omega, by omega⟩),
          R.add_half _ _ (abs_le.2 ⟨by omega, by omega⟩)]
        congr 3; ring
      · rw [if_neg hw, if_neg (fun h => hw (hcond.2 h))]
    · have : dayOfWeekOnJanuary1st R y = none := by
        unfold dayOfWeekOnJanuary1st
        have : Date.ofCalendar y 1 1 none = none := by
          rcases h : Date.ofCalendar y 1 1 none with _ | d
          · rfl
          · exact absurd ((C27_from_fields _ _ _ _ _).1 h).2.2.2.2.2 h2
        rw [this]; rfl
      have : numberOfIsoWeeksInYear R y = none := by unfold numberOfIsoWeeksInYear; rw [this]; rfl
      rw [this, if_neg (fun h => h2 h.2.1)]; rfl
  · rw [if_neg h1, if_neg (fun h => h1 ⟨h.1, h.2.2.1⟩)]

/-- C27: the week date YYYY-Www-D of ISO 8601 denotes the day which is the D-th of the week, starting on Monday, that contains
the w-th Thursday of the year; and every such date is accepted in the years 1583 to 9999. -/
theorem C27_week (R : Fp) (y w k : ℤ) :
    (∀ d, Date.ofWeek R y w k = some d →
      1583 ≤ y ∧ y ≤ 9999 ∧ Civil d ∧ Weekday (d.jd R) k ∧
      ∃ thursday, Valid thursday ∧ thursday.calendar = .gregorian ∧ thursday.year = y ∧
        Weekday (thursday.jd R) 4 ∧ thursday.jd R - d.jd R = 4 - k ∧
        7 * (w - 1) < Spec.ordinal thursday ∧ Spec.ordinal thursday ≤ 7 * w) ∧
    (∀ thursday, Valid thursday → thursday.calendar = .gregorian → thursday.year = y → 1583 ≤ y → y ≤ 9999 →
      Weekday (thursday.jd R) 4 → 7 * (w - 1) < Spec.ordinal thursday → Spec.ordinal thursday ≤ 7 * w →
      1 ≤ k → k ≤ 7 → ∃ d, Date.ofWeek R y w k = some d) := by
  rw [ofWeek_eq]
  constructor
  · intro d hd
    split at hd
    · rename_i h
      obtain ⟨y1, y2, w1, k1, k2, hw⟩ := h
      have hs : Supported ⟨y, 1, 1, .gregorian⟩ := supported_gregorian _ y1 (by show y ≤ 20000; omega)
      have jn := jan1_num y .gregorian hs
      have jn' := jn
      rw [ystart_eq, if_neg (by decide)] at jn'
      generalize hJ : (Date.mk y 1 1 .gregorian).num = J at *
      have yl : daysInYear .gregorian y ≤ 366 := by unfold daysInYear; split <;> omega
      obtain ⟨d', hd', hc, hj⟩ := C27_every_day R (J + (4 - (J + 1) % 7) % 7 - 3 + 7 * (w - 1) + (k - 1)) (by omega) (by omega)
      rw [hd] at hd'
      obtain rfl := Option.some.inj hd'
      obtain ⟨th, t1, t2, t3, t4⟩ := exists_ordinal .gregorian y ((4 - (J + 1) % 7) % 7 + 1 + 7 * (w - 1)) (by omega) hw
      have ts : Supported th := supported_gregorian _ (by omega) (by omega)
      have tn := num_ordinal th t1 ts
      rw [t2, t3, t4] at tn
      have tn' : th.num = J + (4 - (J + 1) % 7) % 7 + 7 * (w - 1) := by omega
      refine ⟨y1, y2, hc, ⟨k1, k2, (J + (4 - (J + 1) % 7) % 7 - 3 + 7 * (w - 1)) / 7, ?_⟩, th, t1, t3, t2, ?_, ?_, by omega, by omega⟩
      · rw [hj]
        have : J + (4 - (J + 1) % 7) % 7 - 3 + 7 * (w - 1) + (k - 1) =
          7 * ((J + (4 - (J + 1) % 7) % 7 - 3 + 7 * (w - 1)) / 7) + (k - 1) := by omega
        have : ((J + (4 - (J + 1) % 7) % 7 - 3 + 7 * (w - 1) + (k - 1) : ℤ) : ℚ) =
          7 * ((((J + (4 - (J + 1) % 7) % 7 - 3 + 7 * (w - 1)) / 7 : ℤ) : ℚ)) + (k - 1) := by exact_mod_cast this
        linarith
      · rw [weekday_num R th t1 ts]; exact ⟨by norm_num, by norm_num, by omega⟩
      · rw [hj, jd_eq R th (valid_inRange t1 ts), tn']
        push_cast; ring
    · cases hd
  · intro th t1 t2 t3 y1 y2 tw o1 o2 k1 k2
    have ob := ordinal_bounds th t1
    have ts : Supported th := supported_gregorian _ (by omega) (by omega)
    rw [weekday_num R th t1 ts] at tw
    have hs : Supported ⟨y, 1, 1, .gregorian⟩ := supported_gregorian _ y1 (by show y ≤ 20000; omega)
    have jn := jan1_num y .gregorian hs
    have tn := num_ordinal th t1 ts
    rw [t2, t3] at tn ob
    have jn' := jn
    rw [ystart_eq, if_neg (by decide)] at jn'
    generalize hJ : (Date.mk y 1 1 .gregorian).num = J at *
    have yl : daysInYear .gregorian y ≤ 366 := by unfold daysInYear; split <;> omega
    have e : (4 - (J + 1) % 7) % 7 + 1 + 7 * (w - 1) = Spec.ordinal th := by omega
    rw [if_pos ⟨y1, y2, by omega, k1, k2, by omega⟩]
    obtain ⟨d', hd', hc, hj⟩ := C27_every_day R (J + (4 - (J + 1) % 7) % 7 - 3 + 7 * (w - 1) + (k - 1)) (by omega) (by omega)
    exact ⟨d', hd'⟩

/-- C27: the Modified Julian Date counts days since 1858-11-17. -/
theorem C27_mjd (R : Fp) (d : Date) (h : Valid d) (hs : Supported d) (h2 : d.year ≤ 5000000) :
    ∃ n, d.mjd R = some n ∧ d.jd R = n + 2400000 + 1 / 2 := by
  have hn : -1095 - 1000 ≤ d.num ∧ d.num ≤ 2000000000 := by
    have nb := num_bounds d h hs
    have ob := ordinal_bounds d h
    have yl : daysInYear d.calendar d.year ≤ 366 := by unfold daysInYear; split <;> omega
    have no := num_ordinal d h hs
    rw [ystart_eq] at no
    have : (if d.calendar = .julian then 0 else 2 - (d.year - 1) / 100 + (d.year - 1) / 400) ≤ 50 := by
      have := hs.1
      split <;> omega
    omega
  refine ⟨d.num - 2400001, ?_, ?_⟩
  · unfold Date.mjd
    rw [jd_eq R d (valid_inRange h hs), R.fl_eq (x := 2400000.5) 9600002 (by norm_num) (by norm_num)]
    have e : R.sub ((d.num : ℚ) - 1 / 2) 2400000.5 = ((d.num - 2400001 : ℤ) : ℚ) := by
      unfold Fp.sub
      rw [← R.fl_int (d.num - 2400001) (abs_le.2 ⟨by omega, by omega⟩)]
      congr 1; push_cast; ring
    rw [e, trunc_int]
    exact if_pos (by unfold Mod.inInt; omega)
  · rw [jd_eq R d (valid_inRange h hs)]; push_cast; ring

/-- C27 does not hold for the Gregorian dates excluded by `Supported`: 28 February and 1 March of the year 101 BC (year -100) are two
consecutive days, but their Julian dates differ by two. -/
theorem C27_negative_century_counterexample (R : Fp) :
    Valid ⟨-100, 2, 28, .gregorian⟩ ∧ tomorrow ⟨-100, 2, 28, .gregorian⟩ = ⟨-100, 3, 1, .gregorian⟩ ∧
    Date.jd R ⟨-100, 3, 1, .gregorian⟩ = Date.jd R ⟨-100, 2, 28, .gregorian⟩ + 2 := by
  refine ⟨by decide, by decide, ?_⟩
  rw [jd_eq R _ ⟨by decide, by decide, by decide, by decide, by decide, by decide⟩,
    jd_eq R _ ⟨by decide, by decide, by decide, by decide, by decide, by decide⟩,
    show (Date.mk (-100) 3 1 .gregorian).num = (Date.mk (-100) 2 28 .gregorian).num + 2 by decide]
  push_cast; ring

/-! ## The hypotheses are met

Two rounding functions: exact arithmetic and truncation to 80 binary places. -/

def Fp.rational : Fp where
  fl := id
  exact := fun _ _ => rfl
  close := fun x _ _ => by rw [id, sub_self, abs_zero]; positivity

def Fp.fixed : Fp where
  fl := fun x => (⌊x * 2 ^ 80⌋ : ℚ) / 2 ^ 80
  exact := fun n _ => by
    have : (n : ℚ) / 4 * 2 ^ 80 = ((n * 2 ^ 78 : ℤ) : ℚ) := by push_cast; ring
    rw [this, Int.floor_intCast]; push_cast; ring
  close := fun x h _ => by
    have h1 := Int.floor_le (x * 2 ^ 80)
    have h2 := Int.lt_floor_add_one (x * 2 ^ 80)
    rw [abs_le]
    have e : ((⌊x * 2 ^ 80⌋ : ℤ) : ℚ) / 2 ^ 80 - x = ((⌊x * 2 ^ 80⌋ : ℤ) - x * 2 ^ 80) / 2 ^ 80 := by field_simp
    have : (1 : ℚ) / 2 ^ 80 ≤ |x| / 2 ^ 52 := by
      rw [div_le_div_iff₀ (by positivity) (by positivity)]
      rw [div_le_iff₀ (by positivity)] at h
      nlinarith
    rw [e]
    constructor
    · refine le_trans (neg_le_neg this) ?_
      rw [← neg_div]
      apply div_le_div_of_nonneg_right _ (by positivity)
      linarith
    · refine le_trans ?_ this
      apply div_le_div_of_nonneg_right _ (by positivity)
      linarith

theorem civil_of_gregorian (d : Date) (h : Valid d) (hc : d.calendar = .gregorian) (hy : 1583 ≤ d.year) : Civil d :=
  ⟨h, Or.inr ⟨hc, by unfold Before firstGregorian; simp only; omega⟩⟩

example : Date.ofJD Fp.fixed (Date.jd Fp.fixed ⟨2000, 2, 29, .gregorian⟩) = some ⟨2000, 2, 29, .gregorian⟩ :=
  C27_round_trip _ _ (civil_of_gregorian _ (by decide) rfl (by decide)) (by decide)
example : Date.nextDay Fp.fixed ⟨1582, 10, 4, .julian⟩ = some ⟨1582, 10, 15, .gregorian⟩ :=
  C27_next_day _ _ ⟨by decide, Or.inl ⟨rfl, by unfold Before lastJulian; omega⟩⟩ (by decide) (by decide)
example : Date.nextDay Fp.rational ⟨1999, 12, 31, .gregorian⟩ = some ⟨2000, 1, 1, .gregorian⟩ :=
  C27_next_day _ _ (civil_of_gregorian _ (by decide) rfl (by decide)) (by decide) (by decide)
example : (tomorrow ⟨-500, 2, 29, .julian⟩).jd Fp.fixed = Date.jd Fp.fixed ⟨-500, 2, 29, .julian⟩ + 1 :=
  C27_consecutive _ _ (by decide) (by decide) (by decide)
example : Date.ordinal Fp.fixed ⟨1900, 12, 31, .gregorian⟩ = 365 :=
  (C27_ordinal _ _ (by decide) (by decide) (by decide)).trans (by decide)
example : Date.lt Fp.fixed ⟨-99, 3, 1, .gregorian⟩ ⟨1, 1, 1, .gregorian⟩ :=
  (C27_order Fp.fixed ⟨-99, 3, 1, .gregorian⟩ ⟨1, 1, 1, .gregorian⟩ (by decide) (by decide) (by decide) (by decide) rfl).1.2 (Or.inl (by decide))
example : ∃ e, Date.ofOrdinal Fp.fixed 1000 60 (some .gregorian) = some e ∧ Civil e ∧ e.eqv Fp.fixed ⟨1000, 3, 1, .gregorian⟩ := by
  obtain ⟨e, h1, h2, h3, -⟩ := C27_from_ordinal Fp.fixed ⟨1000, 3, 1, .gregorian⟩ (by decide) (by decide) (by decide)
    (by decide) (by decide)
  exact ⟨e, h1, h2, h3⟩
/-- The week 2020-W53 exists: its Thursday is 31 December. -/
example : ∃ d, Date.ofWeek Fp.fixed 2020 53 7 = some d :=
  (C27_week Fp.fixed 2020 53 7).2 ⟨2020, 12, 31, .gregorian⟩ (by decide) rfl rfl (by decide) (by decide)
    ((weekday_num _ _ (by decide) (by decide) _).2 ⟨by decide, by decide, by decide⟩)
    (by decide) (by decide) (by decide) (by decide)

end Principia.Calendar
