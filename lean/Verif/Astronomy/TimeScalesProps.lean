import Verif.Astronomy.TimeScalesModel
import Verif.Astronomy.TimeScalesSpec
import Verif.Astronomy.CalendarProps
import Verif.Astronomy.LiteralsProps
import Mathlib.Algebra.BigOperators.Intervals
import Mathlib.Algebra.Order.BigOperators.Group.Finset
import Mathlib.Tactic.IntervalCases

/-!
C88: the time scales.
-/

set_option linter.unusedSimpArgs false
set_option linter.unusedVariables false

namespace Principia.Calendar

open Spec

/-- The table. -/
def tbl (i : ℕ) : ℤ := leapSeconds.getD i 0

/-- TAI - UTC in the half-year of the given index. -/
def halfOffset (i : ℕ) : ℤ := 10 + (Finset.range i).sum tbl

/-- The half-year of a date. -/
def half (d : Date) : ℕ := 2 * (d.year - 1972).toNat + if d.month > 6 then 1 else 0

theorem tbl_range : ∀ i < 102, (tbl i = 0 ∨ tbl i = 1) := by decide

theorem tbl_nonneg (i : ℕ) : 0 ≤ tbl i := by
  by_cases h : i < 102
  · rcases tbl_range i h with h | h <;> omega
  · have e : leapSeconds[i]? = none := by
      rw [List.getElem?_eq_none_iff]
      have : leapSeconds.length = 102 := by decide
      omega
    rw [tbl, List.getD_eq_getElem?_getD, e]; exact le_rfl

theorem leapSecond_june (n : ℕ) (hn : n < 51) : leapSecond (1972 + n) 6 = some (tbl (2 * n)) := by
  have : ∀ n < 51, leapSecond (1972 + (n : ℕ)) 6 = some (tbl (2 * n)) := by decide +kernel
  exact this n hn

theorem leapSecond_december (n : ℕ) (hn : n < 51) : leapSecond (1972 + n) 12 = some (tbl (2 * n + 1)) := by
  have : ∀ n < 51, leapSecond (1972 + (n : ℕ)) 12 = some (tbl (2 * n + 1)) := by decide +kernel
  exact this n hn

theorem tbl_june (n : ℕ) (hn : n < 51) : tbl (2 * n) = if ((1972 + n : ℤ), (6 : ℤ)) ∈ leapMonths then 1 else 0 := by
  have : ∀ n < 51, tbl (2 * n) = if ((1972 + (n : ℕ) : ℤ), (6 : ℤ)) ∈ leapMonths then 1 else 0 := by decide +kernel
  exact this n hn

theorem tbl_december (n : ℕ) (hn : n < 51) : tbl (2 * n + 1) = if ((1972 + n : ℤ), (12 : ℤ)) ∈ leapMonths then 1 else 0 := by
  have : ∀ n < 51, tbl (2 * n + 1) = if ((1972 + (n : ℕ) : ℤ), (12 : ℤ)) ∈ leapMonths then 1 else 0 := by decide +kernel
  exact this n hn

theorem leapMonths_month (y m : ℤ) (h : (y, m) ∈ leapMonths) : (m = 6 ∨ m = 12) ∧ 1972 ≤ y ∧ y ≤ 2022 := by
  have : ∀ p ∈ leapMonths, (p.2 = 6 ∨ p.2 = 12) ∧ 1972 ≤ p.1 ∧ p.1 ≤ 2022 := by decide
  exact this _ h

theorem newYear_eq (n : ℕ) (hn : n ≤ 51) : newYearUTCMinusTAI n = some (-halfOffset (2 * n)) := by
  induction n with
  | zero => rfl
  | succ n ih =>
    rw [newYearUTCMinusTAI, leapSecond_june n (by omega), leapSecond_december n (by omega), ih (by omega)]
    simp only [Option.bind_eq_bind, Option.bind_some, Option.some.injEq]
    rw [halfOffset, halfOffset, show 2 * (n + 1) = 2 * n + 1 + 1 by ring, Finset.sum_range_succ, Finset.sum_range_succ]
    ring

theorem modern_eq (d : Date) (h : ModernDay d) : modernUTCMinusTAI d = some (-halfOffset (half d)) := by
  obtain ⟨hv, hc, h1, h2⟩ := h
  rw [modernUTCMinusTAI, if_neg (by omega), newYear_eq _ (by omega)]
  by_cases hm : d.month > 6
  · rw [if_neg (by omega), if_pos hm]
    have e : d.year = 1972 + ((d.year - 1972).toNat : ℤ) := by omega
    have := leapSecond_june (d.year - 1972).toNat (by omega)
    rw [← e] at this
    rw [this]
    simp only [Option.bind_eq_bind, Option.bind_some, Option.some.injEq]
    rw [half, if_pos hm, halfOffset, halfOffset, Finset.sum_range_succ]
    ring
  · have e : half d = 2 * (d.year - 1972).toNat := by rw [half, if_neg hm, Nat.add_zero]
    rw [e]
    split
    · rfl
    · simp

theorem supported_modern {d : Date} (h1 : 1 ≤ d.year) (h2 : d.year ≤ 5000000) : Supported d := by
  refine ⟨by omega, by omega, fun _ => ?_⟩
  intro y hy
  exfalso
  have : y = if d.month ≤ 2 then d.year - 1 else d.year := rfl
  split at this <;> omega

/-- The instant of a date and time of modern UTC. -/
theorem utc_value (R : Fp) (d : Date) (h : ModernDay d) (t : Time) (ht : t.hour ≠ 24) :
    ∃ n : ℤ, d.jd R = n + 2400000 + 1 / 2 ∧
      ((t.second ≠ 60 ∨ (leapSecond d.year d.month) = some 1) →
        dateTimeAsUTC R ⟨d, t⟩ = some (secondOfDay t - 43200 + 86400 * (n - 51544) + halfOffset (half d) + 32184 / 1000)) ∧
      ((t.second = 60 ∧ (leapSecond d.year d.month) ≠ some 1) → dateTimeAsUTC R ⟨d, t⟩ = none) := by
  obtain ⟨hv, hc, h1, h2⟩ := id h
  obtain ⟨n, hn, hj⟩ := C27_mjd R d hv (supported_modern (by omega) (by omega)) (by omega)
  obtain ⟨n₀, hn₀, hj₀⟩ := C27_mjd R ⟨2000, 1, 1, .gregorian⟩ (by decide) (by decide) (by decide)
  have e0 : n₀ = 51544 := by
    have := (C27_anchors R).2.1
    rw [hj₀] at this
    have : (n₀ : ℚ) = 51544 := by linarith
    exact_mod_cast this
  subst e0
  refine ⟨n, hj, ?_, ?_⟩
  · intro hs
    have hval : isValidModernUTC ⟨d, t⟩ = some true := by
      rw [isValidModernUTC]
      by_cases h60 : t.second = 60
      · have h1 : leapSecond d.year d.month = some 1 := hs.resolve_left (by simp [h60])
        simp [Time.isLeapSecond, h60, h1]
      · simp [Time.isLeapSecond, h60]
    rw [dateTimeAsUTC, if_neg (by simp [Time.isEndOfDay, ht]), normalizedAsUTC, if_neg (by simp; omega), hval]
    simp only [Option.bind_eq_bind, Option.bind_some, if_true, timeSince2000, hn, hn₀, modern_eq d h, Option.some.injEq]
    rw [fromTAI, fromTT, secondOfDay]
    push_cast
    ring
  · rintro ⟨h60, hl⟩
    rw [dateTimeAsUTC, if_neg (by simp [Time.isEndOfDay, ht]), normalizedAsUTC, if_neg (by simp; omega), isValidModernUTC]
    cases hls : leapSecond d.year d.month with
    | none => simp [Time.isLeapSecond, h60, hls]
    | some l =>
      have : l ≠ 1 := fun e => hl (by rw [hls, e])
      simp [Time.isLeapSecond, h60, hls, this]

theorem leapSecond_iff (d : Date) (h : ModernDay d) : leapSecond d.year d.month = some 1 ↔ (d.year, d.month) ∈ leapMonths := by
  obtain ⟨hv, hc, h1, h2⟩ := h
  by_cases hy : d.year ≤ 2022
  · have e : d.year = 1972 + ((d.year - 1972).toNat : ℤ) := by omega
    by_cases h6 : d.month = 6
    · have a := leapSecond_june (d.year - 1972).toNat (by omega)
      have b := tbl_june (d.year - 1972).toNat (by omega)
      rw [← e] at a b
      rw [h6, a, b]
      by_cases hl : (d.year, (6 : ℤ)) ∈ leapMonths
      · rw [if_pos hl]; exact ⟨fun _ => hl, fun _ => rfl⟩
      · rw [if_neg hl]; exact ⟨fun x => absurd (Option.some.inj x) (by decide), fun x => absurd x hl⟩
    · by_cases h12 : d.month = 12
      · have a := leapSecond_december (d.year - 1972).toNat (by omega)
        have b := tbl_december (d.year - 1972).toNat (by omega)
        rw [← e] at a b
        rw [h12, a, b]
        by_cases hl : (d.year, (12 : ℤ)) ∈ leapMonths
        · rw [if_pos hl]; exact ⟨fun _ => hl, fun _ => rfl⟩
        · rw [if_neg hl]; exact ⟨fun x => absurd (Option.some.inj x) (by decide), fun x => absurd x hl⟩
      · constructor
        · intro h; simp [leapSecond, h6, h12] at h
        · intro h; have := leapMonths_month _ _ h; omega
  · have ey : d.year = 2023 := by omega
    have hm : d.month ≤ 6 := by omega
    constructor
    · intro h
      by_cases h6 : d.month = 6
      · rw [ey, h6] at h
        exact absurd h (by decide)
      · simp [leapSecond, h6, show d.month ≠ 12 by omega] at h
    · intro h; have := leapMonths_month _ _ h; omega

/-- C88.  A time of day of UTC is accepted if and only if it is shorter than the day, and its instant is as far from the beginning of the day as it says.  (A leap second can only be constructed on the last day of a month.) -/
theorem C88_time_of_day (R : Fp) (d : Date) (h : ModernDay d) (t : Time) (ht : ClockTime t) (hd : t.second = 60 → d.day = daysInMonth d.calendar d.year d.month) :
    ∃ start, dateTimeAsUTC R ⟨d, ⟨0, 0, 0, 0⟩⟩ = some start ∧
      dateTimeAsUTC R ⟨d, t⟩ = if secondOfDay t < utcDayLength d then some (start + secondOfDay t) else none := by
  obtain ⟨n, hj, ha, -⟩ := utc_value R d h ⟨0, 0, 0, 0⟩ (by decide)
  obtain ⟨n', hj', hb, hc⟩ := utc_value R d h t (by rcases ht.2 with h | h <;> omega)
  have en : n' = n := by
    rw [hj] at hj'
    have : (n' : ℚ) = n := by linarith
    exact_mod_cast this
  subst en
  refine ⟨_, ha (Or.inl (by decide)), ?_⟩
  have hms : (t.millisecond : ℚ) ≤ 999 ∧ (0 : ℚ) ≤ t.millisecond := ⟨by exact_mod_cast ht.1.2, by exact_mod_cast ht.1.1⟩
  have z : secondOfDay ⟨0, 0, 0, 0⟩ = 0 := by simp [secondOfDay]
  by_cases h60 : t.second = 60
  · have hhm : t.hour = 23 ∧ t.minute = 59 := by rcases ht.2 with h | h <;> omega
    by_cases hl : (d.year, d.month) ∈ leapMonths
    · rw [if_pos, hb (Or.inr ((leapSecond_iff d h).2 hl)), z]
      · congr 1; ring
      · rw [utcDayLength, if_pos ⟨hl, hd h60⟩, secondOfDay, h60, hhm.1, hhm.2]
        push_cast; linarith
    · rw [if_neg, hc ⟨h60, fun e => hl ((leapSecond_iff d h).1 e)⟩]
      rw [utcDayLength, if_neg (fun e => hl e.1), secondOfDay, h60, hhm.1, hhm.2]
      push_cast; linarith
  · have hr : 0 ≤ t.hour ∧ t.hour ≤ 23 ∧ 0 ≤ t.minute ∧ t.minute ≤ 59 ∧ 0 ≤ t.second ∧ t.second ≤ 59 := by
      rcases ht.2 with h | h
      · omega
      · exact h
    rw [if_pos, hb (Or.inl h60), z]
    · congr 1; ring
    · have i1 : (t.hour : ℚ) ≤ 23 := by exact_mod_cast hr.2.1
      have i2 : (t.minute : ℚ) ≤ 59 := by exact_mod_cast hr.2.2.2.1
      have i3 : (t.second : ℚ) ≤ 59 := by exact_mod_cast hr.2.2.2.2.2
      have i4 : (86400 : ℚ) ≤ utcDayLength d := by
        rw [utcDayLength]; split <;> norm_num
      rw [secondOfDay]
      linarith

theorem half_tomorrow (d : Date) (h : ModernDay d) (h' : ModernDay (tomorrow d)) :
    halfOffset (half (tomorrow d)) = halfOffset (half d) + (utcDayLength d - 86400) := by
  obtain ⟨⟨hm1, hm2, hd1, hd2⟩, hc, h1, h2⟩ := h
  have lm := leapMonths_month d.year d.month
  by_cases hlast : d.day < daysInMonth d.calendar d.year d.month
  · have e : tomorrow d = ⟨d.year, d.month, d.day + 1, d.calendar⟩ := by rw [tomorrow, if_pos hlast]
    have e2 : utcDayLength d = 86400 := by rw [utcDayLength, if_neg (by omega)]
    rw [e, e2]; simp [half]
  · have hday : d.day = daysInMonth d.calendar d.year d.month := by omega
    by_cases h12 : d.month < 12
    · have e : tomorrow d = ⟨d.year, d.month + 1, 1, d.calendar⟩ := by rw [tomorrow, if_neg hlast, if_pos h12]
      rw [e] at h' ⊢
      by_cases h6 : d.month = 6
      · have hy : d.year ≤ 2022 := by
          rcases h'.2.2.2 with h | h
          · exact h
          · have := h.2; simp only at this; omega
        have b := tbl_june (d.year - 1972).toNat (by omega)
        have ey : d.year = 1972 + ((d.year - 1972).toNat : ℤ) := by omega
        rw [← ey] at b
        have f1 : half d = 2 * (d.year - 1972).toNat := by rw [half, if_neg (by omega), Nat.add_zero]
        have f2 : half ⟨d.year, d.month + 1, 1, d.calendar⟩ = 2 * (d.year - 1972).toNat + 1 := by
          rw [half, if_pos (by simp only; omega)]
        rw [f1, f2, halfOffset, Finset.sum_range_succ, b, halfOffset, utcDayLength, h6]
        by_cases hl : (d.year, (6 : ℤ)) ∈ leapMonths
        · rw [if_pos hl, if_pos ⟨hl, by rw [← h6]; exact hday⟩]; ring
        · rw [if_neg hl, if_neg (fun x => hl x.1)]; ring
      · have e2 : utcDayLength d = 86400 := by
          rw [utcDayLength, if_neg]
          rintro ⟨x, -⟩
          have := lm x; omega
        have : half ⟨d.year, d.month + 1, 1, d.calendar⟩ = half d := by
          rw [half, half]
          simp only
          split <;> split <;> omega
        rw [this, e2]; ring
    · have h12' : d.month = 12 := by omega
      have e : tomorrow d = ⟨d.year + 1, 1, 1, d.calendar⟩ := by rw [tomorrow, if_neg hlast, if_neg h12]
      have hy : d.year ≤ 2022 := by omega
      have b := tbl_december (d.year - 1972).toNat (by omega)
      have ey : d.year = 1972 + ((d.year - 1972).toNat : ℤ) := by omega
      rw [← ey] at b
      have f1 : half d = 2 * (d.year - 1972).toNat + 1 := by rw [half, if_pos (by omega)]
      have f2 : half (tomorrow d) = 2 * (d.year - 1972).toNat + 1 + 1 := by
        rw [e, half, if_neg (by simp)]
        simp only
        omega
      rw [f1, f2, halfOffset, Finset.sum_range_succ, b, halfOffset, utcDayLength, h12']
      by_cases hl : (d.year, (12 : ℤ)) ∈ leapMonths
      · rw [if_pos hl, if_pos ⟨hl, by rw [← h12']; exact hday⟩]; ring
      · rw [if_neg hl, if_neg (fun x => hl x.1)]; ring

/-- C88.  The beginnings of two consecutive days of UTC are separated by the length of the day: 86401 seconds for the days with a leap second, 86400 seconds otherwise. -/
theorem C88_day_length (R : Fp) (d : Date) (h : ModernDay d) (h' : ModernDay (tomorrow d)) :
    ∃ start next, dateTimeAsUTC R ⟨d, ⟨0, 0, 0, 0⟩⟩ = some start ∧ dateTimeAsUTC R ⟨tomorrow d, ⟨0, 0, 0, 0⟩⟩ = some next ∧ next = start + utcDayLength d := by
  obtain ⟨n, hj, ha, -⟩ := utc_value R d h ⟨0, 0, 0, 0⟩ (by decide)
  obtain ⟨n', hj', hb, -⟩ := utc_value R (tomorrow d) h' ⟨0, 0, 0, 0⟩ (by decide)
  refine ⟨_, _, ha (Or.inl (by decide)), hb (Or.inl (by decide)), ?_⟩
  have y1 := h.2.2.1
  have y1' := h'.2.2.1
  have y2 : d.year ≤ 2023 := by have := h.2.2.2; omega
  have y2' : (tomorrow d).year ≤ 2023 := by have := h'.2.2.2; omega
  have c := C27_consecutive R d h.1 (supported_modern (by omega) (by omega)) (supported_modern (by omega) (by omega))
  rw [hj, hj'] at c
  have e : (n' : ℚ) = n + 1 := by linarith
  rw [half_tomorrow d h h', e]
  push_cast
  ring

/-- C88.  The end of a day of UTC is the beginning of the next one. -/
theorem C88_end_of_day (R : Fp) (d : Date) (h : ModernDay d) (h' : ModernDay (tomorrow d)) :
    dateTimeAsUTC R ⟨d, ⟨24, 0, 0, 0⟩⟩ = dateTimeAsUTC R ⟨tomorrow d, ⟨0, 0, 0, 0⟩⟩ := by
  have y1 := h.2.2.1
  have y2 : d.year ≤ 2023 := by have := h.2.2.2; omega
  have hc : Civil d := ⟨h.1, Or.inr ⟨h.2.1, by rw [Before, firstGregorian]; simp only; omega⟩⟩
  have hn := C27_next_day R d hc (by omega) (by omega)
  have ht : civilTomorrow d = tomorrow d := by
    rw [civilTomorrow, if_neg]
    intro e
    rw [e] at y1
    exact absurd y1 (by decide)
  rw [ht] at hn
  have hb : DateTime.beginningOfDay (tomorrow d) = some ⟨tomorrow d, ⟨0, 0, 0, 0⟩⟩ := by
    unfold DateTime.beginningOfDay
    rw [show Time.hhmmss_ms 0 0 = some ⟨0, 0, 0, 0⟩ by decide]
    simp [DateTime.make, Time.isLeapSecond]
  rw [dateTimeAsUTC, if_pos (by simp [Time.isEndOfDay]), DateTime.normalizedEndOfDay, if_pos (by simp [Time.isEndOfDay]), hn]
  simp only [Option.bind_eq_bind, Option.bind_some, hb]
  rw [dateTimeAsUTC, if_neg (by simp [Time.isEndOfDay])]

theorem halfOffset_mono {i j : ℕ} (h : i ≤ j) : halfOffset i ≤ halfOffset j := by
  rw [halfOffset, halfOffset]
  have := Finset.sum_le_sum_of_subset_of_nonneg (f := tbl) (Finset.range_mono h) (fun i _ _ => tbl_nonneg i)
  linarith

theorem before_offset (d e : Date) (hd : ModernDay d) (he : ModernDay e) (h : Before d e) :
    halfOffset (half d) + (utcDayLength d - 86400) ≤ halfOffset (half e) := by
  obtain ⟨⟨hm1, hm2, hd1, hd2⟩, hc, h1, h2⟩ := hd
  obtain ⟨⟨gm1, gm2, gd1, gd2⟩, gc, g1, g2⟩ := he
  by_cases hl : (d.year, d.month) ∈ leapMonths ∧ d.day = daysInMonth d.calendar d.year d.month
  · have lm := leapMonths_month _ _ hl.1
    have ey : d.year = 1972 + ((d.year - 1972).toNat : ℤ) := by omega
    have hlt : half d + 1 ≤ half e := by
      have cc : d.year = e.year → d.month = e.month → daysInMonth e.calendar e.year e.month = daysInMonth d.calendar d.year d.month := by
        intro a b; rw [a, b, hc, gc]
      rcases h with h | ⟨ha, h | ⟨hb, h⟩⟩
      · rw [half, half]; split <;> split <;> omega
      · rw [half, half]; split <;> split <;> omega
      · have := cc ha hb; omega
    have hone : tbl (half d) = 1 := by
      rcases lm.1 with h6 | h12
      · have b := tbl_june (d.year - 1972).toNat (by omega)
        rw [← ey, if_pos (by rw [← h6]; exact hl.1)] at b
        rw [half, if_neg (by omega), Nat.add_zero, b]
      · have b := tbl_december (d.year - 1972).toNat (by omega)
        rw [← ey, if_pos (by rw [← h12]; exact hl.1)] at b
        rw [half, if_pos (by omega), b]
    have := halfOffset_mono hlt
    rw [halfOffset, Finset.sum_range_succ, hone] at this
    rw [utcDayLength, if_pos hl, halfOffset]
    linarith
  · rw [utcDayLength, if_neg hl, sub_self, add_zero]
    apply halfOffset_mono
    rw [half, half]
    rcases h with h | ⟨ha, h | ⟨hb, h⟩⟩ <;> split <;> split <;> omega

theorem secondOfDay_nonneg (t : Time) (h : ClockTime t) : 0 ≤ secondOfDay t := by
  have a : 0 ≤ t.hour ∧ 0 ≤ t.minute ∧ 0 ≤ t.second := by rcases h.2 with h | h <;> omega
  have h1 : (0 : ℚ) ≤ t.hour := by exact_mod_cast a.1
  have h2 : (0 : ℚ) ≤ t.minute := by exact_mod_cast a.2.1
  have h3 : (0 : ℚ) ≤ t.second := by exact_mod_cast a.2.2
  have h4 : (0 : ℚ) ≤ t.millisecond := by exact_mod_cast h.1.1
  rw [secondOfDay]; positivity

theorem utc_earlier (R : Fp) (x y : DateTime) (hx : ModernUTC x) (hy : ModernUTC y) (h : Earlier x y) (a b : ℚ) (ha : dateTimeAsUTC R x = some a) (hb : dateTimeAsUTC R y = some b) : a < b := by
  obtain ⟨dx, tx⟩ := x
  obtain ⟨dy, ty⟩ := y
  obtain ⟨hx1, hx2, hx3⟩ := hx
  obtain ⟨hy1, hy2, hy3⟩ := hy
  simp only at hx1 hx2 hx3 hy1 hy2 hy3
  obtain ⟨n, hj, ua, un⟩ := utc_value R dx hx1 tx (by rcases hx2.2 with h | h <;> omega)
  obtain ⟨m, hk, ub, um⟩ := utc_value R dy hy1 ty (by rcases hy2.2 with h | h <;> omega)
  have hax : a = secondOfDay tx - 43200 + 86400 * (n - 51544) + halfOffset (half dx) + 32184 / 1000 := by
    by_cases hh : tx.second ≠ 60 ∨ leapSecond dx.year dx.month = some 1
    · rw [ua hh] at ha; exact (Option.some.inj ha).symm
    · rw [not_or, not_not] at hh
      rw [un hh] at ha; exact absurd ha (by simp)
  have hby : b = secondOfDay ty - 43200 + 86400 * (m - 51544) + halfOffset (half dy) + 32184 / 1000 := by
    by_cases hh : ty.second ≠ 60 ∨ leapSecond dy.year dy.month = some 1
    · rw [ub hh] at hb; exact (Option.some.inj hb).symm
    · rw [not_or, not_not] at hh
      rw [um hh] at hb; exact absurd hb (by simp)
  rcases h with h | ⟨he, hs⟩
  · simp only at h
    have y1 := hx1.2.2.1
    have y1' := hy1.2.2.1
    have y2 : dx.year ≤ 2023 := by have := hx1.2.2.2; omega
    have y2' : dy.year ≤ 2023 := by have := hy1.2.2.2; omega
    have o := ((C27_order R dx dy hx1.1 hy1.1 (supported_modern (by omega) (by omega)) (supported_modern (by omega) (by omega)) (by rw [hx1.2.1, hy1.2.1])).1).2 h
    rw [Date.lt, hj, hk] at o
    have o1 : (n : ℚ) < m := by linarith
    have o2 : n + 1 ≤ m := by exact_mod_cast o1
    have o3 : (n : ℚ) + 1 ≤ m := by exact_mod_cast o2
    have q : ((halfOffset (half dx) : ℤ) : ℚ) + (utcDayLength dx - 86400) ≤ halfOffset (half dy) := by exact_mod_cast before_offset dx dy hx1 hy1 h
    have := secondOfDay_nonneg ty hy2
    rw [hax, hby]
    linarith
  · simp only at he hs
    subst he
    have e : (n : ℚ) = m := by rw [hj] at hk; linarith
    rw [hax, hby, e]
    linarith

/-- C88.  The conversion from UTC to instants preserves the chronological order: in particular the leap seconds are distinct from all the other seconds. -/
theorem C88_order (R : Fp) (x y : DateTime) (hx : ModernUTC x) (hy : ModernUTC y) (hdx : x.time.second = 60 → x.date.day = daysInMonth x.date.calendar x.date.year x.date.month)
    (hdy : y.time.second = 60 → y.date.day = daysInMonth y.date.calendar y.date.year y.date.month) :
    ∃ a b, dateTimeAsUTC R x = some a ∧ dateTimeAsUTC R y = some b ∧ (a < b ↔ Earlier x y) := by
  obtain ⟨s, hs, ha⟩ := C88_time_of_day R x.date hx.1 x.time hx.2.1 hdx
  obtain ⟨r, hr, hb⟩ := C88_time_of_day R y.date hy.1 y.time hy.2.1 hdy
  rw [if_pos hx.2.2] at ha
  rw [if_pos hy.2.2] at hb
  refine ⟨_, _, ha, hb, ?_, fun h => utc_earlier R x y hx hy h _ _ ha hb⟩
  intro hlt
  by_contra hne
  rw [Earlier, not_or] at hne
  by_cases he : x.date = y.date
  · have hse : s = r := by
      rw [he] at hs; rw [hs] at hr; exact Option.some.inj hr
    rw [hse] at hlt
    exact hne.2 ⟨he, by linarith⟩
  · have hc : x.date.calendar = y.date.calendar := by rw [hx.1.2.1, hy.1.2.1]
    have hb' : Before y.date x.date := by
      by_contra hn
      apply he
      have h1 := hne.1
      rw [Before] at h1 hn
      have : x.date.year = y.date.year ∧ x.date.month = y.date.month ∧ x.date.day = y.date.day := by omega
      rcases hxd : x.date with ⟨a1, a2, a3, a4⟩
      rcases hyd : y.date with ⟨b1, b2, b3, b4⟩
      rw [hxd, hyd] at this hc
      simp only at this hc
      rw [this.1, this.2.1, this.2.2, hc]
    exact absurd (utc_earlier R y x hy hx (Or.inl hb') _ _ hb ha) (not_lt.2 hlt.le)

/-- C88.  At the beginning of 1972, TAI was 10 seconds ahead of UTC.  GPS time is that of UTC at the beginning of 6 January 1980, and 北斗 time is that of UTC at the beginning of 2006.  Noon TT on 1 January 2000 is J2000, and TT is 32.184 seconds
ahead of TAI. -/
theorem C88_epochs (R : Fp) :
    (∃ a, dateTimeAsUTC R ⟨⟨1972, 1, 1, .gregorian⟩, ⟨0, 0, 0, 0⟩⟩ = some a ∧ dateTimeAsTAI R ⟨⟨1972, 1, 1, .gregorian⟩, ⟨0, 0, 10, 0⟩⟩ = some a) ∧
    (∃ a, dateTimeAsUTC R ⟨⟨1980, 1, 6, .gregorian⟩, ⟨0, 0, 0, 0⟩⟩ = some a ∧ dateTimeAsGPSTime R ⟨⟨1980, 1, 6, .gregorian⟩, ⟨0, 0, 0, 0⟩⟩ = some a) ∧
    (∃ a, dateTimeAsUTC R ⟨⟨2006, 1, 1, .gregorian⟩, ⟨0, 0, 0, 0⟩⟩ = some a ∧ dateTimeAsBeiDouTime R ⟨⟨2006, 1, 1, .gregorian⟩, ⟨0, 0, 0, 0⟩⟩ = some a) ∧
    dateTimeAsTT R ⟨⟨2000, 1, 1, .gregorian⟩, ⟨12, 0, 0, 0⟩⟩ = some 0 ∧
    (∃ a, dateTimeAsTAI R ⟨⟨1977, 1, 1, .gregorian⟩, ⟨0, 0, 0, 0⟩⟩ = some a ∧ dateTimeAsTT R ⟨⟨1977, 1, 1, .gregorian⟩, ⟨0, 0, 32, 184⟩⟩ = some a) := by
  obtain ⟨n₀, hn₀, -⟩ := C27_mjd R ⟨2000, 1, 1, .gregorian⟩ (by decide) (by decide) (by decide)
  have key : ∀ y m d : ℤ, Valid ⟨y, m, d, .gregorian⟩ → Supported ⟨y, m, d, .gregorian⟩ → y ≤ 5000000 → ∃ n, Date.mjd R ⟨y, m, d, .gregorian⟩ = some n :=
    fun y m d a b c => let ⟨n, h, _⟩ := C27_mjd R ⟨y, m, d, .gregorian⟩ a b c; ⟨n, h⟩
  obtain ⟨n1, h1⟩ := key 1972 1 1 (by decide) (by decide) (by decide)
  obtain ⟨n2, h2⟩ := key 1980 1 6 (by decide) (by decide) (by decide)
  obtain ⟨n3, h3⟩ := key 2006 1 1 (by decide) (by decide) (by decide)
  obtain ⟨n5, h5⟩ := key 1977 1 1 (by decide) (by decide) (by decide)
  have o1 : modernUTCMinusTAI ⟨1972, 1, 1, .gregorian⟩ = some (-10) := by decide +kernel
  have o2 : modernUTCMinusTAI ⟨1980, 1, 6, .gregorian⟩ = some (-19) := by decide +kernel
  have o3 : modernUTCMinusTAI ⟨2006, 1, 1, .gregorian⟩ = some (-33) := by decide +kernel
  refine ⟨?_, ?_, ?_, ?_, ?_⟩
  · simp [dateTimeAsUTC, dateTimeAsTAI, normalizedAsUTC, isValidModernUTC, timeSince2000, Time.isLeapSecond, Time.isEndOfDay, h1, hn₀, o1]
    congr 1; ring
  · simp [dateTimeAsUTC, dateTimeAsGPSTime, normalizedAsUTC, isValidModernUTC, timeSince2000, Time.isLeapSecond, Time.isEndOfDay, h2, hn₀, o2, fromGPSTime]
  · simp [dateTimeAsUTC, dateTimeAsBeiDouTime, normalizedAsUTC, isValidModernUTC, timeSince2000, Time.isLeapSecond, Time.isEndOfDay, h3, hn₀, o3, fromBeiDouTime]
  · simp [dateTimeAsTT, timeSince2000, Time.isLeapSecond, hn₀, fromTT]
  · simp [dateTimeAsTT, dateTimeAsTAI, timeSince2000, Time.isLeapSecond, hn₀, h5, fromTT, fromTAI]
    ring

/-- A leap second and its neighbours. -/
example : ModernUTC ⟨⟨2016, 12, 31, .gregorian⟩, ⟨23, 59, 60, 500⟩⟩ ∧ ModernUTC ⟨⟨2017, 1, 1, .gregorian⟩, ⟨0, 0, 0, 0⟩⟩ ∧ ¬ ModernUTC ⟨⟨2015, 12, 31, .gregorian⟩, ⟨23, 59, 60, 0⟩⟩ := by
  refine ⟨⟨⟨by decide, rfl, by decide, by decide⟩, by constructor <;> decide, ?_⟩, ⟨⟨by decide, rfl, by decide, by decide⟩, by constructor <;> decide, ?_⟩, fun h => ?_⟩
  · rw [utcDayLength, if_pos (by decide), secondOfDay]; norm_num
  · rw [utcDayLength, if_neg (by decide), secondOfDay]; norm_num
  · have := h.2.2
    rw [utcDayLength, if_neg (by decide), secondOfDay] at this
    norm_num at this

/-- C88.  The negative leap of 50 ms at the end of July 1961 only suppressed the end of the last second of the day, but the code also rejects the end of the other seconds of the last minute: 23:59:30.960 is rejected, although 23:59:30.940 and
23:58:30.960 are accepted. -/
theorem C88_negative_leap_counterexample (R : Fp) :
    dateTimeAsUTC R ⟨⟨1961, 7, 31, .gregorian⟩, ⟨23, 59, 30, 960⟩⟩ = none ∧
    (∃ a, dateTimeAsUTC R ⟨⟨1961, 7, 31, .gregorian⟩, ⟨23, 59, 30, 940⟩⟩ = some a) ∧ (∃ a, dateTimeAsUTC R ⟨⟨1961, 7, 31, .gregorian⟩, ⟨23, 58, 30, 960⟩⟩ = some a) := by
  obtain ⟨n₀, hn₀, -⟩ := C27_mjd R ⟨2000, 1, 1, .gregorian⟩ (by decide) (by decide) (by decide)
  obtain ⟨n, hn, -⟩ := C27_mjd R ⟨1961, 7, 31, .gregorian⟩ (by decide) (by decide) (by decide)
  have hc : Civil ⟨1961, 7, 31, .gregorian⟩ := ⟨by decide, Or.inr ⟨rfl, by rw [Before, firstGregorian]; decide⟩⟩
  have hnext := C27_next_day R ⟨1961, 7, 31, .gregorian⟩ hc (by decide) (by decide)
  rw [show civilTomorrow ⟨1961, 7, 31, .gregorian⟩ = ⟨1961, 8, 1, .gregorian⟩ by decide] at hnext
  have o := (C27_order R ⟨1961, 8, 1, .gregorian⟩ ⟨1968, 2, 1, .gregorian⟩ (by decide) (by decide) (by decide) (by decide) rfl).2
  have o' : ¬ Date.jd R ⟨1961, 8, 1, .gregorian⟩ = Date.jd R ⟨1968, 2, 1, .gregorian⟩ := fun e => absurd (o.1 e) (by decide)
  refine ⟨?_, ?_, ?_⟩ <;>
  simp [dateTimeAsUTC, normalizedAsUTC, isValidStretchyUTC, isValidStretchyUTCIfOnDayOfNegativeLeap, timeSince2000, Time.isLeapSecond, Time.isEndOfDay, hn, hn₀, hnext, o']

/-- C88.  The search in a sorted table yields the last entry which is no larger than the value, and fails if there is none. -/
theorem C88_lookup (key : ℕ → ℚ) (x : ℚ) (begin size : ℕ) (hs : 0 < size) (hk : ∀ i j, begin ≤ i → i ≤ j → j < begin + size → key i ≤ key j) :
    (key begin ≤ x → ∃ i, lookup key x begin size = some i ∧ begin ≤ i ∧ i < begin + size ∧ key i ≤ x ∧ ∀ j, i < j → j < begin + size → x < key j) ∧
    (x < key begin → lookup key x begin size = none) := by
  induction size using Nat.strong_induction_on generalizing begin with
  | _ size ih =>
    rw [lookup, if_neg (by omega)]
    by_cases h1 : size = 1
    · subst h1
      rw [if_pos rfl]
      constructor
      · intro h
        exact ⟨begin, if_pos h, le_rfl, by omega, h, fun j a b => by omega⟩
      · intro h; exact if_neg (not_le.2 h)
    · rw [if_neg h1]
      by_cases h2 : key (begin + size / 2) ≤ x
      · rw [if_pos h2]
        obtain ⟨a, -⟩ := ih (size - size / 2) (by omega) (begin + size / 2) (by omega) (fun i j p q r => hk i j (by omega) q (by omega))
        constructor
        · intro _
          obtain ⟨i, e, p, q, r, s⟩ := a h2
          exact ⟨i, e, by omega, by omega, r, fun j u v => s j u (by omega)⟩
        · intro h
          exact absurd (hk begin (begin + size / 2) le_rfl (by omega) (by omega)) (not_le.2 (lt_of_le_of_lt h2 h))
      · rw [if_neg h2]
        obtain ⟨a, b⟩ := ih (size / 2) (by omega) begin (by omega) (fun i j p q r => hk i j p q (by omega))
        refine ⟨fun h => ?_, b⟩
        obtain ⟨i, e, p, q, r, s⟩ := a h
        refine ⟨i, e, p, by omega, r, fun j u v => ?_⟩
        by_cases hj : j < begin + size / 2
        · exact s j u hj
        · exact lt_of_lt_of_le (not_le.1 h2) (hk _ j (by omega) (by omega) v)

/-- The table of the squares. -/
example : lookup (fun i => (i : ℚ) ^ 2) 30 0 10 = some 5 := by decide +kernel

end Principia.Calendar
