import Verif.Astronomy.CalendarModel

/-!
# The rules of the calendar

The Julian and Gregorian calendars and ISO 8601 week dates, described without reference to the formulæ used by the
code: leap years, lengths of months, the day that follows a given day, ordinals and weeks.
-/

namespace Principia.Calendar.Spec

/-- Leap years of the (proleptic) Julian and Gregorian calendars, with astronomical numbering of the years. -/
def Leap (c : Cal) (y : ℤ) : Prop :=
  match c with
  | .julian => (4 : ℤ) ∣ y
  | .gregorian => (4 : ℤ) ∣ y ∧ (¬ (100 : ℤ) ∣ y ∨ (400 : ℤ) ∣ y)

instance (c : Cal) (y : ℤ) : Decidable (Leap c y) := by unfold Leap; cases c <;> infer_instance

/-- Thirty days hath September… -/
def daysInMonth (c : Cal) (y m : ℤ) : ℤ :=
  if m = 2 then (if Leap c y then 29 else 28)
  else if m = 4 ∨ m = 6 ∨ m = 9 ∨ m = 11 then 30
  else 31

def daysInYear (c : Cal) (y : ℤ) : ℤ := if Leap c y then 366 else 365

/-- The dates that exist in a calendar. -/
def Valid (d : Date) : Prop :=
  1 ≤ d.month ∧ d.month ≤ 12 ∧ 1 ≤ d.day ∧ d.day ≤ daysInMonth d.calendar d.year d.month

instance (d : Date) : Decidable (Valid d) := by unfold Valid; infer_instance

/-- The next day in the same calendar. -/
def tomorrow (d : Date) : Date :=
  if d.day < daysInMonth d.calendar d.year d.month then ⟨d.year, d.month, d.day + 1, d.calendar⟩
  else if d.month < 12 then ⟨d.year, d.month + 1, 1, d.calendar⟩
  else ⟨d.year + 1, 1, 1, d.calendar⟩

/-- Chronological order of the dates of one calendar. -/
def Before (d e : Date) : Prop :=
  d.year < e.year ∨ (d.year = e.year ∧ (d.month < e.month ∨ (d.month = e.month ∧ d.day < e.day)))

/-- The last day of the Julian calendar and the first day of the Gregorian calendar in the bull *Inter gravissimas*. -/
def lastJulian : Date := ⟨1582, 10, 4, .julian⟩
def firstGregorian : Date := ⟨1582, 10, 15, .gregorian⟩

/-- The dates of civil history: Julian up to Thursday 4 October 1582, Gregorian from Friday 15 October 1582. -/
def Civil (d : Date) : Prop :=
  Valid d ∧ (d.calendar = .julian ∧ ¬ Before lastJulian d ∨ d.calendar = .gregorian ∧ ¬ Before d firstGregorian)

/-- The next day in civil history. -/
def civilTomorrow (d : Date) : Date := if d = lastJulian then firstGregorian else tomorrow d

/-- The ordinal of a date in its year: one for the first of January. -/
def ordinal (d : Date) : ℤ :=
  ((List.range 12).map fun i : ℕ =>
    if (i : ℤ) + 1 < d.month then daysInMonth d.calendar d.year (i + 1) else 0).sum + d.day

/-- The years for which the code is correct.  Years are limited below by the first year of the Julian period formula
and above by the range of integers; in the Gregorian calendar, moreover, the twelve months that start on the 1st of
March of a negative year divisible by 100 but not by 400 are excluded. -/
def Supported (d : Date) : Prop :=
  -4715 ≤ d.year ∧ d.year ≤ 1000000000 ∧
  (d.calendar = .gregorian →
    let y := if d.month ≤ 2 then d.year - 1 else d.year
    y < 0 → (100 : ℤ) ∣ y → (400 : ℤ) ∣ y)

instance (d : Date) : Decidable (Supported d) := by
  unfold Supported
  infer_instance

/-- The day of the week, from 1 for Monday to 7 for Sunday, of the day that starts at the Julian date `jd`: the Julian
day number 0 is a Monday. -/
def Weekday (jd : ℚ) (k : ℤ) : Prop := 1 ≤ k ∧ k ≤ 7 ∧ ∃ n : ℤ, jd + 1 / 2 = 7 * n + (k - 1)

end Principia.Calendar.Spec
