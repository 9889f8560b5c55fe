import Verif.Astronomy.LiteralsModel
import Verif.Astronomy.CalendarSpec

/-!
# Coordinated universal time since 1972

A day of UTC has 86400 seconds, or 86401 seconds if it is the last of one of the months listed by the International Earth Rotation and Reference Systems Service.
-/

namespace Principia.Calendar.Spec

/-- The year and the month of the leap seconds announced by the IERS (Bulletins C 1 to 52). -/
def leapMonths : List (ℤ × ℤ) :=
  [(1972, 6), (1972, 12), (1973, 12), (1974, 12), (1975, 12), (1976, 12), (1977, 12), (1978, 12), (1979, 12), (1981, 6), (1982, 6), (1983, 6), (1985, 6), (1987, 12),
   (1989, 12), (1990, 12), (1992, 6), (1993, 6), (1994, 6), (1995, 12), (1997, 6), (1998, 12), (2005, 12), (2008, 12), (2012, 6), (2015, 6), (2016, 12)]

/-- The number of seconds of a day of UTC. -/
def utcDayLength (d : Date) : ℤ :=
  if (d.year, d.month) ∈ leapMonths ∧ d.day = daysInMonth d.calendar d.year d.month then 86401 else 86400

/-- The number of seconds since the beginning of the day. -/
def secondOfDay (t : Time) : ℚ := 3600 * t.hour + 60 * t.minute + t.second + t.millisecond / 1000

/-- The days of modern UTC covered by the code: from 1972 to the first half of 2023. -/
def ModernDay (d : Date) : Prop := Valid d ∧ d.calendar = .gregorian ∧ 1972 ≤ d.year ∧ (d.year ≤ 2022 ∨ d.year = 2023 ∧ d.month ≤ 6)

/-- The times of the days of 86401 seconds or less, other than the end of the day. -/
def ClockTime (t : Time) : Prop :=
  (0 ≤ t.millisecond ∧ t.millisecond ≤ 999) ∧
    ((t.hour = 23 ∧ t.minute = 59 ∧ t.second = 60) ∨ (0 ≤ t.hour ∧ t.hour ≤ 23 ∧ 0 ≤ t.minute ∧ t.minute ≤ 59 ∧ 0 ≤ t.second ∧ t.second ≤ 59))

/-- A date and time which exists in modern UTC. -/
def ModernUTC (x : DateTime) : Prop := ModernDay x.date ∧ ClockTime x.time ∧ secondOfDay x.time < utcDayLength x.date

/-- The chronological order. -/
def Earlier (x y : DateTime) : Prop := Before x.date y.date ∨ x.date = y.date ∧ secondOfDay x.time < secondOfDay y.time

end Principia.Calendar.Spec
