import Mathlib.Data.Rat.Floor
import Mathlib.Data.Int.Log
import Mathlib.Tactic.Linarith
import Mathlib.Tactic.NormNum
import Verif.Base.ModModel

/-!
# Model of the calendar part of `astronomy/date_time_body.hpp`

The C++ code computes with `double`s.  They are modelled by rational numbers together with a rounding function,
`Fp`, applied to the exact result of each operation and to each literal.  Only two properties of that function are
assumed: multiples of 1/4 that fit in 53 bits are exactly representable, and any other number between 2⁻²⁰ and 2⁶⁰ (in absolute value)
is rounded with a relative error of at most 2⁻⁵².  Binary64 arithmetic has them in all rounding modes; so do exact
rational arithmetic and fixed-point arithmetic.  Everything proved holds for every such rounding function.
-/

namespace Principia.Calendar

open Principia.Mod

/-- Floating-point rounding, see above. -/
structure Fp where
  fl : ℚ → ℚ
  exact : ∀ n : ℤ, |n| ≤ 2 ^ 53 → fl (n / 4) = n / 4
  close : ∀ x : ℚ, 1 / 2 ^ 20 ≤ |x| → |x| ≤ 2 ^ 60 → |fl x - x| ≤ |x| / 2 ^ 52

namespace Fp
/-- Addition of two `double`s. -/
def add (R : Fp) (x y : ℚ) : ℚ := R.fl (x + y)
/-- Subtraction of two `double`s. -/
def sub (R : Fp) (x y : ℚ) : ℚ := R.fl (x - y)
/-- Multiplication of two `double`s. -/
def mul (R : Fp) (x y : ℚ) : ℚ := R.fl (x * y)
/-- Division of two `double`s. -/
def div (R : Fp) (x y : ℚ) : ℚ := R.fl (x / y)
end Fp

/-- The conversion of a `double` to an integer type discards the fractional part.  All the values converted are well
within the range of `int64_t`; conversions to `int` that could go out of range go through `ck`. -/
def trunc (x : ℚ) : ℤ := if 0 ≤ x then ⌊x⌋ else ⌈x⌉

/-- astronomy/date_time.hpp:15-18 `enum class Calendar`. -/
inductive Cal | julian | gregorian
deriving DecidableEq, Repr

/-- astronomy/date_time.hpp:23-79 class `Date`; the fields year_, month_, day_ and calendar_. -/
structure Date where
  year : ℤ
  month : ℤ
  day : ℤ
  calendar : Cal
deriving DecidableEq, Repr

/-- astronomy/date_time_body.hpp:26-27 `non_leap_year_month_lengths[month - 1]`; only called with a month in [1, 12]. -/
def nonLeapMonthLength (month : ℤ) : ℤ :=
  [31, 28, 31, 30, 31, 30, 31, 31, 30, 31, 30, 31].getD (month - 1).toNat 0

/-- astronomy/date_time_body.hpp:29-33 `is_leap_year`, with the truncated remainder of C++. -/
def isLeapYear (year : ℤ) (calendar : Cal) : Bool :=
  if calendar = .julian then year.tmod 4 = 0
  else year.tmod 4 = 0 ∧ (year.tmod 100 ≠ 0 ∨ year.tmod 400 = 0)

/-- astronomy/date_time_body.hpp:35-37 `year_length`. -/
def yearLength (year : ℤ) (calendar : Cal) : ℤ := if isLeapYear year calendar then 366 else 365

/-- astronomy/date_time_body.hpp:39-44 `month_length`. -/
def monthLength (year month : ℤ) (calendar : Cal) : ℤ :=
  if isLeapYear year calendar ∧ month = 2 then 29 else nonLeapMonthLength month

/-- astronomy/date_time_body.hpp:215-235 `Date::jd`. -/
def Date.jd (R : Fp) (date : Date) : ℚ :=
  let Y : ℚ := if date.month ≤ 2 then R.sub date.year 1 else date.year
  let M : ℚ := if date.month ≤ 2 then R.add date.month 12 else date.month
  let D : ℚ := date.day
  let B : ℚ :=
    if date.calendar = .julian then 0
    else
      let A : ℚ := trunc (R.div Y 100)
      R.add (R.sub 2 A) (trunc (R.div A 4))
  R.sub
    (R.add
      (R.add
        ((trunc (R.mul (R.fl 365.25) (R.add Y 4716)) + trunc (R.mul (R.fl 30.6001) (R.add M 1)) : ℤ) : ℚ)
        D)
      B)
    (R.fl 1524.5)

/-- astronomy/date_time_body.hpp:166-193 `Date::JD`; `none` is a failed check.  F, which is 0, is omitted. -/
def Date.ofJD (R : Fp) (jd : ℚ) : Option Date :=
  let Z : ℚ := trunc (R.add jd 0.5)
  if Z = R.add jd 0.5 then
    let (A, calendar) : ℚ × Cal :=
      if Z < 2299161 then (Z, .julian)
      else
        let α : ℚ := trunc (R.div (R.sub Z (R.fl 1867216.25)) (R.fl 36524.25))
        (R.sub (R.add (R.add Z 1) α) (trunc (R.div α 4)), .gregorian)
    let B : ℚ := R.add A 1524
    let C : ℚ := trunc (R.div (R.sub B (R.fl 122.1)) (R.fl 365.25))
    let D : ℚ := trunc (R.mul (R.fl 365.25) C)
    let E : ℚ := trunc (R.div (R.sub B D) (R.fl 30.6001))
    let d : ℤ := trunc (R.sub (R.sub B D) (trunc (R.mul (R.fl 30.6001) E)))
    let m : ℤ := trunc (if E < 14 then R.sub E 1 else R.sub E 13)
    let y : ℤ := trunc (if m > 2 then R.sub C 4716 else R.sub C 4715)
    some ⟨y, m, d, calendar⟩
  else none

/-- astronomy/date_time_body.hpp:211-213 `Date::ordinal`. -/
def Date.ordinal (R : Fp) (date : Date) : ℤ :=
  trunc (R.add (R.sub (date.jd R) (Date.jd R ⟨date.year, 1, 1, date.calendar⟩)) 1)

/-- astronomy/date_time_body.hpp:237-240 `Date::mjd`; the conversion to `int` is undefined out of range. -/
def Date.mjd (R : Fp) (date : Date) : Option ℤ :=
  ck (trunc (R.sub (date.jd R) (R.fl 2400000.5)))

/-- astronomy/date_time_body.hpp:242-244 `Date::next_day`. -/
def Date.nextDay (R : Fp) (date : Date) : Option Date := Date.ofJD R (R.add (date.jd R) 1)

/-- astronomy/date_time_body.hpp:132-135 and 146-149, the beginning of `Date::Calendar` and `Date::Ordinal`: the calendar is
Gregorian by default, but only from 1583 on. -/
def defaultCalendar (year : ℤ) (calendar : Option Cal) : Option Cal :=
  match calendar with
  | none => if year ≥ 1583 then some Cal.gregorian else none
  | some c => some c

/-- astronomy/date_time_body.hpp:130-142 `Date::Calendar`; `none` is a failed check. -/
def Date.ofCalendar (year month day : ℤ) (calendar : Option Cal) : Option Date := do
  let calendar ← defaultCalendar year calendar
  if year ≤ 9999 ∧ month ≥ 1 ∧ month ≤ 12 ∧ day ≥ 1 ∧ day ≤ monthLength year month calendar then
    some ⟨year, month, day, calendar⟩
  else none

/-- astronomy/date_time_body.hpp:144-153 `Date::Ordinal`. -/
def Date.ofOrdinal (R : Fp) (year day : ℤ) (calendar : Option Cal) : Option Date := do
  let calendar ← defaultCalendar year calendar
  if day ≥ 1 ∧ day ≤ yearLength year calendar then
    Date.ofJD R (R.add (Date.jd R ⟨year, 1, 1, calendar⟩) ((day - 1 : ℤ) : ℚ))
  else none

/-- astronomy/date_time_body.hpp:47-50 `day_of_week_on_january_1st`. -/
def dayOfWeekOnJanuary1st (R : Fp) (year : ℤ) : Option ℤ := do
  let d ← Date.ofCalendar year 1 1 none
  let n ← ck (trunc (R.add (d.jd R) (R.fl 1.5)))
  mod2 n 7

/-- astronomy/date_time_body.hpp:52-58 `number_of_iso_weeks_in_year`. -/
def numberOfIsoWeeksInYear (R : Fp) (year : ℤ) : Option ℤ := do
  let w ← dayOfWeekOnJanuary1st R year
  return if w = 4 ∨ (isLeapYear year .gregorian ∧ w = 3) then 53 else 52

/-- astronomy/date_time_body.hpp:65-67 `ordinal_of_w_01_1`. -/
def ordinalOfW011 (R : Fp) (year : ℤ) : Option ℤ := do
  let w ← dayOfWeekOnJanuary1st R year
  mod3 (2 - w) 7 (-2)

/-- astronomy/date_time_body.hpp:155-164 `Date::Week`. -/
def Date.ofWeek (R : Fp) (year week day : ℤ) : Option Date := do
  if year ≥ 1583 ∧ week ≥ 1 then
    let n ← numberOfIsoWeeksInYear R year
    if week ≤ n ∧ day ≥ 1 ∧ day ≤ 7 then
      let jan1 ← Date.ofCalendar year 1 1 none
      let o ← ordinalOfW011 R year
      Date.ofJD R
        (R.add
          (R.add (R.add (jan1.jd R) ((o - 1 : ℤ) : ℚ)) (((week - 1) * 7 : ℤ) : ℚ))
          ((day - 1 : ℤ) : ℚ))
    else none
  else none

/-- astronomy/date_time_body.hpp:960-962 `operator==`. -/
def Date.eqv (R : Fp) (left right : Date) : Prop := left.jd R = right.jd R

/-- astronomy/date_time_body.hpp:968-970 `operator<=>`, here `<`. -/
def Date.lt (R : Fp) (left right : Date) : Prop := left.jd R < right.jd R

end Principia.Calendar
