import Verif.Astronomy.CalendarModel

/-!
# Model of the literals of `astronomy/date_time_body.hpp`: times of day, date-times, Julian dates, parsing, printing

Strings are lists of characters; the (constexpr) checks and signed overflow yield `none`.
-/

namespace Principia.Calendar

/-- The range of `std::int64_t`: overflow is undefined behaviour. -/
def ck64 (x : ℤ) : Option ℤ := if -2 ^ 63 ≤ x ∧ x < 2 ^ 63 then some x else none

/-- astronomy/date_time_body.hpp:71-84 `digit_range`; the parameters begin and end are natural numbers, all call sites
that could pass a negative number check it first. -/
def digitRange (digits : ℤ) : ℕ → ℕ → Option ℤ
  | 0, 0 => if digits ≥ 0 then some 0 else none
  | 0, e + 1 => if digits ≥ 0 then (digitRange (digits.tdiv 10) 0 e).map fun r => r * 10 + digits.tmod 10 else none
  | b + 1, e + 1 => if digits ≥ 0 ∧ b ≤ e then
      if b = e then some 0 else digitRange (digits.tdiv 10) b e
    else none
  | _ + 1, 0 => none

/-- astronomy/date_time_body.hpp:87-90 `shift_left`; a negative count fails the check. -/
def shiftLeft (x : ℤ) (count : ℤ) : Option ℤ := if count ≥ 0 then ck64 (x * 10 ^ count.toNat) else none

/-- astronomy/date_time_body.hpp:100-110 `Date::YYYYMMDD`. -/
def Date.YYYYMMDD (digits : ℤ) (calendar : Option Cal) : Option Date := do
  let absDigits := if digits < 0 then -digits else digits
  let sign : ℤ := if digits < 0 then -1 else 1
  if absDigits ≤ 99999999 then
    let y ← digitRange absDigits 4 8
    let m ← digitRange absDigits 2 4
    let d ← digitRange absDigits 0 2
    Date.ofCalendar (sign * y) m d calendar
  else none

/-- astronomy/date_time_body.hpp:112-120 `Date::YYYYDDD`. -/
def Date.YYYYDDD (R : Fp) (digits : ℤ) (calendar : Option Cal) : Option Date := do
  let sign : ℤ := if digits < 0 then -1 else 1
  if digits ≤ 9999999 then
    let y ← digitRange digits 3 7
    let d ← digitRange digits 0 3
    Date.ofOrdinal R (sign * y) d calendar
  else none

/-- astronomy/date_time_body.hpp:122-128 `Date::YYYYwwD`. -/
def Date.YYYYwwD (R : Fp) (digits : ℤ) : Option Date := do
  if digits ≥ 0 ∧ digits ≤ 9999999 then
    let y ← digitRange digits 3 7
    let w ← digitRange digits 1 3
    let d ← digitRange digits 0 1
    Date.ofWeek R y w d
  else none

/-- astronomy/date_time.hpp:81-106 class `TimeOfDay`. -/
structure Time where
  hour : ℤ
  minute : ℤ
  second : ℤ
  millisecond : ℤ
deriving DecidableEq, Repr

/-- astronomy/date_time_body.hpp:288-303 the constructor of `TimeOfDay`. -/
def Time.make (hour minute second millisecond : ℤ) : Option Time :=
  if (hour = 24 ∧ minute = 0 ∧ second = 0 ∧ millisecond = 0) ∨
      ((millisecond ≥ 0 ∧ millisecond ≤ 999) ∧
        ((hour = 23 ∧ minute = 59 ∧ second = 60) ∨
          (hour ≥ 0 ∧ hour ≤ 23 ∧ minute ≥ 0 ∧ minute ≤ 59 ∧ second ≥ 0 ∧ second ≤ 59))) then
    some ⟨hour, minute, second, millisecond⟩
  else none

/-- astronomy/date_time_body.hpp:255-262 `TimeOfDay::hhmmss_ms`. -/
def Time.hhmmss_ms (hhmmss ms : ℤ) : Option Time := do
  if hhmmss ≥ 0 ∧ hhmmss ≤ 999999 then
    let h ← digitRange hhmmss 4 6
    let m ← digitRange hhmmss 2 4
    let s ← digitRange hhmmss 0 2
    Time.make h m s ms
  else none

/-- astronomy/date_time_body.hpp:280-282 `is_leap_second`. -/
def Time.isLeapSecond (t : Time) : Bool := t.second = 60

/-- astronomy/date_time_body.hpp:284-286 `is_end_of_day`. -/
def Time.isEndOfDay (t : Time) : Bool := t.hour = 24

/-- astronomy/date_time.hpp:108-129 class `DateTime`. -/
structure DateTime where
  date : Date
  time : Time
deriving DecidableEq, Repr

/-- astronomy/date_time_body.hpp:323-330 the constructor of `DateTime`. -/
def DateTime.make (date : Date) (time : Time) : Option DateTime :=
  if !time.isLeapSecond ∨ date.day = monthLength date.year date.month date.calendar then some ⟨date, time⟩ else none

/-- astronomy/date_time_body.hpp:307-309 `DateTime::BeginningOfDay`. -/
def DateTime.beginningOfDay (date : Date) : Option DateTime := do
  let t ← Time.hhmmss_ms 0 0
  DateTime.make date t

/-- astronomy/date_time_body.hpp:319-321 `DateTime::normalized_end_of_day`. -/
def DateTime.normalizedEndOfDay (R : Fp) (d : DateTime) : Option DateTime := do
  if d.time.isEndOfDay then
    let n ← d.date.nextDay R
    DateTime.beginningOfDay n
  else return d

/-- astronomy/date_time_body.hpp:1013-1018 `operator==` on date-times (`none` if a check fails). -/
def DateTime.eqv (R : Fp) (left right : DateTime) : Option Prop := do
  let l ← left.normalizedEndOfDay R
  let r ← right.normalizedEndOfDay R
  return l.date.eqv R r.date ∧ l.time = r.time

/-- astronomy/date_time.hpp:131-154 class `JulianDate`, relative to J2000. -/
structure JulianDate where
  day : ℤ
  numerator : ℤ
  denominator : ℤ
deriving DecidableEq, Repr

/-- astronomy/date_time_body.hpp:385-393 the constructor of `JulianDate`. -/
def JulianDate.make (day numerator denominator : ℤ) : Option JulianDate :=
  if numerator ≥ 0 ∧ numerator < denominator then some ⟨day, numerator, denominator⟩ else none

/-- astronomy/date_time_body.hpp:334-345 `JulianDate::JD`. -/
def JulianDate.JD (digits : ℤ) (digitCount fractionalDigitCount : ℕ) : Option JulianDate := do
  let day ← digitRange digits fractionalDigitCount digitCount
  let n ← digitRange digits 0 fractionalDigitCount
  let d ← shiftLeft 1 fractionalDigitCount
  JulianDate.make (day - 2451545) n d

/-- astronomy/date_time_body.hpp:347-371 `JulianDate::MJD`. -/
def JulianDate.MJD (digits : ℤ) (digitCount fractionalDigitCount : ℕ) : Option JulianDate := do
  let day ← digitRange digits fractionalDigitCount digitCount
  let n ← digitRange digits 0 fractionalDigitCount
  let d ← shiftLeft 1 fractionalDigitCount
  if d = 1 then
    if n = 0 then JulianDate.make (day - 2451545 + 2400000) 5 10 else none
  else if n ≥ d.tdiv 2 then JulianDate.make (day - 2451545 + 2400000 + 1) (n - d.tdiv 2) d
  else JulianDate.make (day - 2451545 + 2400000) (n + d.tdiv 2) d

/-- `*str - '0'` for a decimal digit. -/
def digitValue (c : Char) : ℤ := (c.toNat : ℤ) - 48

/-- The cases `'0'` to `'9'`. -/
def isDigit (c : Char) : Bool := decide (48 ≤ c.toNat ∧ c.toNat ≤ 57)

/-- astronomy/date_time_body.hpp:510-522 and 706-718: the fields of `DateParser` and `TimeParser`, which only differ by
names: the separators are the hyphens and the colons respectively; the mark is the W and the decimal mark respectively. -/
structure Parser where
  digits : ℤ := 0
  digitCount : ℕ := 0
  separators : ℕ := 0
  firstSeparatorIndex : ℤ := -1
  secondSeparatorIndex : ℤ := -1
  hasMark : Bool := false
  markIndex : ℤ := -1
deriving DecidableEq, Repr

/-- astronomy/date_time_body.hpp:569-633 `DateParser::ReadToEnd` and 753-818 `TimeParser::ReadToEnd`.  Both functions have
the same structure, so they are modelled together; `separator` is '-' or ':', `isMark` recognizes 'W', or '.' and ','. -/
def readToEnd (separator : Char) (isMark : Char → Bool) : List Char → ℕ → Parser → Option Parser
  | [], _, p => some p
  | c :: cs, index, p =>
    if c = separator then
      if p.separators < 2 then
        if p.separators = 0 then
          readToEnd separator isMark cs (index + 1) { p with separators := p.separators + 1, firstSeparatorIndex := index }
        else
          readToEnd separator isMark cs (index + 1) { p with separators := p.separators + 1, secondSeparatorIndex := index }
      else none
    else if isMark c then
      if !p.hasMark then readToEnd separator isMark cs (index + 1) { p with hasMark := true, markIndex := index } else none
    else if isDigit c then
      match ck64 (p.digits * 10 + digitValue c) with
      | some n => readToEnd separator isMark cs (index + 1) { p with digits := n, digitCount := p.digitCount + 1 }
      | none => none
    else none

/-- astronomy/date_time_body.hpp:635-661 `DateParser::ToDate`. -/
def Parser.toDate (R : Fp) (p : Parser) (calendar : Option Cal) (negative : Bool) : Option Date :=
  let signedDigits := if negative then -p.digits else p.digits
  if p.digitCount = 8 then
    if p.separators = 0 ∨ (p.separators = 2 ∧ p.firstSeparatorIndex = 4 ∧ p.secondSeparatorIndex = 7) then
      Date.YYYYMMDD signedDigits calendar
    else none
  else if p.digitCount = 7 then
    if p.hasMark then
      if ((p.separators = 0 ∧ p.markIndex = 4) ∨
          (p.separators = 2 ∧ p.firstSeparatorIndex = 4 ∧ p.markIndex = 5 ∧ p.secondSeparatorIndex = 8)) ∧
          calendar = none then
        Date.YYYYwwD R signedDigits
      else none
    else
      if p.separators = 0 ∨ (p.separators = 1 ∧ p.firstSeparatorIndex = 4) then Date.YYYYDDD R signedDigits calendar
      else none
  else none

/-- astronomy/date_time_body.hpp:528-532, part of `DateParser::Parse`: the optional calendar. -/
def splitCalendar : List Char → Option Cal × List Char
  | 'J' :: cs => (some .julian, cs)
  | 'G' :: cs => (some .gregorian, cs)
  | cs => (none, cs)

/-- astronomy/date_time_body.hpp:533-538, part of `DateParser::Parse`: the optional sign. -/
def splitSign : List Char → Bool × List Char
  | '+' :: cs => (false, cs)
  | '-' :: cs => (true, cs)
  | cs => (false, cs)

/-- astronomy/date_time_body.hpp:525-540 `DateParser::Parse`, and 972-974 `operator""_Date`.  (If the string is exhausted,
str[0] is the terminating null character or the T of the date-time, so it is neither a calendar nor a sign.) -/
def parseDate (R : Fp) (str : List Char) : Option Date :=
  let (calendar, str) := splitCalendar str
  let (negative, str) := splitSign str
  match readToEnd '-' (· = 'W') str 0 {} with
  | some p => p.toDate R calendar negative
  | none => none

/-- astronomy/date_time_body.hpp:820-837 `TimeParser::ToTime`.  The conversions to `int` of numbers of at most 6 and at most 9
digits do not overflow. -/
def Parser.toTime (p : Parser) : Option Time := do
  if p.digitCount ≥ 6 ∧ p.digitCount ≤ 15 ∧
      (p.separators = 0 ∨ (p.separators = 2 ∧ p.firstSeparatorIndex = 2 ∧ p.secondSeparatorIndex = 5)) ∧
      ((p.digitCount = 6 ∧ !p.hasMark) ∨
        (p.hasMark ∧ ((p.separators = 0 ∧ p.markIndex = 6) ∨ (p.separators ≠ 0 ∧ p.markIndex = 8)))) then
    let hhmmss ← digitRange p.digits (p.digitCount - 6) p.digitCount
    let f ← digitRange p.digits 0 (p.digitCount - 6)
    let ms ← shiftLeft f (3 - (p.digitCount - 6))
    Time.hhmmss_ms hhmmss ms
  else none

/-- astronomy/date_time_body.hpp:721-724 `TimeParser::Parse`, and 998-1001 `operator""_Time`. -/
def parseTime (str : List Char) : Option Time := do
  let p ← readToEnd ':' (fun c => c = '.' ∨ c = ',') str 0 {}
  p.toTime

/-- astronomy/date_time_body.hpp:403-408 `index_of` together with the splitting at that index in `operator""_DateTime`. -/
def splitAtT : List Char → Option (List Char × List Char)
  | [] => none
  | c :: cs => if c = 'T' then some ([], cs) else (splitAtT cs).map fun p => (c :: p.1, p.2)

/-- astronomy/date_time_body.hpp:1024-1034 `operator""_DateTime`. -/
def parseDateTime (R : Fp) (str : List Char) : Option DateTime := do
  if str.contains '-' = str.contains ':' then
    let (d, t) ← splitAtT str
    let date ← parseDate R d
    let time ← parseTime t
    DateTime.make date time
  else none

/-- astronomy/date_time_body.hpp:909-942 `JulianDateParser::ReadToEnd`; the state is digits_, digit_count_ and
has_decimal_mark / decimal_mark_index_ (the index is negative iff there is no decimal mark). -/
def readJulian : List Char → ℕ → ℤ → ℕ → Option ℕ → Option (ℤ × ℕ × Option ℕ)
  | [], _, digits, count, mark => some (digits, count, mark)
  | c :: cs, index, digits, count, mark =>
    if c = '.' then
      if mark = none then readJulian cs (index + 1) digits count (some index) else none
    else if isDigit c then
      if digits ≤ 9223372036854775807 / 10 - 9 then
        readJulian cs (index + 1) (digits * 10 + digitValue c) (count + 1) mark
      else none
    else none

/-- astronomy/date_time_body.hpp:944-956 `JulianDateParser::ToJD` and `ToMJD`: the number of fractional digits. -/
def fractionalDigits (count : ℕ) (mark : Option ℕ) : ℕ :=
  match mark with
  | none => 0
  | some i => count - i

/-- astronomy/date_time_body.hpp:1044-1052 `operator""_Julian`, with 883-891 `ParseJD` and `ParseMJD`. -/
def parseJulian (str : List Char) : Option JulianDate :=
  match str with
  | 'J' :: 'D' :: cs => do
    let (digits, count, mark) ← readJulian cs 0 0 0 none
    JulianDate.JD digits count (fractionalDigits count mark)
  | 'M' :: 'J' :: 'D' :: cs => do
    let (digits, count, mark) ← readJulian cs 0 0 0 none
    JulianDate.MJD digits count (fractionalDigits count mark)
  | _ => none

/-- The decimal representation of a natural number, as written by a stream. -/
def showNat (n : ℕ) : List Char :=
  if n < 10 then [Char.ofNat (48 + n)] else showNat (n / 10) ++ [Char.ofNat (48 + n % 10)]

/-- `std::setfill('0') << std::setw(width) << n` for a nonnegative integer n. -/
def showPadded (width : ℕ) (n : ℕ) : List Char := (showNat n).leftpad width '0'

/-- astronomy/date_time_body.hpp:976-985 `operator<<` for dates.  Months and days are nonnegative. -/
def Date.show (d : Date) : List Char :=
  (if d.calendar = .julian then ['J'] else if d.year ≤ 1582 then ['G'] else [])
  ++ (if d.year < 0 then ['-'] else []) ++ showPadded 4 d.year.natAbs ++ ['-'] ++ showPadded 2 d.month.toNat
  ++ ['-'] ++ showPadded 2 d.day.toNat

/-- astronomy/date_time_body.hpp:1003-1011 `operator<<` for times of day. -/
def Time.show (t : Time) : List Char :=
  showPadded 2 t.hour.toNat ++ [':'] ++ showPadded 2 t.minute.toNat ++ [':'] ++ showPadded 2 t.second.toNat
  ++ (if t.millisecond > 0 then [','] ++ showPadded 3 t.millisecond.toNat else [])

/-- astronomy/date_time_body.hpp:1036-1038 `operator<<` for date-times. -/
def DateTime.show (d : DateTime) : List Char := d.date.show ++ ['T'] ++ d.time.show

end Principia.Calendar
