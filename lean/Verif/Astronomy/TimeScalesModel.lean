import Verif.Astronomy.LiteralsModel

/-!
# Model of `astronomy/time_scales_body.hpp`

The conversion of dates and times in TT, TAI, UTC, GPS time and 北斗 time to instants.  The dates are those of the model of `astronomy/date_time_body.hpp`.  `none` is a failed check.

Simplifications: the durations are exact, where the code has `double`s.  UT1 is limited to the search in the sorted tables; the contents of these tables and the interpolation are not modelled.
-/

namespace Principia.Calendar

/-- astronomy/time_scales_body.hpp:33-42 `TimeSince20000101T120000Z`, in seconds. -/
def timeSince2000 (R : Fp) (x : DateTime) : Option ℚ := do
  let n ← x.date.mjd R
  let n₀ ← Date.mjd R ⟨2000, 1, 1, .gregorian⟩
  some ((x.time.millisecond : ℚ) / 1000 + ((x.time.second + 60 * (x.time.minute + 60 * (x.time.hour - 12 + 24 * (n - n₀))) : ℤ) : ℚ))

/-- astronomy/time_scales_body.hpp:53-55 `FromTT`: the instant, in seconds since J2000. -/
def fromTT (t : ℚ) : ℚ := t

/-- astronomy/time_scales_body.hpp:57-59 `FromTAI`. -/
def fromTAI (tai : ℚ) : ℚ := fromTT (tai + 32184 / 1000)

/-- astronomy/time_scales_body.hpp:61-63 `FromGPSTime`. -/
def fromGPSTime (gps : ℚ) : ℚ := fromTAI (gps + 19)

/-- astronomy/time_scales_body.hpp:65-67 `From北斗Time`. -/
def fromBeiDouTime (t : ℚ) : ℚ := fromTAI (t + 33)

/-- astronomy/time_scales_body.hpp:71-123 `leap_seconds`. -/
def leapSeconds : List ℤ :=
  [1, 1,  0, 1,  0, 1,  0, 1,  0, 1,  0, 1,  0, 1,  0, 1,  0, 0,  1, 0,
   1, 0,  1, 0,  0, 0,  1, 0,  0, 0,  0, 1,  0, 0,  0, 1,  0, 1,  0, 0,
   1, 0,  1, 0,  1, 0,  0, 1,  0, 0,  1, 0,  0, 1,  0, 0,  0, 0,  0, 0,
   0, 0,  0, 0,  0, 0,  0, 1,  0, 0,  0, 0,  0, 1,  0, 0,  0, 0,  0, 0,
   1, 0,  0, 0,  0, 0,  1, 0,  0, 1,  0, 0,  0, 0,  0, 0,  0, 0,  0, 0,
   0, 0]

/-- astronomy/time_scales_body.hpp:127-136 `LeapSecond`.  The comparison of the index with the size is unsigned. -/
def leapSecond (year month : ℤ) : Option ℤ :=
  if month = 6 then
    if 0 ≤ (year - 1972) * 2 then leapSeconds[((year - 1972) * 2).toNat]? else none
  else if month = 12 then
    if 0 ≤ (year - 1972) * 2 + 1 then leapSeconds[((year - 1972) * 2 + 1).toNat]? else none
  else none

/-- astronomy/time_scales_body.hpp:140-147 `ModernUTCMinusTAI` on the 1st of January of the year 1972 + n. -/
def newYearUTCMinusTAI : ℕ → Option ℤ
  | 0 => some (-10)
  | n + 1 => do
    let june ← leapSecond (1972 + n) 6
    let december ← leapSecond (1972 + n) 12
    let previous ← newYearUTCMinusTAI n
    some (-june + -december + previous)

/-- astronomy/time_scales_body.hpp:139-153 `ModernUTCMinusTAI`.  Before 1972 the recursion ends with a failed check. -/
def modernUTCMinusTAI (d : Date) : Option ℤ :=
  if d.year < 1972 then none
  else if d.month = 1 ∧ d.day = 1 then newYearUTCMinusTAI (d.year - 1972).toNat
  else do
    let june ← if d.month > 6 then leapSecond d.year 6 else some 0
    let newYear ← newYearUTCMinusTAI (d.year - 1972).toNat
    some (-june + newYear)

/-- astronomy/time_scales_body.hpp:155-158 `IsValidModernUTC`. -/
def isValidModernUTC (x : DateTime) : Option Bool :=
  if !x.time.isLeapSecond then some true
  else (leapSecond x.date.year x.date.month).map fun l => decide (l = 1)

/-- astronomy/time_scales_body.hpp:49-51 `mjd`. -/
def mjdOfTime (t : ℚ) : ℚ := t / 86400 + 51544 + 1 / 2

/-- astronomy/time_scales_body.hpp:165-177 `RateTAIMinusStretchyUTC`, where `t` is the time since 2000. -/
def rateTAIMinusStretchyUTC (R : Fp) (d : Date) (t : ℚ) : ℚ :=
  if d.jd R < Date.jd R ⟨1962, 1, 1, .gregorian⟩ then (mjdOfTime t - 37300) * (1296 / 1000000)
  else if d.jd R < Date.jd R ⟨1964, 1, 1, .gregorian⟩ then (mjdOfTime t - 37665) * (11232 / 10000000)
  else if d.jd R < Date.jd R ⟨1966, 1, 1, .gregorian⟩ then (mjdOfTime t - 38761) * (1296 / 1000000)
  else (mjdOfTime t - 39126) * (2592 / 1000000)

/-- astronomy/time_scales_body.hpp:180-194 `OffsetTAIMinusStretchyUTC`. -/
def offsetTAIMinusStretchyUTC (R : Fp) (d : Date) : ℚ :=
  if d.jd R < Date.jd R ⟨1961, 8, 1, .gregorian⟩ then 14228180 / 10000000
  else if d.jd R < Date.jd R ⟨1962, 1, 1, .gregorian⟩ then 13728180 / 10000000
  else if d.jd R < Date.jd R ⟨1963, 11, 1, .gregorian⟩ then 18458580 / 10000000
  else if d.jd R < Date.jd R ⟨1964, 1, 1, .gregorian⟩ then 19458580 / 10000000
  else if d.jd R < Date.jd R ⟨1964, 4, 1, .gregorian⟩ then 32401300 / 10000000
  else if d.jd R < Date.jd R ⟨1964, 9, 1, .gregorian⟩ then 33401300 / 10000000
  else if d.jd R < Date.jd R ⟨1965, 1, 1, .gregorian⟩ then 34401300 / 10000000
  else if d.jd R < Date.jd R ⟨1965, 3, 1, .gregorian⟩ then 35401300 / 10000000
  else if d.jd R < Date.jd R ⟨1965, 7, 1, .gregorian⟩ then 36401300 / 10000000
  else if d.jd R < Date.jd R ⟨1965, 9, 1, .gregorian⟩ then 37401300 / 10000000
  else if d.jd R < Date.jd R ⟨1966, 1, 1, .gregorian⟩ then 38401300 / 10000000
  else if d.jd R < Date.jd R ⟨1968, 2, 1, .gregorian⟩ then 43131700 / 10000000
  else 42131700 / 10000000

/-- astronomy/time_scales_body.hpp:203-209 `IsValidPositiveStretchyUTCLeap`, where `nextDayOfUTC` is the result of `next_day`. -/
def isValidPositiveStretchyUTCLeap (R : Fp) (x : DateTime) (nextDayOfUTC nextDay : Date) (milliseconds : ℚ) : Bool :=
  x.time.isLeapSecond && decide (nextDayOfUTC.jd R = nextDay.jd R) && decide ((x.time.millisecond : ℚ) < milliseconds)

/-- astronomy/time_scales_body.hpp:214-222 `IsValidStretchyUTCIfOnDayOfNegativeLeap`. -/
def isValidStretchyUTCIfOnDayOfNegativeLeap (R : Fp) (x : DateTime) (nextDayOfUTC nextDay : Date) (milliseconds : ℤ) : Bool :=
  !decide (nextDayOfUTC.jd R = nextDay.jd R) || decide (x.time.hour < 23) || decide (x.time.minute < 59) || decide (x.time.millisecond < 1000 - milliseconds)

/-- astronomy/time_scales_body.hpp:226-239 `IsValidStretchyUTC`.  The failures of `next_day` are failures of the whole, even where the code would not call it. -/
def isValidStretchyUTC (R : Fp) (x : DateTime) : Option Bool := do
  if x.date.year ≥ 1961 ∧ x.date.year < 1972 then
    let n ← x.date.nextDay R
    some (isValidStretchyUTCIfOnDayOfNegativeLeap R x n ⟨1961, 8, 1, .gregorian⟩ 50 &&
      isValidStretchyUTCIfOnDayOfNegativeLeap R x n ⟨1968, 2, 1, .gregorian⟩ 100 &&
      (!x.time.isLeapSecond ||
        isValidPositiveStretchyUTCLeap R x n ⟨1963, 11, 1, .gregorian⟩ 100 ||
        isValidPositiveStretchyUTCLeap R x n ⟨1964, 4, 1, .gregorian⟩ 100 ||
        isValidPositiveStretchyUTCLeap R x n ⟨1964, 9, 1, .gregorian⟩ 100 ||
        isValidPositiveStretchyUTCLeap R x n ⟨1965, 1, 1, .gregorian⟩ 100 ||
        isValidPositiveStretchyUTCLeap R x n ⟨1965, 3, 1, .gregorian⟩ 100 ||
        isValidPositiveStretchyUTCLeap R x n ⟨1965, 7, 1, .gregorian⟩ 100 ||
        isValidPositiveStretchyUTCLeap R x n ⟨1965, 9, 1, .gregorian⟩ 100 ||
        isValidPositiveStretchyUTCLeap R x n ⟨1972, 1, 1, .gregorian⟩ (107758 / 1000)))
  else some false

/-- astronomy/time_scales_body.hpp:458-461 `DateTimeAsTT`. -/
def dateTimeAsTT (R : Fp) (x : DateTime) : Option ℚ := if x.time.isLeapSecond then none else (timeSince2000 R x).map fromTT

/-- astronomy/time_scales_body.hpp:463-466 `DateTimeAsTAI`. -/
def dateTimeAsTAI (R : Fp) (x : DateTime) : Option ℚ := if x.time.isLeapSecond then none else (timeSince2000 R x).map fromTAI

/-- astronomy/time_scales_body.hpp:468-471 `DateTimeAsGPSTime`. -/
def dateTimeAsGPSTime (R : Fp) (x : DateTime) : Option ℚ := if x.time.isLeapSecond then none else (timeSince2000 R x).map fromGPSTime

/-- astronomy/time_scales_body.hpp:473-476 `DateTimeAs北斗Time`. -/
def dateTimeAsBeiDouTime (R : Fp) (x : DateTime) : Option ℚ := if x.time.isLeapSecond then none else (timeSince2000 R x).map fromBeiDouTime

/-- astronomy/time_scales_body.hpp:481-488: `DateTimeAsUTC` for a time which is not the end of the day. -/
def normalizedAsUTC (R : Fp) (x : DateTime) : Option ℚ :=
  if x.date.year < 1972 then do
    let valid ← isValidStretchyUTC R x
    if valid then
      let t ← timeSince2000 R x
      some (fromTAI (t + (offsetTAIMinusStretchyUTC R x.date + rateTAIMinusStretchyUTC R x.date t)))
    else none
  else do
    let valid ← isValidModernUTC x
    if valid then
      let t ← timeSince2000 R x
      let offset ← modernUTCMinusTAI x.date
      some (fromTAI (t - offset))
    else none

/-- astronomy/time_scales_body.hpp:478-489 `DateTimeAsUTC`. -/
def dateTimeAsUTC (R : Fp) (x : DateTime) : Option ℚ :=
  if x.time.isEndOfDay then (x.normalizedEndOfDay R).bind (normalizedAsUTC R) else normalizedAsUTC R x

/-- astronomy/time_scales_body.hpp:310-351 `LookupUT1` (twice) and `LookupTT`: the index of the entry. -/
def lookup (key : ℕ → ℚ) (x : ℚ) (begin size : ℕ) : Option ℕ :=
  if size = 0 then none
  else if size = 1 then if key begin ≤ x then some begin else none
  else if key (begin + size / 2) ≤ x then lookup key x (begin + size / 2) (size - size / 2)
  else lookup key x begin (size / 2)
  termination_by size
  decreasing_by all_goals omega

end Principia.Calendar
