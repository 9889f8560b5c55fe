import Verif.Astronomy.CalendarSpec

/-!
# The formats of dates and times

The formats of ISO 8601 documented in astronomy/date_time_body.hpp:474-477 and 669-672 and, for Julian dates, 845-847.
-/

namespace Principia.Calendar.Spec

/-- The character for a digit. -/
def digitChar (d : Fin 10) : Char :=
  match d with
  | 0 => '0' | 1 => '1' | 2 => '2' | 3 => '3' | 4 => '4' | 5 => '5' | 6 => '6' | 7 => '7' | 8 => '8' | 9 => '9'

/-- `Numeral s n`: s is a string of decimal digits whose value is n. -/
inductive Numeral : List Char → ℕ → Prop
  | nil : Numeral [] 0
  | snoc {s n} (d : Fin 10) : Numeral s n → Numeral (s ++ [digitChar d]) (10 * n + d)

/-- A numeral with a given number of digits. -/
def Numeral.Fixed (width : ℕ) (s : List Char) (n : ℕ) : Prop := Numeral s n ∧ s.length = width

/-- The optional letter for the calendar. -/
def calendarText : Option Cal → List Char
  | none => []
  | some .julian => ['J']
  | some .gregorian => ['G']

/-- The optional sign: the text and the value. -/
inductive Sign : List Char → ℤ → Prop
  | none : Sign [] 1
  | plus : Sign ['+'] 1
  | minus : Sign ['-'] (-1)

/-- [YYYY-MM-DD] and [YYYYMMDD]. -/
def CalendarBody (s : List Char) (y m d : ℕ) : Prop :=
  ∃ Y M D, Numeral.Fixed 4 Y y ∧ Numeral.Fixed 2 M m ∧ Numeral.Fixed 2 D d ∧
    (s = Y ++ M ++ D ∨ s = Y ++ ['-'] ++ M ++ ['-'] ++ D)

/-- [YYYY-DDD] and [YYYYDDD]. -/
def OrdinalBody (s : List Char) (y d : ℕ) : Prop :=
  ∃ Y D, Numeral.Fixed 4 Y y ∧ Numeral.Fixed 3 D d ∧ (s = Y ++ D ∨ s = Y ++ ['-'] ++ D)

/-- [YYYY-Www-D] and [YYYYWwwD]. -/
def WeekBody (s : List Char) (y w d : ℕ) : Prop :=
  ∃ Y W D, Numeral.Fixed 4 Y y ∧ Numeral.Fixed 2 W w ∧ Numeral.Fixed 1 D d ∧
    (s = Y ++ ['W'] ++ W ++ D ∨ s = Y ++ ['-', 'W'] ++ W ++ ['-'] ++ D)

/-- The valid times of day of ISO 8601: 24:00:00 is the end of the day, and there may be a leap second. -/
def ValidTime (h m s ms : ℤ) : Prop :=
  (h = 24 ∧ m = 0 ∧ s = 0 ∧ ms = 0) ∨
  (0 ≤ h ∧ h < 24 ∧ 0 ≤ m ∧ m < 60 ∧ 0 ≤ s ∧ s < 60 ∧ 0 ≤ ms ∧ ms < 1000) ∨
  (h = 23 ∧ m = 59 ∧ s = 60 ∧ 0 ≤ ms ∧ ms < 1000)

/-- [hh:mm:ss], [hhmmss], and the same followed by a decimal mark and at most three digits. -/
def TimeBody (text : List Char) (h m s ms : ℕ) : Prop :=
  ∃ H M S, Numeral.Fixed 2 H h ∧ Numeral.Fixed 2 M m ∧ Numeral.Fixed 2 S s ∧
    ∃ hms fraction, (hms = H ++ M ++ S ∨ hms = H ++ [':'] ++ M ++ [':'] ++ S) ∧ text = hms ++ fraction ∧
      (fraction = [] ∧ ms = 0 ∨
       ∃ mark F f, (mark = '.' ∨ mark = ',') ∧ fraction = mark :: F ∧ Numeral F f ∧ F.length ≤ 3 ∧
         ms = f * 10 ^ (3 - F.length))

/-- [ddd] and [ddd.fff]: a number with integer part i and fractional digits F, of value f. -/
def JulianNumber (text : List Char) (i : ℕ) (F : List Char) (f : ℕ) : Prop :=
  ∃ I, Numeral I i ∧ Numeral F f ∧ (text = I ++ '.' :: F ∨ F = [] ∧ text = I)

end Principia.Calendar.Spec
