import Verif.Quantities.DimensionsModel

/-!
A model of quantities/parser_body.hpp.

Simplifications: strings are lists of characters and not of UTF-8 code units; the only characters that matter, the blanks, carets, slashes, signs
and digits, are ASCII, and do not occur in the encoding of other characters.  The arithmetic is exact, and the exponents of the dimensions are
integers without bounds.  `std::strtod` is a parameter.  `std::strtol` is that of a system where `long` has 64 bits and `int` has 32.
-/

set_option linter.unusedVariables false

namespace Principia.Quantities.Parser

variable {K : Type} [Field K]

/-! ## Strings (a position is `none` for `npos`) -/

/-- `std::string::find` for a character. -/
def find (c : Char) (s : List Char) (start : Nat) : Option Nat := ((s.drop start).findIdx? (· == c)).map (start + ·)

/-- `std::string::rfind` for a character. -/
def rfind (c : Char) (s : List Char) : Option Nat := (s.reverse.findIdx? (· == c)).map (s.length - 1 - ·)

/-- `std::string::find_first_not_of` for a blank. -/
def findFirstNotBlank (s : List Char) (start : Nat) : Option Nat := ((s.drop start).findIdx? (· != ' ')).map (start + ·)

/-- `std::string::find_last_not_of` for a blank, in the entire string. -/
def findLastNotBlank (s : List Char) : Option Nat := (s.reverse.findIdx? (· != ' ')).map (s.length - 1 - ·)

/-- `std::string::find_last_not_of(' ', position - 1)`: if the position is 0, its predecessor is `npos`, and the entire string is searched. -/
def findLastNotBlankBefore (s : List Char) (position : Nat) : Option Nat :=
  if position = 0 then findLastNotBlank s else findLastNotBlank (s.take position)

/-! ## Units -/

/-- quantities/parser_body.hpp:84-90 (`operator*`).  The dimensions are the eight elements of the array. -/
def unitMul (left right : Quantity K) : Quantity K :=
  ⟨⟨left.dimensions.length + right.dimensions.length, left.dimensions.mass + right.dimensions.mass, left.dimensions.time + right.dimensions.time,
    left.dimensions.current + right.dimensions.current, left.dimensions.temperature + right.dimensions.temperature,
    left.dimensions.amount + right.dimensions.amount, left.dimensions.luminousIntensity + right.dimensions.luminousIntensity,
    left.dimensions.angle + right.dimensions.angle⟩, left.magnitude * right.magnitude⟩

/-- quantities/parser_body.hpp:92-98 (`operator/`). -/
def unitDiv (left right : Quantity K) : Quantity K :=
  ⟨⟨left.dimensions.length - right.dimensions.length, left.dimensions.mass - right.dimensions.mass, left.dimensions.time - right.dimensions.time,
    left.dimensions.current - right.dimensions.current, left.dimensions.temperature - right.dimensions.temperature,
    left.dimensions.amount - right.dimensions.amount, left.dimensions.luminousIntensity - right.dimensions.luminousIntensity,
    left.dimensions.angle - right.dimensions.angle⟩, left.magnitude / right.magnitude⟩

/-- quantities/parser_body.hpp:100-106 (`operator^`). -/
def unitPow (left : Quantity K) (exponent : Int) : Quantity K :=
  ⟨⟨left.dimensions.length * exponent, left.dimensions.mass * exponent, left.dimensions.time * exponent, left.dimensions.current * exponent,
    left.dimensions.temperature * exponent, left.dimensions.amount * exponent, left.dimensions.luminousIntensity * exponent,
    left.dimensions.angle * exponent⟩, left.magnitude ^ exponent⟩

/-- quantities/parser_body.hpp:110-111: `Unit(1.0)`. -/
def one : Quantity K := ⟨.none, 1⟩

/-- The dimensions of a length. -/
def L : Dimensions := ⟨1, 0, 0, 0, 0, 0, 0, 0⟩
/-- The dimensions of a mass. -/
def M : Dimensions := ⟨0, 1, 0, 0, 0, 0, 0, 0⟩
/-- The dimensions of a time. -/
def T : Dimensions := ⟨0, 0, 1, 0, 0, 0, 0, 0⟩
/-- The dimensions of an angle. -/
def A : Dimensions := ⟨0, 0, 0, 0, 0, 0, 0, 1⟩

/-- quantities/parser_body.hpp:108-171 (`ParseUnit`): the table, with the definitions of the units in quantities/si.hpp:76-100,
quantities/bipm.hpp:24 and quantities/astronomy.hpp:24-54. -/
def units (π : K) : List (List Char × Quantity K) :=
  [([], one),
   (['Å'], ⟨L, 1 / 10 ^ 10⟩),
   (['μ', 'm'], ⟨L, 1 / 10 ^ 6⟩),
   (['m', 'm'], ⟨L, 1 / 10 ^ 3⟩),
   (['c', 'm'], ⟨L, 1 / 10 ^ 2⟩),
   (['m'], ⟨L, 1⟩),
   (['k', 'm'], ⟨L, 10 ^ 3⟩),
   (['R', '🜨'], ⟨L, 6378100⟩),
   (['R', '☉'], ⟨L, 695700000⟩),
   (['a', 'u'], ⟨L, 149597870700⟩),
   (['k', 'g'], ⟨M, 1⟩),
   (['m', 's'], ⟨T, 1 / 10 ^ 3⟩),
   (['s'], ⟨T, 1⟩),
   (['m', 'i', 'n'], ⟨T, 60⟩),
   (['h'], ⟨T, 60 * 60⟩),
   (['d'], ⟨T, 24 * (60 * 60)⟩),
   (['G', 'M', '🜨'], ⟨⟨3, 0, -2, 0, 0, 0, 0, 0⟩, 398600400000000⟩),
   (['G', 'M', '☉'], ⟨⟨3, 0, -2, 0, 0, 0, 0, 0⟩, 132712440000000000000⟩),
   (['W'], ⟨⟨2, 1, -3, 0, 0, 0, 0, 0⟩, 1⟩),
   (['d', 'e', 'g'], ⟨A, π / 180⟩),
   (['°'], ⟨A, π / 180⟩),
   (['r', 'a', 'd'], ⟨A, 1⟩),
   (['s', 'r'], ⟨⟨0, 0, 0, 0, 0, 0, 0, 2⟩, 1⟩)]

/-- quantities/parser_body.hpp:108-171 (`ParseUnit`); `none` for `LOG(FATAL)`. -/
def parseUnit (π : K) (s : List Char) : Option (Quantity K) := ((units π).find? fun u => u.1 == s).map (·.2)

/-- The characters skipped by `std::strtol`. -/
def isSpace (c : Char) : Bool := c == ' ' || c == '\t' || c == '\n' || c == '\x0b' || c == '\x0c' || c == '\r'

/-- The value of decimal digits. -/
def decimal (s : List Char) : Nat := s.foldl (fun n c => 10 * n + (c.toNat - '0'.toNat)) 0

/-- The optional sign accepted by `std::strtol`: whether the number is negative, and the characters that follow. -/
def sign : List Char → Bool × List Char
  | '-' :: u => (true, u)
  | '+' :: u => (false, u)
  | u => (false, u)

/-- `std::strtol`, for decimal numbers: the value and whether any characters were consumed. -/
def strtol (s : List Char) : Int × Bool :=
  let t := sign (s.dropWhile isSpace)
  let digits := t.2.takeWhile Char.isDigit
  let n : Int := if t.1 then -(decimal digits : Int) else decimal digits
  (max (-2 ^ 63) (min (2 ^ 63 - 1) n), !digits.isEmpty)

/-- The conversion of a `long` to an `int`. -/
def toInt32 (n : Int) : Int := (BitVec.ofInt 32 n).toInt

/-- quantities/parser_body.hpp:173-181 (`ParseExponent`). -/
def parseExponent (s : List Char) : Option Int :=
  let r := strtol s
  if r.2 then some (toInt32 r.1) else none

/-- quantities/parser_body.hpp:183-198 (`ParseExponentiationUnit`). -/
def parseExponentiationUnit (π : K) (s : List Char) : Option (Quantity K) :=
  match find '^' s 0 with
  | none => parseUnit π s
  | some caret =>
    match findFirstNotBlank s (caret + 1), findLastNotBlankBefore s caret with
    | some firstNonblank, some lastNonblank =>
      match parseUnit π (s.take (lastNonblank + 1)), parseExponent (s.drop firstNonblank) with
      | some left, some right => some (unitPow left right)
      | _, _ => none
    | _, _ => none

/-- quantities/parser_body.hpp:206-218: the search for the blank that separates the factors.  The first argument bounds the number of iterations.
The result is `none` if there is no such blank, otherwise it gives the values of `first_nonblank` and `last_nonblank`. -/
def separator (s : List Char) : Nat → Nat → Option (Option Nat × Option Nat)
  | 0, _ => none
  | n + 1, start =>
    match find ' ' s start with
    | none => none
    | some firstBlank =>
      let firstNonblank := findFirstNotBlank s (firstBlank + 1)
      let lastNonblank := findLastNotBlankBefore s firstBlank
      if (firstNonblank = none ∨ firstNonblank.bind (s[·]?) ≠ some '^') ∧ (lastNonblank = none ∨ lastNonblank.bind (s[·]?) ≠ some '^') then
        some (firstNonblank, lastNonblank)
      else separator s n (firstBlank + 1)

/-- quantities/parser_body.hpp:200-222 (`ParseProductUnit`).  The first argument bounds the depth of the recursion.  The call `s.substr(npos)`
throws. -/
def parseProductUnit (π : K) : Nat → List Char → Option (Quantity K)
  | 0, _ => none
  | n + 1, s =>
    match separator s (s.length + 1) 0 with
    | none => parseExponentiationUnit π s
    | some (firstNonblank, lastNonblank) =>
      match parseExponentiationUnit π (match lastNonblank with | none => [] | some p => s.take (p + 1)),
        firstNonblank.bind fun p => parseProductUnit π n (s.drop p) with
      | some left, some right => some (unitMul left right)
      | _, _ => none

/-- quantities/parser_body.hpp:224-246 (`ParseQuotientUnit`).  The first argument bounds the depth of the recursion. -/
def parseQuotientUnit (π : K) : Nat → List Char → Option (Quantity K)
  | 0, _ => none
  | n + 1, s =>
    match rfind '/' s with
    | none => parseProductUnit π (s.length + 1) s
    | some slash =>
      match findFirstNotBlank s (slash + 1) with
      | none => none
      | some firstNonblank =>
        let lastNonblank := if slash = 0 then none else findLastNotBlankBefore s slash
        match (match lastNonblank with | none => some one | some p => parseQuotientUnit π n (s.take (p + 1))),
          parseExponentiationUnit π (s.drop firstNonblank) with
        | some left, some right => some (unitDiv left right)
        | _, _ => none

/-- quantities/parser_body.hpp:248-261 (`ParseQuantity`).  The parameter `strtod` returns the value and the number of characters interpreted. -/
def parseQuantity (π : K) (strtod : List Char → K × Nat) (d : Dimensions) (s : List Char) : Option (Quantity K) :=
  let r := strtod s
  if r.2 = 0 then none
  else
    let unitString := match findFirstNotBlank s r.2, findLastNotBlank s with
      | some first, some last => (s.drop first).take (last - first + 1)
      | _, _ => []
    match parseQuotientUnit π (unitString.length + 1) unitString with
    | none => none
    | some unit => if d = unit.dimensions then some ⟨d, r.1 * unit.magnitude⟩ else none

/-! ## Formatting -/

/-- `std::to_string` for an `int`. -/
def intToString (n : Int) : List Char := if n < 0 then '-' :: Nat.toDigits 10 n.natAbs else Nat.toDigits 10 n.natAbs

/-- quantities/quantities_body.hpp:159-170 (`format_unit`). -/
def formatUnit (name : List Char) (exponent : Int) : List Char :=
  if exponent = 0 then [] else if exponent = 1 then ' ' :: name else ' ' :: (name ++ '^' :: intToString exponent)

/-- quantities/quantities_body.hpp:157-184 (`Format`). -/
def format (d : Dimensions) : List Char :=
  (formatUnit ['m'] d.length ++ formatUnit ['k', 'g'] d.mass ++ formatUnit ['s'] d.time ++ formatUnit ['A'] d.current ++
    formatUnit ['K'] d.temperature ++ formatUnit ['m', 'o', 'l'] d.amount ++ formatUnit ['c', 'd'] d.luminousIntensity ++
    formatUnit ['r', 'a', 'd'] d.angle).drop 1

end Principia.Quantities.Parser
