import Mathlib.Algebra.Field.Basic
import Mathlib.Data.Int.Basic

/-!
A model of quantities/dimensions_body.hpp and of the operations of quantities/quantities_body.hpp and quantities/generators_body.hpp.

Simplifications: the dimensions, which are template parameters, are values here; an operation that does not compile is `none`.  The exponents are
integers without bounds: an overflow in a constant expression does not compile.  Magnitudes are elements of a field.  `double` is the type of the
quantities without dimensions (generators_body.hpp:21-29, `Collapse`).
-/

set_option linter.unusedVariables false

namespace Principia.Quantities

/-- quantities/dimensions_body.hpp:50-66: the exponents of length, mass, time, current, temperature, amount, luminous intensity and angle. -/
@[ext]
structure Dimensions where
  length : Int
  mass : Int
  time : Int
  current : Int
  temperature : Int
  amount : Int
  luminousIntensity : Int
  angle : Int
  deriving DecidableEq

/-- quantities/dimensions_body.hpp:32-35 (`ExponentSerializer::IsSerializable`), with the constants of lines 26-27. -/
def exponentIsSerializable (exponent : Int) : Bool := exponent ≥ -24 && exponent ≤ 7

/-- quantities/dimensions_body.hpp:37-48 (`ExponentSerializer::Representation`), with the constants of lines 28-29. -/
def exponentRepresentation (exponent : Int) (position : Nat) : BitVec 64 :=
  (BitVec.ofInt 64 exponent &&& 0x1F#64) <<< (position * 5)

namespace Dimensions

/-- quantities/dimensions_body.hpp:68-76 (`Dimensions::representation`). -/
def representation (d : Dimensions) : BitVec 64 :=
  exponentRepresentation d.length 0 ||| exponentRepresentation d.mass 1 ||| exponentRepresentation d.time 2 |||
    exponentRepresentation d.current 3 ||| exponentRepresentation d.temperature 4 ||| exponentRepresentation d.amount 5 |||
    exponentRepresentation d.luminousIntensity 6 ||| exponentRepresentation d.angle 7

/-- quantities/dimensions_body.hpp:79-97 (`DimensionsAreSerializable`). -/
def serializable (d : Dimensions) : Bool :=
  exponentIsSerializable d.length && exponentIsSerializable d.mass && exponentIsSerializable d.time && exponentIsSerializable d.current &&
    exponentIsSerializable d.temperature && exponentIsSerializable d.amount && exponentIsSerializable d.luminousIntensity &&
    exponentIsSerializable d.angle

/-- quantities/dimensions.hpp (`NoDimensions`). -/
def none : Dimensions := ⟨0, 0, 0, 0, 0, 0, 0, 0⟩

/-- quantities/dimensions_body.hpp:99-109 (`DimensionsExponentiationGenerator`). -/
def exponentiation (d : Dimensions) (n : Int) : Dimensions :=
  ⟨d.length * n, d.mass * n, d.time * n, d.current * n, d.temperature * n, d.amount * n, d.luminousIntensity * n, d.angle * n⟩

/-- quantities/dimensions_body.hpp:111-131 (`DimensionsNthRootGenerator`); the operators `%` and `/` truncate, and do not compile if `n` is null. -/
def nthRoot (d : Dimensions) (n : Int) : Option Dimensions :=
  if n = 0 then .none
  else if d.length.tmod n = 0 ∧ d.mass.tmod n = 0 ∧ d.time.tmod n = 0 ∧ d.current.tmod n = 0 ∧ d.temperature.tmod n = 0 ∧ d.amount.tmod n = 0 ∧
      d.luminousIntensity.tmod n = 0 ∧ d.angle.tmod n = 0 then
    some ⟨d.length.tdiv n, d.mass.tdiv n, d.time.tdiv n, d.current.tdiv n, d.temperature.tdiv n, d.amount.tdiv n, d.luminousIntensity.tdiv n,
      d.angle.tdiv n⟩
  else .none

/-- quantities/dimensions_body.hpp:133-144 (`DimensionsProductGenerator`). -/
def product (l r : Dimensions) : Dimensions :=
  ⟨l.length + r.length, l.mass + r.mass, l.time + r.time, l.current + r.current, l.temperature + r.temperature, l.amount + r.amount,
    l.luminousIntensity + r.luminousIntensity, l.angle + r.angle⟩

/-- quantities/dimensions_body.hpp:146-157 (`DimensionsQuotientGenerator`). -/
def quotient (l r : Dimensions) : Dimensions :=
  ⟨l.length - r.length, l.mass - r.mass, l.time - r.time, l.current - r.current, l.temperature - r.temperature, l.amount - r.amount,
    l.luminousIntensity - r.luminousIntensity, l.angle - r.angle⟩

end Dimensions

/-- quantities/quantities.hpp:55-112 (`Quantity`). -/
@[ext]
structure Quantity (K : Type) where
  dimensions : Dimensions
  magnitude : K

namespace Quantity

variable {K : Type} [Field K]

/-- quantities/quantities_body.hpp:57-61 (`operator+`). -/
def add (l r : Quantity K) : Option (Quantity K) :=
  if l.dimensions = r.dimensions then some ⟨l.dimensions, l.magnitude + r.magnitude⟩ else none

/-- quantities/quantities_body.hpp:63-67 (`operator-`). -/
def sub (l r : Quantity K) : Option (Quantity K) :=
  if l.dimensions = r.dimensions then some ⟨l.dimensions, l.magnitude - r.magnitude⟩ else none

/-- quantities/quantities_body.hpp:52-55 (`operator-`). -/
def neg (q : Quantity K) : Quantity K := ⟨q.dimensions, -q.magnitude⟩

/-- quantities/quantities_body.hpp:99-106 and 116-121 (`operator*`), quantities/generators_body.hpp:47-61 (`ProductGenerator`). -/
def mul (l r : Quantity K) : Quantity K := ⟨l.dimensions.product r.dimensions, l.magnitude * r.magnitude⟩

/-- quantities/quantities_body.hpp:108-114 and 123-128 (`operator/`), quantities/generators_body.hpp:63-78 (`QuotientGenerator`). -/
def div (l r : Quantity K) : Quantity K := ⟨l.dimensions.quotient r.dimensions, l.magnitude / r.magnitude⟩

/-- numerics/elementary_functions_body.hpp (`Pow`): the dimensions are those of `Exponentiation`. -/
def pow (q : Quantity K) (n : Int) : Quantity K := ⟨q.dimensions.exponentiation n, q.magnitude ^ n⟩

/-- quantities/quantities_body.hpp:69-77 (`WriteToMessage`). -/
def write (q : Quantity K) : Option (BitVec 64 × K) :=
  if q.dimensions.serializable then some (q.dimensions.representation, q.magnitude) else none

/-- quantities/quantities_body.hpp:79-86 (`ReadFromMessage`), for a type that compiles: `none` if the `CHECK` fails. -/
def read (d : Dimensions) (message : BitVec 64 × K) : Option (Quantity K) :=
  if d.representation = message.1 then some ⟨d, message.2⟩ else none

end Quantity

end Principia.Quantities
