import Mathlib.Analysis.SpecialFunctions.Trigonometric.Basic
import Mathlib.Algebra.Order.Round

/-!
A model of numerics/angle_reduction_body.hpp (`ReduceAngle`) and of the use of the quadrant by numerics/sin_cos.cpp (`Sin`, `Cos`, `SinCos`).

Simplifications: exact real arithmetic.  The number of quadrants chosen by the reduction is a parameter, because the code does not promise to choose the nearest one: see the comment at numerics/sin_cos.cpp:357-360.
`SinImplementation` and `CosImplementation` are the sine and the cosine.
-/

set_option linter.unusedVariables false

namespace Principia.Numerics.AngleReduction

open Real

noncomputable section

/-- numerics/sin_cos.cpp:417-435 and 617-627 (`Reduce`): the reduced angle and the quadrant, where `n` is the integer computed at 316, 362-377 or 389-402, or at numerics/angle_reduction_body.hpp:131-134.  An angle smaller than π / 4 is
not changed. -/
def reduce (n : ℤ) (x : ℝ) : ℝ × ℤ := if |x| < π / 4 then (x, 0) else (x - n * (π / 2), n % 4)

/-- numerics/angle_reduction_body.hpp:138-151 (`ReduceAngle<-π / 2, π / 2>`). -/
def reduceHalf (n : ℤ) (θ : ℝ) : ℝ :=
  let r := reduce n θ
  if r.2 = 1 ∨ r.2 = 3 then
    if r.1 < 0 then r.1 + π / 2 else r.1 - π / 2
  else r.1

/-- numerics/angle_reduction_body.hpp:153-170 (`ReduceAngle<-π, π>`). -/
def reduceSymmetric (n : ℤ) (θ : ℝ) : ℝ :=
  let r := reduce n θ
  if r.2 = 1 then r.1 + π / 2
  else if r.2 = 3 then r.1 - π / 2
  else if r.2 = 2 then
    if r.1 < 0 then r.1 + π else r.1 - π
  else r.1

/-- numerics/angle_reduction_body.hpp:172-190 (`ReduceAngle<0.0, 2 * π>`). -/
def reducePositive (n : ℤ) (θ : ℝ) : ℝ :=
  let r := reduce n θ
  if r.2 = 1 then r.1 + π / 2
  else if r.2 = 3 then r.1 + 3 * π / 2
  else if r.2 = 2 then r.1 + π
  else if r.1 < 0 then r.1 + 2 * π
  else r.1

/-- numerics/angle_reduction_body.hpp:194-200: the fractional and the integer parts. -/
def reduceHalfParts (n : ℤ) (θ : ℝ) : ℝ × ℤ := (reduceHalf n θ, round ((θ - reduceHalf n θ) / π))

/-- numerics/angle_reduction_body.hpp:204-210. -/
def reduceSymmetricParts (n : ℤ) (θ : ℝ) : ℝ × ℤ := (reduceSymmetric n θ, round ((θ - reduceSymmetric n θ) / (2 * π)))

/-- numerics/angle_reduction_body.hpp:214-220. -/
def reducePositiveParts (n : ℤ) (θ : ℝ) : ℝ × ℤ := (reducePositive n θ, round ((θ - reducePositive n θ) / (2 * π)))

/-- numerics/sin_cos.cpp:629-652 (`Sin`).  The bit of weight 2 of the quadrant is set for 2 and 3. -/
def sinFromQuadrant (n : ℤ) (x : ℝ) : ℝ :=
  let r := reduce n x
  let value := if r.2 % 2 = 1 then cos r.1 else sin r.1
  if r.2 = 2 ∨ r.2 = 3 then -value else value

/-- numerics/sin_cos.cpp:654-677 (`Cos`).  Depending on the reduction the sign of `x` is lost: `y` is either `x` or its absolute value. -/
def cosFromQuadrant (n : ℤ) (y : ℝ) : ℝ :=
  let r := reduce n y
  let value := if r.2 % 2 = 1 then sin r.1 else cos r.1
  if r.2 = 1 ∨ r.2 = 2 then -value else value

/-- numerics/sin_cos.cpp:679-711 (`SinCos`). -/
def sinCosFromQuadrant (n : ℤ) (x : ℝ) : ℝ × ℝ :=
  let r := reduce n x
  let values := if r.2 % 2 = 1 then (cos r.1, sin r.1) else (sin r.1, cos r.1)
  let values := if r.2 = 2 ∨ r.2 = 3 then (-values.1, values.2) else values
  if r.2 = 1 ∨ r.2 = 2 then (values.1, -values.2) else values

end

end Principia.Numerics.AngleReduction
