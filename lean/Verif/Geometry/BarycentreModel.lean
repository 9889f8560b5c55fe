import Mathlib.Algebra.Field.Basic
import Mathlib.Algebra.Module.Basic
import Mathlib.Algebra.AddTorsor.Basic

/-!
A model of geometry/barycentre_calculator_body.hpp.

Simplifications: exact arithmetic; the weights are elements of a field `K`, the displacements of a vector space `V` over `K`, the points of an
affine space `P`.
-/

set_option linter.unusedVariables false

namespace Principia.Geometry.Barycentre

/-- The ways in which `Get` may fail: line 40 (`CHECK(!empty_)`), or a division by zero. -/
inductive Failure where
  | empty
  | division
  deriving DecidableEq

/-- geometry/barycentre_calculator.hpp:36-38 (`BarycentreCalculator`).  The fields other than `empty` are not read while `empty` is true. -/
structure Calculator (K V : Type) where
  empty : Bool
  weightedSum : V
  weight : K

namespace Calculator

variable {K V P : Type} [Field K] [DecidableEq K] [AddCommGroup V] [Module K V] [AddTorsor V P]

/-- geometry/barycentre_calculator.hpp:36 (the default constructor). -/
def init : Calculator K V := ⟨true, 0, 0⟩

/-- geometry/barycentre_calculator_body.hpp:27-34, the end of `Add`. -/
def accumulate (c : Calculator K V) (weightedSumDiff : V) (weight : K) : Calculator K V :=
  if c.empty then ⟨false, weightedSumDiff, weight⟩ else ⟨c.empty, c.weightedSum + weightedSumDiff, c.weight + weight⟩

/-- geometry/barycentre_calculator_body.hpp:16-35 (`Add`), when `Point` is an additive group. -/
def addVector (c : Calculator K V) (point : V) (weight : K) : Calculator K V := c.accumulate (weight • point) weight

/-- geometry/barycentre_calculator_body.hpp:16-35 (`Add`), when `Point` is not an additive group. -/
def addPoint (reference : P) (c : Calculator K V) (point : P) (weight : K) : Calculator K V :=
  c.accumulate (weight • (point -ᵥ reference)) weight

/-- geometry/barycentre_calculator_body.hpp:37-46 (`Get`), when `Point` is an additive group. -/
def getVector (c : Calculator K V) : Except Failure V :=
  if c.empty then .error .empty else if c.weight = 0 then .error .division else .ok (c.weight⁻¹ • c.weightedSum)

/-- geometry/barycentre_calculator_body.hpp:37-46 (`Get`), when `Point` is not an additive group. -/
def getPoint (reference : P) (c : Calculator K V) : Except Failure P :=
  if c.empty then .error .empty else if c.weight = 0 then .error .division else .ok ((c.weight⁻¹ • c.weightedSum) +ᵥ reference)

end Calculator

section

variable {K V P : Type} [Field K] [DecidableEq K] [AddCommGroup V] [Module K V] [AddTorsor V P]

/-- geometry/barycentre_calculator_body.hpp:59-68 (`Barycentre`), when `Point` is an additive group. -/
def barycentreVectors (l : List (V × K)) : Except Failure V :=
  (l.foldl (fun c x => c.addVector x.1 x.2) (Calculator.init : Calculator K V)).getVector

/-- geometry/barycentre_calculator_body.hpp:59-68 (`Barycentre`), when `Point` is not an additive group. -/
def barycentrePoints (reference : P) (l : List (P × K)) : Except Failure P :=
  (l.foldl (fun c x => c.addPoint reference x.1 x.2) (Calculator.init : Calculator K V)).getPoint reference

/-- geometry/barycentre_calculator_body.hpp:75-92 (`Barycentre` without weights), when `Point` is an additive group. -/
def meanVectors (K : Type) [Field K] [Module K V] (l : List V) : V := (l.length : K)⁻¹ • l.foldl (fun total p => total + p) 0

/-- geometry/barycentre_calculator_body.hpp:75-92 (`Barycentre` without weights), when `Point` is not an additive group. -/
def meanPoints (K : Type) [Field K] [Module K V] (origin : P) (l : List P) : P :=
  ((l.length : K)⁻¹ • l.foldl (fun total p => total + (p -ᵥ origin)) (0 : V)) +ᵥ origin

end

end Principia.Geometry.Barycentre
