import Mathlib.Data.Real.Basic
import Mathlib.Algebra.Module.Defs
import Mathlib.Algebra.BigOperators.Fin
import Mathlib.Data.Finset.Image
import Mathlib.LinearAlgebra.Matrix.Notation

/-!
A model of the polynomials in the Чебышёв basis of numerics/polynomial_in_чебышёв_basis_body.hpp.

Simplifications: exact real arithmetic.  `none` is a failed check (including the debug ones), an access out of the bounds of the array of coefficients or a division by zero.  The
computation of the eigenvalues by the real Schur decomposition (numerics/matrix_computations_body.hpp) is a parameter.  The serialization is not modelled.
-/

set_option linter.unusedSimpArgs false
set_option linter.unusedVariables false
set_option linter.unusedSectionVars false

namespace Principia.Numerics.Chebyshev

/-- numerics/polynomial_in_чебышёв_basis.hpp:107-178: `PolynomialInЧебышёвBasis`, of the given degree. -/
structure Poly (V : Type) (degree : ℕ) where
  coefficients : Fin (degree + 1) → V
  lowerBound : ℝ
  upperBound : ℝ
  width : ℝ
  oneOverWidth : ℝ

noncomputable section

section Vector

variable {V : Type} [AddCommGroup V] [Module ℝ V] {degree : ℕ}

/-- numerics/polynomial_in_чебышёв_basis_body.hpp:137-147 (the constructor). -/
def construct (coefficients : Fin (degree + 1) → V) (lowerBound upperBound : ℝ) : Option (Poly V degree) :=
  let width := upperBound - lowerBound
  if width = 0 then none else some ⟨coefficients, lowerBound, upperBound, width, 1 / width⟩

/-- The access to an element of the array of coefficients. -/
def Poly.coefficient (p : Poly V degree) (k : ℕ) : Option V := if h : k < degree + 1 then some (p.coefficients ⟨k, h⟩) else none

/-- numerics/polynomial_in_чебышёв_basis_body.hpp:155-161 and 186-191: the argument scaled to the interval from -1 to 1, with the checks. -/
def Poly.scaledArgument (p : Poly V degree) (argument : ℝ) : Option ℝ :=
  let scaledArgument := ((argument - p.upperBound) + (argument - p.lowerBound)) * p.oneOverWidth
  if scaledArgument ≤ 1.1 ∧ scaledArgument ≥ -1.1 then some scaledArgument else none

/-- numerics/polynomial_in_чебышёв_basis_body.hpp:172-176: the loop, from `k` down to 1.  The result is `(bₖ₊₁, bₖ₊₂)`. -/
def Poly.evaluateLoop (p : Poly V degree) (twoScaledArgument : ℝ) : ℕ → V → V → Option (V × V)
  | 0, b1, b2 => some (b1, b2)
  | k + 1, b1, b2 => do
    let c ← p.coefficient (k + 1)
    p.evaluateLoop twoScaledArgument k (c + twoScaledArgument • b1 - b2) b1

/-- numerics/polynomial_in_чебышёв_basis_body.hpp:149-179 (`operator()`). -/
def Poly.evaluate (p : Poly V degree) (argument : ℝ) : Option V := do
  let scaledArgument ← p.scaledArgument argument
  let twoScaledArgument := scaledArgument + scaledArgument
  let c0 ← p.coefficient 0
  match degree with
  | 0 => return c0
  | 1 =>
    let c1 ← p.coefficient 1
    return c0 + scaledArgument • c1
  | degree + 2 =>
    let b2 ← p.coefficient (degree + 2)
    let c ← p.coefficient (degree + 2 - 1)
    let b1 := c + twoScaledArgument • b2
    let (b1, b2) ← p.evaluateLoop twoScaledArgument (degree + 2 - 2) b1 b2
    return c0 + scaledArgument • b1 - b2

/-- numerics/polynomial_in_чебышёв_basis_body.hpp:195-200: the loop, from `k` down to 1. -/
def Poly.derivativeLoop (p : Poly V degree) (twoScaledArgument : ℝ) : ℕ → V → V → Option (V × V)
  | 0, b1, b2 => some (b1, b2)
  | k + 1, b1, b2 => do
    let c ← p.coefficient (k + 1 + 1)
    p.derivativeLoop twoScaledArgument k (((k + 1 + 1 : ℕ) : ℝ) • c + twoScaledArgument • b1 - b2) b1

/-- numerics/polynomial_in_чебышёв_basis_body.hpp:181-203 (`EvaluateDerivative`).  For a degree of 0 the loop is not executed. -/
def Poly.evaluateDerivative (p : Poly V degree) (argument : ℝ) : Option V := do
  let scaledArgument ← p.scaledArgument argument
  let twoScaledArgument := scaledArgument + scaledArgument
  let (b1, b2) ← p.derivativeLoop twoScaledArgument (degree - 1) 0 0
  let c1 ← p.coefficient 1
  return (p.oneOverWidth + p.oneOverWidth) • (c1 + twoScaledArgument • b1 - b2)

end Vector

section Scalar

variable {degree : ℕ}

/-- numerics/combinatorics_body.hpp:37-40 (`KroneckerDelta`). -/
def kroneckerDelta (i j : ℕ) : ℝ := if i = j then 1 else 0

/-- numerics/polynomial_in_чебышёв_basis_body.hpp:266-273: the element `k` of the last row (the indices start at 1). -/
def Poly.companionLast (p : Poly ℝ degree) (k : Fin degree) : ℝ :=
  let twoAN : ℝ := 2 * p.coefficients (Fin.last degree);
  -p.coefficients k.castSucc / twoAN + 0.5 * kroneckerDelta (k.val + 1) (degree - 1)

/-- numerics/polynomial_in_чебышёв_basis_body.hpp:244-276 (`FrobeniusCompanionMatrix`).  The value of an element is the last that is written to it: the last row is written after the first
one. -/
def Poly.frobeniusCompanionMatrix (p : Poly ℝ degree) : Option (Matrix (Fin degree) (Fin degree) ℝ) :=
  if p.coefficients (Fin.last degree) = 0 then none
  else some fun j k =>
    if j.val + 1 = degree then p.companionLast k
    else if j.val + 1 = 1 then kroneckerDelta 2 (k.val + 1)
    else 0.5 * (kroneckerDelta (j.val + 1) (k.val + 1 + 1) + kroneckerDelta (j.val + 1) (k.val + 1 - 1))

/-- numerics/polynomial_in_чебышёв_basis_body.hpp:339-365 (`MayHaveRealRootsOrDie`). -/
def Poly.mayHaveRealRoots (p : Poly ℝ degree) (errorEstimate : ℝ) : Option Bool :=
  if ¬0 ≤ errorEstimate then none
  else
    let B0 := ((List.range degree).map fun j => if h : j + 1 < degree + 1 then |p.coefficients ⟨j + 1, h⟩| else 0).sum
    let absA0 := |p.coefficients 0|
    some (decide (B0 ≥ absA0 - errorEstimate))

/-- numerics/polynomial_in_чебышёв_basis_body.hpp:367-394 (`RealRootsOrDie`).  The eigenvalues are those given by the function `realEigenvalues`. -/
def Poly.realRoots (realEigenvalues : Matrix (Fin degree) (Fin degree) ℝ → Finset ℝ) (p : Poly ℝ degree) : Option (Finset ℝ) := do
  let companionMatrix ← p.frobeniusCompanionMatrix
  let scaledRealRoots := realEigenvalues companionMatrix
  let midpoint := (p.lowerBound + p.upperBound) / 2
  let halfWidth := 0.5 * (p.upperBound - p.lowerBound)
  return (scaledRealRoots.filter fun r => -1 ≤ r ∧ r ≤ 1).image fun r => r * halfWidth + midpoint

end Scalar

end

end Principia.Numerics.Chebyshev
