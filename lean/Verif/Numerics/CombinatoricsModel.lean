import Mathlib.Data.Rat.Defs
import Mathlib.Algebra.Order.Ring.Int

/-!
A model of numerics/combinatorics_body.hpp and numerics/legendre_body.hpp.

The integers are 64-bit and signed.  `none` is an overflow, which is undefined behaviour, or an error at compilation if the expression is constant.  The coefficients of the Legendre polynomials are computed exactly: the conversion
to `double` and the rounding of the quotient are not modelled.
-/

set_option linter.unusedVariables false

namespace Principia.Numerics.Combinatorics

/-- The result of an operation on `std::int64_t`. -/
def checked (x : ℤ) : Option ℤ := if -2 ^ 63 ≤ x ∧ x < 2 ^ 63 then some x else none

/-- numerics/combinatorics_body.hpp:28-35 (`FallingFactorial`): the loop, for `count` iterations from `i` on. -/
def fallingLoop (n : ℤ) : ℕ → ℤ → ℤ → Option ℤ
  | 0, i, result => some result
  | count + 1, i, result => do
    let factor ← checked (n - i)
    let result ← checked (result * factor)
    fallingLoop n count (i + 1) result

/-- numerics/combinatorics_body.hpp:28-35 (`FallingFactorial`). -/
def fallingFactorial (n k : ℤ) : Option ℤ := fallingLoop n k.toNat 0 1

/-- numerics/combinatorics_body.hpp:24-26 (`Factorial`). -/
def factorial (n : ℤ) : Option ℤ := fallingFactorial n n

/-- numerics/combinatorics_body.hpp:12-14 (`Binomial`). -/
def binomial (n k : ℤ) : Option ℤ := do
  let numerator ← fallingFactorial n k
  let denominator ← factorial k
  if denominator = 0 then none else checked (numerator.tdiv denominator)

/-- numerics/combinatorics_body.hpp:16-22 (`DoubleFactorial`): the loop.  The subtraction cannot overflow. -/
def doubleLoop : ℕ → ℤ → Option ℤ
  | 0, result => some result
  | 1, result => checked (result * 1)
  | i + 2, result => do
    let result ← checked (result * ((i : ℤ) + 2))
    doubleLoop i result

/-- numerics/combinatorics_body.hpp:16-22 (`DoubleFactorial`). -/
def doubleFactorial (n : ℤ) : Option ℤ := doubleLoop n.toNat 1

/-- numerics/combinatorics_body.hpp:37-40 (`KroneckerDelta`). -/
def kroneckerDelta (i j : ℤ) : ℤ := if i = j then 1 else 0

/-- numerics/legendre_body.hpp:29-35: a coefficient of the Legendre polynomial, for an index no larger than the degree.  `degree + indices - 1` is computed on unsigned integers and wraps to -1 if it is negative. -/
def legendreCoefficient (degree index : ℕ) : Option ℚ :=
  if (degree - index) % 2 = 0 then do
    let sign : ℤ := if (degree - index) % 4 = 0 then 1 else -1
    let double ← doubleFactorial ((degree : ℤ) + index - 1)
    let numerator ← checked (sign * double)
    let f ← factorial index
    let d ← doubleFactorial ((degree - index : ℕ) : ℤ)
    let denominator ← checked (f * d)
    some ((numerator : ℚ) / denominator)
  else some 0

end Principia.Numerics.Combinatorics
