import Verif.Base.BitsProps
import Mathlib.Algebra.Module.LinearMap.Basic
import Mathlib.Algebra.Module.LinearMap.Defs
import Mathlib.Algebra.Field.Defs
import Mathlib.Algebra.Algebra.Bilinear

/-!
# Model of the polynomials in the monomial basis

numerics/polynomial_in_monomial_basis_body.hpp, numerics/polynomial_evaluators_body.hpp, numerics/combinatorics_body.hpp, and `Pow` from
numerics/elementary_functions_body.hpp.

The arithmetic is exact: the arguments are the elements of a commutative ring `K` (after the choice of a unit of time and of an epoch), the
values are the elements of a `K`-module `V` (after the choice of an origin if they are points).  The coefficients, which are a `DirectSum` of
`degree + 1` elements, are a list.  In exact arithmetic the evaluators with and without FMA are the same function.  Index errors, which are
compilation errors in C++, are not represented.
-/

namespace Principia.Polynomial

open Principia.Bits

variable {K V L R P : Type} [CommRing K] [AddCommGroup V] [Module K V] [AddCommGroup L] [Module K L] [AddCommGroup R] [Module K R]
  [AddCommGroup P] [Module K P]

/-- numerics/elementary_functions_body.hpp:171-192 `Pow`, for a nonnegative exponent. -/
def pow (x : K) (exponent : Nat) : K :=
  if exponent = 0 then 1
  else if exponent = 1 then x
  else
    let y := pow x (exponent / 2)
    let y2 := y * y
    if exponent % 2 = 1 then y2 * x else y2
termination_by exponent
decreasing_by omega

/-- numerics/combinatorics_body.hpp:28-35 `FallingFactorial`; the results are assumed to be representable. -/
def fallingFactorial (n k : Int) : Int :=
  (List.range k.toNat).foldl (fun (result : Int) (i : Nat) => result * (n - (i : Int))) 1

/-- numerics/combinatorics_body.hpp:24-26 `Factorial`. -/
def factorial (n : Int) : Int := fallingFactorial n n

/-- numerics/combinatorics_body.hpp:12-14 `Binomial`. -/
def binomial (n k : Int) : Int := (fallingFactorial n k).tdiv (factorial k)

/-- numerics/polynomial_evaluators_body.hpp:72-102, 131-160 `InternalEstrinEvaluator::Evaluate`.  `a` is `get<·>(coefficients)` and `n` is
`subdegree + 1`, the number of coefficients of the subpolynomial. -/
def estrin (a : Nat → V) (x : K) (low n : Nat) : V :=
  match h : n with
  | 0 => 0
  | 1 => a low
  | 2 => x • a (low + 1) + a low
  | k + 3 =>
    let m := powerOf2Le (k + 2)
    let a' := estrin a x (low + m) (k + 2 + 1 - m)
    let b := estrin a x low m
    pow x m • a' + b
termination_by n
decreasing_by
  · have := C05_powerOf2Le (k + 2) (by omega)
    have h1 : 1 ≤ powerOf2Le (k + 2) := this.2.2 0 (by simp)
    omega
  · have := C05_powerOf2Le (k + 2) (by omega)
    omega

/-- numerics/polynomial_evaluators_body.hpp:104-129, 162-191 `InternalEstrinEvaluator::EvaluateDerivative`. -/
def estrinDerivative (a : Nat → V) (x : K) (low n : Nat) : V :=
  match h : n with
  | 0 => 0
  | 1 => (low : K) • a low
  | 2 => x • ((low + 1 : Nat) : K) • a (low + 1) + (low : K) • a low
  | k + 3 =>
    let m := powerOf2Le (k + 2)
    let a' := estrinDerivative a x (low + m) (k + 2 + 1 - m)
    let b := estrinDerivative a x low m
    pow x m • a' + b
termination_by n
decreasing_by
  · have := C05_powerOf2Le (k + 2) (by omega)
    have h1 : 1 ≤ powerOf2Le (k + 2) := this.2.2 0 (by simp)
    omega
  · have := C05_powerOf2Le (k + 2) (by omega)
    omega

/-- numerics/polynomial_evaluators_body.hpp:220-239, 262-268 `InternalHornerEvaluator::Evaluate`. -/
def horner (a : Nat → V) (degree : Nat) (x : K) (low : Nat) : V :=
  if low = degree then a degree
  else if low > degree then 0
  else x • horner a degree x (low + 1) + a low
termination_by degree - low

/-- numerics/polynomial_evaluators_body.hpp:241-260, 270-276 `InternalHornerEvaluator::EvaluateDerivative`. -/
def hornerDerivative (a : Nat → V) (degree : Nat) (x : K) (low : Nat) : V :=
  if low = degree then (degree : K) • a degree
  else if low > degree then 0
  else x • hornerDerivative a degree x (low + 1) + (low : K) • a low
termination_by degree - low

/-- The template parameter `Evaluator`: see numerics/polynomial_evaluators.hpp. -/
inductive Evaluator
  | estrin
  | horner

/-- numerics/polynomial_in_monomial_basis.hpp `PolynomialInMonomialBasis`: `degree + 1` coefficients and an origin. -/
@[ext]
structure Poly (K V : Type) where
  coeffs : List V
  origin : K

namespace Poly

/-- `degree()`. -/
def degree (p : Poly K V) : Nat := p.coeffs.length - 1

/-- `get<i>(coefficients_)`. -/
def get (p : Poly K V) (i : Nat) : V := p.coeffs.getD i 0

/-- numerics/polynomial_in_monomial_basis_body.hpp:276-282 `operator()`; the evaluators are called at
numerics/polynomial_evaluators_body.hpp:278-302 and 396-417. -/
def eval (ev : Evaluator) (p : Poly K V) (t : K) : V :=
  match ev with
  | .estrin => estrin p.get (t - p.origin) 0 (p.degree + 1)
  | .horner => horner p.get p.degree (t - p.origin) 0

/-- numerics/polynomial_in_monomial_basis_body.hpp:284-291 `EvaluateDerivative`; the evaluators are called at
numerics/polynomial_evaluators_body.hpp:304-330 and 419-442. -/
def evalDerivative (ev : Evaluator) (p : Poly K V) (t : K) : V :=
  match ev with
  | .estrin => estrinDerivative p.get (t - p.origin) 1 p.degree
  | .horner => hornerDerivative p.get p.degree (t - p.origin) 1

/-- numerics/polynomial_in_monomial_basis_body.hpp:293-302 `EvaluateWithDerivative`; the evaluators are called at
numerics/polynomial_evaluators_body.hpp:332-376 and 444-481. -/
def evalWithDerivative (ev : Evaluator) (p : Poly K V) (t : K) : V × V :=
  match ev with
  | .estrin => (estrin p.get (t - p.origin) 0 (p.degree + 1), estrinDerivative p.get (t - p.origin) 1 p.degree)
  | .horner => (horner p.get p.degree (t - p.origin) 0, hornerDerivative p.get p.degree (t - p.origin) 1)

/-- numerics/polynomial_in_monomial_basis_body.hpp:207-226: the conversion to a higher degree, which is `static_assert`ed to be higher. -/
def raiseDegree (p : Poly K V) (higher : Nat) : Poly K V :=
  { coeffs := (List.range (higher + 1)).map fun i => if i ≤ p.degree then p.get i else 0, origin := p.origin }

/-- numerics/polynomial_in_monomial_basis_body.hpp:508-516: unary `operator-`. -/
def neg (p : Poly K V) : Poly K V := { coeffs := p.coeffs.map (- ·), origin := p.origin }

/-- numerics/polynomial_in_monomial_basis_body.hpp:518-608: `operator+`. -/
def add [DecidableEq K] (p q : Poly K V) : Option (Poly K V) :=
  if p.origin = q.origin then
    some { coeffs := (List.range (max p.degree q.degree + 1)).map fun i =>
             if i ≤ min p.degree q.degree then p.get i + q.get i else if i ≤ p.degree then p.get i else q.get i,
           origin := p.origin }
  else none

/-- numerics/polynomial_in_monomial_basis_body.hpp:610-640: `operator-`. -/
def sub [DecidableEq K] (p q : Poly K V) : Option (Poly K V) :=
  if p.origin = q.origin then
    some { coeffs := (List.range (max p.degree q.degree + 1)).map fun i =>
             if i ≤ min p.degree q.degree then p.get i - q.get i else if i ≤ p.degree then p.get i else - q.get i,
           origin := p.origin }
  else none

/-- numerics/polynomial_in_monomial_basis_body.hpp:642-666: multiplication by a scalar, on either side. -/
def smul (k : K) (p : Poly K V) : Poly K V := { coeffs := p.coeffs.map (k • ·), origin := p.origin }

/-- numerics/polynomial_in_monomial_basis_body.hpp:642-653 where the polynomial has numbers as its coefficients and the left operand is a
vector. -/
def vmul (v : V) (p : Poly K K) : Poly K V := { coeffs := p.coeffs.map (· • v), origin := p.origin }

/-- `get<k>(coefficients) += v`. -/
def addAt (c : List V) (k : Nat) (v : V) : List V := c.modify k (· + v)

/-- numerics/polynomial_in_monomial_basis_body.hpp:681-705 (`operator*`) and 843-869 (`PointwiseInnerProduct`): the product of coefficients is
an arbitrary bilinear map. -/
def mul [DecidableEq K] (B : L →ₗ[K] R →ₗ[K] P) (p : Poly K L) (q : Poly K R) : Option (Poly K P) :=
  if p.origin = q.origin then
    some { coeffs := (List.range (p.degree + 1)).foldl (fun c i =>
             (List.range (q.degree + 1)).foldl (fun c j => addAt c (i + j) (B (p.get i) (q.get j))) c)
             (List.replicate (p.degree + q.degree + 1) 0),
           origin := p.origin }
  else none

/-- numerics/polynomial_in_monomial_basis_body.hpp:707-758: addition of a constant, on either side. -/
def addConstant (p : Poly K V) (v : V) : Poly K V :=
  { coeffs := (List.range (p.degree + 1)).map fun i => if i = 0 then p.get i + v else p.get i, origin := p.origin }

/-- numerics/polynomial_in_monomial_basis_body.hpp:760-782: subtraction of a constant. -/
def subConstant (p : Poly K V) (v : V) : Poly K V :=
  { coeffs := (List.range (p.degree + 1)).map fun i => if i = 0 then p.get i - v else p.get i, origin := p.origin }

/-- numerics/polynomial_in_monomial_basis_body.hpp:784-806: subtraction from a constant. -/
def constantSub (v : V) (p : Poly K V) : Poly K V :=
  { coeffs := (List.range (p.degree + 1)).map fun i => if i = 0 then v - p.get i else - p.get i, origin := p.origin }

/-- numerics/polynomial_in_monomial_basis_body.hpp:121-132: the `Pow` of a polynomial, for a positive exponent. -/
def ppow [DecidableEq K] (p : Poly K K) (exponent : Nat) : Option (Poly K K) :=
  if exponent = 0 then none   -- A compilation error.
  else if exponent = 1 then some p
  else if exponent % 2 = 0 then do
    let p2 ← mul (LinearMap.mul K K) p p
    ppow p2 (exponent / 2)
  else do
    let p2 ← mul (LinearMap.mul K K) p p
    let r ← ppow p2 (exponent / 2)
    mul (LinearMap.mul K K) r p
termination_by exponent
decreasing_by all_goals omega

/-- One iteration of numerics/polynomial_in_monomial_basis_body.hpp:821-836. -/
def composeStep [DecidableEq K] (p : Poly K V) (q : Poly K K) (c : List V) (i : Nat) : Option (List V) :=
  if i = 0 then some (c.set 0 (p.get 0))
  else do
    let r ← ppow (q.subConstant p.origin) i
    let m := vmul (p.get i) r
    some ((List.range (m.degree + 1)).foldl (fun c j => addAt c j (m.get j)) c)

/-- numerics/polynomial_in_monomial_basis_body.hpp:808-841 `Compose`. -/
def compose [DecidableEq K] (p : Poly K V) (q : Poly K K) : Option (Poly K V) := do
  let c ← (List.range (p.degree + 1)).foldlM (composeStep p q) (List.replicate (p.degree * q.degree + 1) 0)
  some { coeffs := c, origin := q.origin }

/-- numerics/polynomial_in_monomial_basis_body.hpp:65-73 `MonomialAtOrigin::MakeCoefficients`. -/
def monomialAtOrigin (degree n : Nat) (c : V) (shift : K) : List V :=
  (List.range (degree + 1)).map fun k => if k ≤ n then pow shift (n - k) • (binomial n k : K) • c else 0

/-- numerics/polynomial_in_monomial_basis_body.hpp:100-119, 336-345 `AtOrigin`. -/
def atOrigin (p : Poly K V) (origin : K) : Poly K V :=
  let shift := origin - p.origin
  let all := (List.range (p.degree + 1)).map fun n => monomialAtOrigin p.degree n (p.get n) shift
  { coeffs := all.foldl (fun sum c => List.zipWith (· + ·) sum c) (List.replicate (p.degree + 1) 0), origin := origin }

/-- numerics/polynomial_in_monomial_basis_body.hpp:347-364 `Derivative<order>`, for `order` at most the degree. -/
def derivative (p : Poly K V) (order : Nat) : Poly K V :=
  { coeffs := (List.range (p.degree - order + 1)).map fun n =>
      ((fallingFactorial ((n + order : Nat) : Int) order : Int) : K) • p.get (n + order),
    origin := p.origin }

/-- numerics/polynomial_in_monomial_basis_body.hpp:366-387 `Primitive`. -/
def primitive {F : Type} [Field F] [Module F V] (p : Poly F V) : Poly F V :=
  { coeffs := (List.range (p.degree + 1 + 1)).map fun n : Nat => if n = 0 then 0 else (n : F)⁻¹ • p.get (n - 1), origin := p.origin }

end Poly

end Principia.Polynomial
