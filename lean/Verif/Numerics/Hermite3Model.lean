import Verif.Numerics.PolynomialModel
import Verif.Numerics.RootFindersModel
import Mathlib.Analysis.InnerProductSpace.LinearMap

/-!
# Model of the cubic Hermite interpolation

numerics/hermite3_body.hpp.  The arithmetic is exact.  Arguments are real numbers, values are the elements of a real inner product space `V`
(after the choice of an origin if they are points).  Failed `CHECK`s, and NaNs, are represented by `none`.
-/

namespace Principia.Hermite3

open Principia.Polynomial Principia.RootFinders

variable {V : Type} [NormedAddCommGroup V] [InnerProductSpace ℝ V]

/-- numerics/hermite3.hpp:98-100: the fields of `Hermite3`. -/
@[ext]
structure Hermite3 (V : Type) where
  lower : ℝ
  upper : ℝ
  p : Poly ℝ V

open Classical in
/-- numerics/hermite3_body.hpp:240-272 `MakePolynomial`.  `none` if NaNs are produced. -/
noncomputable def makePolynomial (arguments : ℝ × ℝ) (values derivatives : V × V) : Option (Poly ℝ V) :=
  let a0 := values.1
  let a1 := derivatives.1
  let Δargument := arguments.2 - arguments.1
  if Δargument ≠ 0 ∨ values.1 ≠ values.2 ∨ derivatives.1 ≠ derivatives.2 then
    if Δargument = 0 then none
    else
      let inv := 1 / Δargument
      let inv2 := inv * inv
      let inv3 := inv * inv2
      let Δvalue := values.2 - values.1
      let a2 := inv2 • (3 : ℝ) • Δvalue - inv • ((2 : ℝ) • derivatives.1 + derivatives.2)
      let a3 := inv3 • (-2 : ℝ) • Δvalue + inv2 • (derivatives.1 + derivatives.2)
      some { coeffs := [a0, a1, a2, a3], origin := arguments.1 }
  else some { coeffs := [a0, a1, 0, 0], origin := arguments.1 }

/-- numerics/hermite3_body.hpp:65-72: the public constructor. -/
noncomputable def make (arguments : ℝ × ℝ) (values derivatives : V × V) : Option (Hermite3 V) := do
  let p ← makePolynomial arguments values derivatives
  some { lower := arguments.1, upper := arguments.2, p := p }

open Classical in
/-- numerics/hermite3_body.hpp:229-238: the private constructor. -/
noncomputable def ofPolynomial (lower upper : ℝ) (p : Poly ℝ V) : Option (Hermite3 V) :=
  if p.origin = lower then some { lower := lower, upper := upper, p := p } else none

/-- numerics/hermite3_body.hpp:74-77 `operator()`.  The default evaluator is Estrin's. -/
def Hermite3.eval (h : Hermite3 V) (t : ℝ) : V := h.p.eval .estrin t

/-- numerics/hermite3_body.hpp:79-84 `EvaluateDerivative`. -/
def Hermite3.evalDerivative (h : Hermite3 V) (t : ℝ) : V := h.p.evalDerivative .estrin t

open Classical in
/-- numerics/hermite3_body.hpp:94-106 `FindExtrema`, for a polynomial with real values. -/
noncomputable def Hermite3.findExtrema (h : Hermite3 ℝ) : List ℝ :=
  let d := h.p.derivative 1
  (solveQuadratic h.p.origin (d.get 0) (d.get 1) (d.get 2)).filterMap fun root =>
    if Ext.le (.fin h.lower) root ∧ Ext.le root (.fin h.upper) then
      match root with
      | .fin x => some x
      | _ => none   -- Not reached.
    else none

open Classical in
/-- numerics/hermite3_body.hpp:154-194 `LInfinityL₂Norm`. -/
noncomputable def Hermite3.norm (h : Hermite3 V) : Option ℝ := do
  let q : Poly ℝ V := { coeffs := [h.p.get 2, h.p.get 3], origin := h.lower }
  let monomial : Poly ℝ ℝ := { coeffs := [0, 1 / 2], origin := h.lower }
  let r ← Poly.mul (LinearMap.lsmul ℝ V) monomial (q.derivative 1)
  let s ← q.add r
  let d ← Poly.mul (innerₗ V) q s
  let roots := solveQuadratic q.origin (d.get 0) (d.get 1) (d.get 2)
  let max := roots.foldl (fun m root =>
    if Ext.lt (.fin h.lower) root ∧ Ext.lt root (.fin h.upper) then
      match root with
      | .fin x => max m (inner ℝ (h.eval x) (h.eval x))
      | _ => m   -- Not reached.
    else m) (inner ℝ (h.eval h.upper) (h.eval h.upper))
  some (Real.sqrt max)

/-- numerics/hermite3_body.hpp:196-210 `LInfinityL₂Error`. -/
noncomputable def Hermite3.error {S : Type} (h : Hermite3 V) (samples : List S) (getArgument : S → ℝ) (getValue : S → V) : ℝ :=
  samples.foldl (fun result s => max result ‖h.eval (getArgument s) - getValue s‖) 0

open Classical in
/-- numerics/hermite3_body.hpp:212-227 `LInfinityL₂ErrorIsWithin`. -/
noncomputable def Hermite3.errorIsWithin {S : Type} (h : Hermite3 V) (samples : List S) (getArgument : S → ℝ) (getValue : S → V)
    (tolerance : ℝ) : Bool :=
  samples.all fun s => decide (‖h.eval (getArgument s) - getValue s‖ < tolerance)

/-- numerics/hermite3_body.hpp:108-152 `LInfinityL₁NormUpperBound`, where `split` gives the coordinates of a value, numerics/hermite3_body.hpp:
26-63. -/
noncomputable def Hermite3.l1NormUpperBound (h : Hermite3 V) (dimension : Nat) (split : V → Nat → ℝ) : Option ℝ :=
  (List.range dimension).foldlM (fun sum i => do
    let s ← ofPolynomial h.lower h.upper
      { coeffs := [split (h.p.get 0) i, split (h.p.get 1) i, split (h.p.get 2) i, split (h.p.get 3) i], origin := h.p.origin }
    some (sum + s.findExtrema.foldl (fun m x => max m |s.eval x|) 0)) 0

open Classical in
/-- numerics/hermite3_body.hpp:292-299: `operator-`. -/
noncomputable def Hermite3.sub (left right : Hermite3 V) : Option (Hermite3 V) :=
  if left.lower = right.lower then do
    let p ← left.p.sub right.p
    ofPolynomial right.lower (min left.upper right.upper) p
  else none

open Classical in
/-- numerics/hermite3_body.hpp:279-285: `operator+`. -/
noncomputable def Hermite3.add (left right : Hermite3 V) : Option (Hermite3 V) :=
  if left.lower = right.lower then do
    let p ← left.p.add right.p
    ofPolynomial right.lower (min left.upper right.upper) p
  else none

/-- numerics/hermite3_body.hpp:287-290: unary `operator-`. -/
noncomputable def Hermite3.neg (right : Hermite3 V) : Option (Hermite3 V) := ofPolynomial right.lower right.upper right.p.neg

end Principia.Hermite3
