import Mathlib.Data.Real.Sqrt
import Mathlib.Order.Interval.Finset.Defs
import Mathlib.Data.Finset.Card

/-!
# Model of the root finders

numerics/root_finders_body.hpp: `Bisect` and `SolveQuadraticEquation`.
-/

namespace Principia.RootFinders

/-- The numbers computed by `SolveQuadraticEquation`: exact arithmetic on the real numbers, extended with the infinities and NaNs which result
from the divisions by zero. -/
inductive Ext
  | fin (x : ℝ)
  | posInf
  | negInf
  | nan

/-- `<` on floating-point numbers. -/
def Ext.lt : Ext → Ext → Prop
  | .nan, _ => False
  | _, .nan => False
  | .negInf, .negInf => False
  | .negInf, _ => True
  | .fin _, .negInf => False
  | .fin x, .fin y => x < y
  | .fin _, .posInf => True
  | .posInf, _ => False

/-- `<=` on floating-point numbers. -/
def Ext.le : Ext → Ext → Prop
  | .nan, _ => False
  | _, .nan => False
  | .negInf, _ => True
  | .fin _, .negInf => False
  | .fin x, .fin y => x ≤ y
  | .fin _, .posInf => True
  | .posInf, .posInf => True
  | .posInf, _ => False

/-- Division of finite numbers.  Zeros are taken to be positive: the sign of the infinities is immaterial in what follows. -/
noncomputable def Ext.div (x y : ℝ) : Ext :=
  if y = 0 then (if x = 0 then .nan else if 0 < x then .posInf else .negInf) else .fin (x / y)

/-- Addition of a finite number. -/
noncomputable def Ext.add (x : ℝ) : Ext → Ext
  | .fin y => .fin (x + y)
  | e => e

/-- Subtraction from a finite number. -/
noncomputable def Ext.sub (x : ℝ) : Ext → Ext
  | .fin y => .fin (x - y)
  | .posInf => .negInf
  | .negInf => .posInf
  | .nan => .nan

open Classical in
/-- numerics/root_finders_body.hpp:458-502 `SolveQuadraticEquation`. -/
noncomputable def solveQuadratic (origin a0 a1 a2 : ℝ) : List Ext :=
  let discriminant := a1 * a1 - 4 * a0 * a2
  if discriminant = 0 then [Ext.sub origin (Ext.div (1 / 2 * a1) a2)]
  else if discriminant < 0 then []
  else
    let numerator := if 0 < a1 then -a1 - Real.sqrt discriminant else -a1 + Real.sqrt discriminant
    let x1 := Ext.add origin (Ext.div numerator (2 * a2))
    let x2 := Ext.add origin (Ext.div (2 * a0) numerator)
    if Ext.lt x1 x2 then [x1, x2] else [x2, x1]

/-- geometry/sign_body.hpp: the `Sign` of a number.  The sign of zero is never used. -/
noncomputable def negative (x : ℝ) : Bool := decide (x < 0)

/-- A type of arguments which may be bisected: a linearly ordered type with finite intervals (the floating-point numbers), with the function
`mid` for the barycentre (geometry/barycentre_calculator_body.hpp) of two arguments. -/
structure Midpoint (A : Type) [LinearOrder A] where
  mid : A → A → A

/-- numerics/root_finders_body.hpp:46-62: the loop, with `fuel` iterations; `none` means that the fuel is exhausted. -/
noncomputable def bisectLoop {A : Type} [LinearOrder A] (m : Midpoint A) (f : A → ℝ) (fUpper : ℝ) : Nat → A → A → Option A
  | 0, _, _ => none
  | fuel + 1, lower, upper =>
    let middle := m.mid lower upper
    if middle = lower ∨ middle = upper then some middle
    else if f middle = 0 then some middle
    else if negative (f middle) = negative fUpper then bisectLoop m f fUpper fuel lower middle
    else bisectLoop m f fUpper fuel middle upper

/-- The outcomes of `Bisect`. -/
inductive Outcome (A : Type)
  | returned (a : A)
  | crashed      -- A `CHECK` failed.
  | outOfFuel

/-- numerics/root_finders_body.hpp:29-63 `Bisect`. -/
noncomputable def bisect {A : Type} [LinearOrder A] (m : Midpoint A) (f : A → ℝ) (fuel : Nat) (lowerBound upperBound : A) : Outcome A :=
  let fUpper := f upperBound
  let fLower := f lowerBound
  if fUpper = 0 then .returned upperBound
  else if fLower = 0 then .returned lowerBound
  else if negative fLower = negative fUpper then .crashed
  else match bisectLoop m f fUpper fuel lowerBound upperBound with
    | some a => .returned a
    | none => .outOfFuel

end Principia.RootFinders
