import Mathlib.Analysis.Normed.Module.Basic
import Mathlib.Data.Real.Basic

/-!
A model of numerics/hermite2_body.hpp.

Simplifications: exact real arithmetic; the argument is a real number and the value is an element of a real vector space.  `none` is a division by zero, which in the code yields NaNs or infinities.
-/

set_option linter.unusedVariables false

namespace Principia.Numerics.Hermite2s

noncomputable section

/-- numerics/hermite2.hpp:20-44 (`Hermite2`). -/
structure Hermite2 (V : Type) where
  first : ℝ
  second : ℝ
  a0 : V
  a1 : V
  a2 : V

variable {V : Type} [AddCommGroup V] [Module ℝ V]

open Classical in
/-- numerics/hermite2_body.hpp:14-35 (the constructor). -/
def construct (arguments : ℝ × ℝ) (values : V × V) (derivativeFirst : V) : Option (Hermite2 V) :=
  let Δargument := arguments.2 - arguments.1
  if Δargument = 0 ∧ values.1 = values.2 then some ⟨arguments.1, arguments.2, values.1, derivativeFirst, 0⟩
  else if Δargument = 0 then none
  else
    let oneOverΔargument := 1 / Δargument
    let oneOverΔargument2 := oneOverΔargument * oneOverΔargument
    let Δvalue := values.2 - values.1
    some ⟨arguments.1, arguments.2, values.1, derivativeFirst, oneOverΔargument2 • Δvalue - oneOverΔargument • derivativeFirst⟩

/-- numerics/hermite2_body.hpp:37-41 (`Evaluate`). -/
def Hermite2.evaluate (p : Hermite2 V) (argument : ℝ) : V :=
  let Δargument := argument - p.first
  Δargument • (Δargument • p.a2 + p.a1) + p.a0

/-- numerics/hermite2_body.hpp:43-48 (`EvaluateDerivative`). -/
def Hermite2.evaluateDerivative (p : Hermite2 V) (argument : ℝ) : V :=
  let Δargument := argument - p.first
  Δargument • (2 : ℝ) • p.a2 + p.a1

open Classical in
/-- numerics/hermite2_body.hpp:50-53 (`FindExtremum`), for real values. -/
def Hermite2.findExtremum (p : Hermite2 ℝ) : Option ℝ :=
  if 2 * p.a2 = 0 then none else some (p.first - p.a1 / (2 * p.a2))

end

end Principia.Numerics.Hermite2s
