import Mathlib.MeasureTheory.Integral.IntervalIntegral.Basic
import Mathlib.Analysis.SpecialFunctions.Trigonometric.Basic

/-!
Specification of the Clenshaw-Curtis quadrature, independent of the model.
-/

namespace Principia.Numerics.Quadrature

noncomputable section

variable {V : Type} [NormedAddCommGroup V] [NormedSpace ℝ V]

/-- The Чебышёв-Lobatto node of index `s`, for `N + 1` nodes: the image of `cos (π s / N)` by the affine map that takes [-1, 1] to [lower, upper]. -/
def node (lower upper : ℝ) (N s : ℕ) : ℝ := (lower + upper) / 2 + (upper - lower) / 2 * Real.cos (Real.pi * s / N)

/-- The value at `x` of the polynomial with coefficients `c`, of degree at most `N`. -/
def polynomial (c : ℕ → V) (N : ℕ) (x : ℝ) : V := ∑ k ∈ Finset.range (N + 1), x ^ k • c k

/-- The criterion for accepting an estimate obtained with `points` points, as documented in numerics/quadrature.hpp:25-29, except for the comparison with the maximum number of points, where
the number of points is that of the estimate. -/
def Acceptable (maxRelativeError : Option ℝ) (maxPoints : Option ℤ) (previous estimate : V) (points : ℕ) : Prop :=
  (∃ e, maxRelativeError = some e ∧ ‖previous - estimate‖ ≤ e * ‖estimate‖) ∨ ∃ m, maxPoints = some m ∧ m ≤ points

end

end Principia.Numerics.Quadrature
