import Verif.Physics.ApsidesModel
import Mathlib.Analysis.Calculus.Deriv.Basic

/-!
# Vocabulary for the properties of the apsides and of the nodes
-/

namespace Principia.Apsides

/-- The pairs of consecutive elements of a list. -/
def consecutive {P : Type} : List P → List (P × P)
  | p :: q :: l => (p, q) :: consecutive (q :: l)
  | _ => []

/-- A change of sign from `x` to `y`, where zero counts as positive. -/
def ChangesSign (x y : ℝ) : Prop := x < 0 ∧ 0 ≤ y ∨ 0 ≤ x ∧ y < 0

open Classical in
/-- The pairs of consecutive points between which the sign of a quantity changes. -/
noncomputable def signChanges {P : Type} (value : P → ℝ) (l : List P) : List (P × P) := (consecutive l).filter fun pq => decide (ChangesSign (value pq.1) (value pq.2))

open Classical in
/-- The points whose time is in an interval. -/
noncomputable def pointsBetween {E : Type} (tMin tMax : ℝ) (l : List (Point E)) : List (Point E) := l.filter fun p => decide (tMin ≤ p.time ∧ p.time ≤ tMax)

/-- The times of the points are increasing. -/
def Increasing {E : Type} (l : List (Point E)) : Prop := l.Pairwise fun p q => p.time < q.time

variable {E : Type} [NormedAddCommGroup E] [InnerProductSpace ℝ E]

/-- The derivative, at a point of the trajectory, of the squared distance to the reference. -/
noncomputable def rate (reference : Trajectory E) (p : Point E) : ℝ := 2 * inner ℝ (p.dof.1 - (reference.eval p.time).1) (p.dof.2 - (reference.eval p.time).2)

/-- A cubic polynomial with the given values and derivatives at two arguments. -/
structure IsCubicInterpolant (h : ℝ → ℝ) (t1 t2 v1 v2 d1 d2 : ℝ) : Prop where
  cubic : ∃ a0 a1 a2 a3 : ℝ, ∀ t, h t = a0 + a1 * t + a2 * t ^ 2 + a3 * t ^ 3
  value1 : h t1 = v1
  value2 : h t2 = v2
  derivative1 : HasDerivAt h d1 t1
  derivative2 : HasDerivAt h d2 t2

end Principia.Apsides
