import Verif.Geometry.PerspectiveModel

/-!
What it means for a point to be hidden by a sphere.
-/

set_option linter.unusedVariables false

namespace Principia.Geometry.Perspectives

/-- The point is on the segment. -/
def Segment.Contains (s : Segment) (X : R3 ℝ) : Prop := ∃ l : ℝ, 0 ≤ l ∧ l ≤ 1 ∧ X = s.first + l • (s.second - s.first)

/-- The point, seen from `K`, is hidden by the ball: the segment from `K` to the point enters the interior of the ball. -/
def Hidden (K : R3 ℝ) (sphere : Sphere) (X : R3 ℝ) : Prop :=
  ∃ s : ℝ, 0 ≤ s ∧ s ≤ 1 ∧ R3.normSq (K + s • (X - K) - sphere.centre) < sphere.radius ^ 2

/-- The segment from `K` to the point touches the ball. -/
def Touched (K : R3 ℝ) (sphere : Sphere) (X : R3 ℝ) : Prop :=
  ∃ s : ℝ, 0 ≤ s ∧ s ≤ 1 ∧ R3.normSq (K + s • (X - K) - sphere.centre) ≤ sphere.radius ^ 2

/-- The points are on a line that goes through `K`. -/
def Aligned (K A B : R3 ℝ) : Prop := R3.cross (A - K) (B - K) = 0

/-- The point is in the plane that goes through `K` and is orthogonal to the direction of the centre of the sphere. -/
def InPlane (K : R3 ℝ) (sphere : Sphere) (X : R3 ℝ) : Prop := R3.dot (X - K) (sphere.centre - K) = 0

/-- The axes of the camera are orthonormal. -/
def Perspective.Orthonormal (c : Perspective) : Prop := c.axes.mul c.axes.transpose = M3.identity

/-- The depth of a point in the frame of the camera. -/
noncomputable def Perspective.depth (c : Perspective) (X : R3 ℝ) : ℝ := (c.toCamera X).z

/-- The half-line from `K` in the direction `v` enters the interior of the ball. -/
def Meets (K v : R3 ℝ) (sphere : Sphere) : Prop := ∃ s : ℝ, 0 ≤ s ∧ R3.normSq (K + s • v - sphere.centre) < sphere.radius ^ 2

end Principia.Geometry.Perspectives
