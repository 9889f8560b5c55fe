import Verif.Geometry.RotationSpec
import Mathlib.Data.Real.Basic

/-!
Wahba's problem: to find the rotation that best maps some vectors to other ones, in the sense of weighted least squares.
-/

namespace Principia.Numerics.Davenport

open Principia.Geometry

/-- The weighted sum of the squares of the distances between the images of the first vectors and the second ones. -/
def loss (l : List (R3 ℝ × R3 ℝ × ℝ)) (r : Rotation ℝ) : ℝ := (l.map fun t => t.2.2 * (t.2.1 - r.apply t.1).normSq).sum

/-- The weighted sum of the products of the norms of the vectors, which is the scale of the problem. -/
noncomputable def scale (l : List (R3 ℝ × R3 ℝ × ℝ)) : ℝ := (l.map fun t => |t.2.2| * (t.1.norm * t.2.1.norm)).sum

end Principia.Numerics.Davenport
