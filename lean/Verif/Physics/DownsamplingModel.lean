import Verif.Physics.DiscreteTrajectorySegmentModel
import Verif.Numerics.Hermite3Model

/-!
# Model of the segments of trajectories, with cubic Hermite interpolation

This instantiates the model of physics/discrete_trajectory_segment_body.hpp with the model of numerics/hermite3_body.hpp.  The times are real
numbers, the degrees of freedom are pairs of a position and a velocity, in an inner product space (after the choice of an origin).
-/

namespace Principia.DiscreteTrajectory

open Principia.Hermite3 Principia.Polynomial Principia.SortedMap

variable {V : Type} [NormedAddCommGroup V] [InnerProductSpace ℝ V]

/-- physics/discrete_trajectory_segment_body.hpp:610-624 `MakeHermite3` and 443-445, the difference and its norm.  The failures of these
functions are replaced here by arbitrary values: `hermite_make` and `hermite_distance` show that there is no failure in the calls which are
made. -/
noncomputable def hermite : Hermite ℝ (V × V) (Hermite3 V) ℝ where
  make a b := (Hermite3.make (a.1, b.1) (a.2.1, b.2.1) (a.2.2, b.2.2)).getD { lower := 0, upper := 0, p := { coeffs := [], origin := 0 } }
  distance h h' := ((h.sub h').bind Hermite3.norm).getD 0

/-- Segments with cubic Hermite interpolation. -/
abbrev Segment (V : Type) := Seg ℝ (V × V) (Hermite3 V) ℝ

/-- physics/discrete_trajectory_segment_body.hpp:129-141 `EvaluatePosition`. -/
noncomputable def Seg.position (s : Segment V) (t : ℝ) : Option V :=
  (s.evaluate t).map fun r => match r with
    | .inl d => d.1
    | .inr h => h.eval t

/-- physics/discrete_trajectory_segment_body.hpp:143-155 `EvaluateVelocity`. -/
noncomputable def Seg.velocity (s : Segment V) (t : ℝ) : Option V :=
  (s.evaluate t).map fun r => match r with
    | .inl d => d.2
    | .inr h => h.evalDerivative t

/-- The operations on a segment. -/
inductive SegOp (V : Type)
  | append (t : ℝ) (d : V × V)
  | prepend (t : ℝ) (d : V × V)
  | forgetAfter (t : ℝ)
  | forgetBefore (t : ℝ)
  | setDownsampling (tolerance : ℝ)
  | clearDownsampling
  | clear

/-- The effect of an operation, see the definitions of the operations. -/
noncomputable def Seg.apply (s : Segment V) : SegOp V → Option (Segment V)
  | .append t d => s.append hermite t d
  | .prepend t d => s.prepend hermite t d
  | .forgetAfter t => some (s.forgetAfter t)
  | .forgetBefore t => some (s.forgetBefore t)
  | .setDownsampling tolerance => s.setDownsampling tolerance
  | .clearDownsampling => some s.clearDownsampling
  | .clear => some s.clear

end Principia.DiscreteTrajectory
