import Verif.Physics.RigidMotionModel
import Verif.Geometry.MapsSpec
import Verif.Geometry.Calculus

/-!
What it is for a rigid motion to be the derivative of a rigid transformation that depends on the time.
-/

namespace Principia.Physics.Motion

open Geometry

/-- The transformation at the time `s` is `A s`, and `m` is the motion at the time `t`: it has the transformation at that time, the angular velocity is the one at which
the axes of the target frame rotate, and the velocity is that of the origin of the target frame, all as seen in the source frame. -/
structure IsMotionOf (A : ℝ → RigidTransformation) (m : RigidMotion) (t : ℝ) : Prop where
  unit : ∀ s, (A s).linearMap.IsUnit
  transformation : m.rigidTransformation = A t
  origin : HasDeriv (fun s => (A s).inverse.apply 0) m.velocityOfToFrameOrigin t
  axes : ∀ e, HasDeriv (fun s => (A s).linearMap.inverse.apply e) (m.angularVelocityOfToFrame.cross ((A t).linearMap.inverse.apply e)) t

/-- The motion at the time `t` is `m`, and the angular velocity and the velocity of the origin change at the given rates. -/
structure IsAcceleratedMotionOf (A : ℝ → RigidTransformation) (m : ℝ → RigidMotion) (a : AcceleratedRigidMotion) (t : ℝ) : Prop where
  motion : ∀ s, IsMotionOf A (m s) s
  rigidMotion : a.rigidMotion = m t
  angular : HasDeriv (fun s => (m s).angularVelocityOfToFrame) a.angularAccelerationOfToFrame t
  linear : HasDeriv (fun s => (m s).velocityOfToFrameOrigin) a.accelerationOfToFrameOrigin t

end Principia.Physics.Motion
