import Verif.Physics.FramesModel
import Verif.Physics.RigidMotionSpec

/-!
What is expected of reference frames.
-/

namespace Principia.Physics.Frames

open Geometry Motion

/-- The gradient of `V` at `x` is `g`: it gives the rate at which `V` changes along all the curves that go through `x`. -/
def IsGradient (V : R3 ℝ → ℝ) (g x : R3 ℝ) : Prop :=
  ∀ (c : ℝ → R3 ℝ) (c' : R3 ℝ) (s : ℝ), HasDeriv c c' s → c s = x → HasDerivAt (fun s => V (c s)) (g.dot c') s

/-- The motion of the frame at the time `t` is `m t`, the motions are the derivatives of the transformations, and the accelerations are the derivatives of the motions. -/
structure IsFrame (F : RigidReferenceFrame) (m : ℝ → RigidMotion) : Prop where
  motion : ∀ t, F.toThisFrameAtTime t = some (m t)
  accelerated : ∀ t, ∃ a, F.motionOfThisFrame t = some a ∧ IsAcceleratedMotionOf (fun s => (m s).rigidTransformation) m a t

/-- The velocities, accelerations and jerks given by the ephemeris are the derivatives of the positions of the bodies. -/
structure Ephemeris.Consistent {Body : Type} (E : Ephemeris Body) : Prop where
  velocity : ∀ b t, HasDeriv (E.position b) (E.velocity b t) t
  acceleration : ∀ b t, HasDeriv (E.velocity b) (E.accelerationOnMassiveBody b t) t
  jerk : ∀ b t, HasDeriv (E.accelerationOnMassiveBody b) (E.jerkOnMassiveBody b t) t

/-- The sum of the gravitational parameters of some bodies. -/
def Ephemeris.parameter {Body : Type} (E : Ephemeris Body) (bodies : List Body) : ℝ := (bodies.map E.gravitationalParameter).sum

/-- The mean of some vectors attached to some bodies, weighted by the gravitational parameters. -/
noncomputable def Ephemeris.mean {Body : Type} (E : Ephemeris Body) (bodies : List Body) (x : Body → R3 ℝ) : R3 ℝ :=
  (1 / E.parameter bodies) • (bodies.map fun b => E.gravitationalParameter b • x b).sum

/-- The velocity of the primary, its acceleration and its jerk are the derivatives of its position. -/
structure Primary.Consistent (p : Primary) : Prop where
  velocity : ∀ t, HasDeriv (fun s => (p.trajectory s).position) (p.trajectory t).velocity t
  acceleration : ∀ t, HasDeriv (fun s => (p.trajectory s).velocity) (p.acceleration (p.trajectory t).position t) t
  jerk : ∀ t, HasDeriv (fun s => p.acceleration (p.trajectory s).position s) (p.jerk (p.trajectory t) t) t

end Principia.Physics.Frames
