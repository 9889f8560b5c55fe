import Verif.Physics.MechanicalSystemModel
import Verif.Physics.RigidMotionSpec

/-!
What the mass, centre of mass, angular momentum and inertia tensor of a set of particles are.
-/

namespace Principia.Physics.Mechanical

open Geometry Motion

/-- A particle, with its mass and its degrees of freedom. -/
structure Particle where
  mass : ℝ
  state : DegreesOfFreedom

/-- The total mass of a set of particles. -/
noncomputable def totalMass (ps : List Particle) : ℝ := (ps.map Particle.mass).sum

/-- The total of the masses multiplied by the positions. -/
noncomputable def firstMoment (ps : List Particle) : R3 ℝ := (ps.map fun p => p.mass • p.state.position).sum

/-- The total momentum. -/
noncomputable def momentum (ps : List Particle) : R3 ℝ := (ps.map fun p => p.mass • p.state.velocity).sum

/-- The angular momentum with respect to a moving point. -/
noncomputable def angularMomentumAbout (c : DegreesOfFreedom) (ps : List Particle) : R3 ℝ :=
  (ps.map fun p => (p.state.position - c.position).cross (p.mass • (p.state.velocity - c.velocity))).sum

/-- The angular momentum that the particles would have, with respect to a point, if they all turned around it with the angular velocity `ω`. -/
noncomputable def spin (c : R3 ℝ) (ps : List Particle) (ω : R3 ℝ) : R3 ℝ :=
  (ps.map fun p => (p.state.position - c).cross (p.mass • ω.cross (p.state.position - c))).sum

/-- A rigid body, made of particles that do not move in the frame of the body and whose centre of mass is its origin, and the inertia tensor of these particles: it maps an
angular velocity to an angular momentum. -/
structure RigidBody where
  motion : RigidMotion
  /-- The masses and positions of the particles. -/
  particles : List (ℝ × R3 ℝ)
  mass : ℝ
  inertiaTensor : M3 ℝ
  unit : motion.orthogonalMap.IsUnit
  mass_eq : mass = totalMass (particles.map fun x => ⟨x.1, ⟨x.2, 0⟩⟩)
  centred : firstMoment (particles.map fun x => ⟨x.1, ⟨x.2, 0⟩⟩) = 0
  inertia : ∀ ω, inertiaTensor.mulVec ω = spin 0 (particles.map fun x => ⟨x.1, ⟨x.2, 0⟩⟩) ω

/-- The particles of a body, as they move in the inertial frame. -/
noncomputable def RigidBody.moving (b : RigidBody) : List Particle := b.particles.map fun x => ⟨x.1, b.motion.apply ⟨x.2, 0⟩⟩

/-- The system obtained by adding the bodies one after the other. -/
noncomputable def systemOf (bs : List RigidBody) : MechanicalSystem :=
  bs.foldl (fun s b => s.addRigidBody b.motion b.mass b.inertiaTensor) .init

end Principia.Physics.Mechanical
