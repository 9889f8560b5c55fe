import Verif.Physics.EulerSolverModel
import Verif.Geometry.Calculus
import Verif.Geometry.RotationSpec

/-!
What the free rotation of a rigid body is.
-/

namespace Principia.Physics.Euler

open Geometry

/-- The angular velocity of a body whose principal moments of inertia are `I` and whose angular momentum is `m`, in its principal axes. -/
noncomputable def angularVelocity (I m : R3 ℝ) : R3 ℝ := ⟨m.x / I.x, m.y / I.y, m.z / I.z⟩

/-- The free rotation of a rigid body whose principal moments of inertia are `I`: `R` is its attitude, i.e., the map from its principal axes to the inertial axes, and `m` is
its angular momentum in the principal axes.  The rotation starts at time `t₀` with the attitude `A`, and its angular momentum is `L` in the inertial axes. -/
structure FreeRotation (I L : R3 ℝ) (A : Rotation ℝ) (t₀ : ℝ) (m : ℝ → R3 ℝ) (R : ℝ → Rotation ℝ) : Prop where
  /-- The attitude is a rotation. -/
  unit : ∀ t, (R t).IsUnit
  /-- It has the right initial value. -/
  initial : ∀ v, (R t₀).apply v = A.apply v
  /-- A point that is fixed in the body turns with the angular velocity of the body. -/
  attitude : ∀ t v, HasDeriv (fun s => (R s).apply v) (((R t).apply (angularVelocity I (m t))).cross ((R t).apply v)) t
  /-- Euler's equations. -/
  euler : ∀ t, HasDeriv m ((m t).cross (angularVelocity I (m t))) t
  /-- In the inertial axes, the angular momentum is constant. -/
  conserved : ∀ t, (R t).apply (m t) = L
  /-- The kinetic energy is constant. -/
  energy : ∀ t, (m t).dot (angularVelocity I (m t)) = (m t₀).dot (angularVelocity I (m t₀))

end Principia.Physics.Euler
