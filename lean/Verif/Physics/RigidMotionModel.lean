import Verif.Geometry.MapsModel

/-!
A model of the degrees of freedom of physics/degrees_of_freedom.hpp and of the rigid motions of physics/rigid_motion_body.hpp.

Simplifications: exact real arithmetic.  A position is given by its coordinates.  The units are not modelled, so the multiplications and divisions by a radian disappear.  The
frames are not modelled as types; the handedness only appears in the orthogonal map.
-/

set_option linter.unusedSimpArgs false
set_option linter.unusedVariables false
set_option linter.unusedSectionVars false

namespace Principia.Physics.Motion

open Geometry

/-- physics/degrees_of_freedom.hpp:14-15: `DegreesOfFreedom`. -/
@[ext]
structure DegreesOfFreedom where
  position : R3 ℝ
  velocity : R3 ℝ

/-- geometry/space_transformations.hpp:18-22: `RigidTransformation`. -/
abbrev RigidTransformation := Geometry.AffineMap (OrthogonalMap ℝ)

/-- physics/rigid_motion.hpp:42-114: `RigidMotion`. -/
@[ext]
structure RigidMotion where
  rigidTransformation : RigidTransformation
  angularVelocityOfToFrame : R3 ℝ
  velocityOfToFrameOrigin : R3 ℝ

namespace RigidMotion

noncomputable section

/-- physics/rigid_motion_body.hpp:48-52 (`orthogonal_map`). -/
def orthogonalMap (m : RigidMotion) : OrthogonalMap ℝ := m.rigidTransformation.linearMap

/-- physics/rigid_motion_body.hpp:83-93 (`operator()`). -/
def apply (m : RigidMotion) (d : DegreesOfFreedom) : DegreesOfFreedom :=
  ⟨m.rigidTransformation.apply d.position,
   m.orthogonalMap.apply (d.velocity - m.velocityOfToFrameOrigin -
     bivectorTimesVector m.angularVelocityOfToFrame (d.position - m.rigidTransformation.inverse.apply 0))⟩

/-- physics/rigid_motion_body.hpp:95-102 (`Inverse`). -/
def inverse (m : RigidMotion) : RigidMotion :=
  ⟨m.rigidTransformation.inverse, -m.orthogonalMap.applyBivector m.angularVelocityOfToFrame, (m.apply ⟨0, 0⟩).velocity⟩

/-- physics/rigid_motion_body.hpp:29-40: the constructor from the velocities of the source frame. -/
def ofFromFrame (rigidTransformation : RigidTransformation) (angularVelocityOfFromFrame velocityOfFromFrameOrigin : R3 ℝ) : RigidMotion :=
  inverse ⟨rigidTransformation.inverse, angularVelocityOfFromFrame, velocityOfFromFrameOrigin⟩

/-- physics/rigid_motion_body.hpp:54-67 (`angular_velocity_of`), for the source frame. -/
def angularVelocityOfFromFrame (m : RigidMotion) : R3 ℝ := m.inverse.angularVelocityOfToFrame

/-- physics/rigid_motion_body.hpp:69-81 (`velocity_of_origin_of`), for the source frame. -/
def velocityOfFromFrameOrigin (m : RigidMotion) : R3 ℝ := m.inverse.velocityOfToFrameOrigin

/-- physics/rigid_motion_body.hpp:115-122 (`Identity`). -/
def identity : RigidMotion := ⟨Geometry.AffineMap.identity, 0, 0⟩

/-- physics/rigid_motion_body.hpp:124-149 (`MakeNonRotatingMotion`), for frames that have the same handedness or not.  `none` is an invalid permutation. -/
def makeNonRotatingMotion (same : Bool) (d : DegreesOfFreedom) : Option RigidMotion :=
  if same then some (ofFromFrame ⟨0, d.position, .identity⟩ 0 d.velocity)
  else (Permutation.forgetOrthogonal ⟨false, Permutation.XZY⟩).map fun map => ofFromFrame ⟨0, d.position, map⟩ 0 d.velocity

/-- physics/rigid_motion_body.hpp:173-183 (`operator*`). -/
def mul (left right : RigidMotion) : RigidMotion :=
  ⟨left.rigidTransformation.mul right.rigidTransformation,
   right.angularVelocityOfToFrame + right.orthogonalMap.inverse.applyBivector left.angularVelocityOfToFrame,
   (right.inverse.apply (left.inverse.apply ⟨0, 0⟩)).velocity⟩

end

end RigidMotion

/-- physics/rigid_motion.hpp:121-150: `AcceleratedRigidMotion`. -/
structure AcceleratedRigidMotion where
  rigidMotion : RigidMotion
  angularAccelerationOfToFrame : R3 ℝ
  accelerationOfToFrameOrigin : R3 ℝ

end Principia.Physics.Motion
