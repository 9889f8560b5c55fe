import Verif.Physics.RigidMotionModel

/-!
A model of the operations common to all the rigid reference frames, in physics/rigid_reference_frame_body.hpp, and of the Frenet trihedron of physics/reference_frame_body.hpp.

Simplifications: as in `Verif.Physics.RigidMotionModel`.  The pure virtual functions are the fields of a structure.  `none` is the failure of the check of `Normalize`.
-/

set_option linter.unusedSimpArgs false
set_option linter.unusedVariables false
set_option linter.unusedSectionVars false

namespace Principia.Physics.Frames

open Geometry Motion

/-- physics/rigid_reference_frame.hpp:119-125 (`Trihedron`). -/
@[ext]
structure Trihedron where
  fore : R3 ℝ
  normal : R3 ℝ
  binormal : R3 ℝ

noncomputable section

/-- physics/rigid_reference_frame_body.hpp:218-236 (`ComputeTrihedra`): the orthogonal and orthonormal trihedra. -/
def computeTrihedra (r r' : R3 ℝ) : Option (Trihedron × Trihedron) := do
  let F := r
  let B := wedge r r'
  let N := bivectorTimesVector B F
  let f ← F.normalize
  let n ← N.normalize
  let b ← B.normalize
  return (⟨F, N, B⟩, ⟨f, n, b⟩)

/-- physics/rigid_reference_frame_body.hpp:257-260 (the first derivative of a normalized multivector). -/
def dNormalized (v v' : R3 ℝ) : R3 ℝ := (v.normSq • v' - v.dot v' • v).div (v.norm ^ 3)

/-- physics/rigid_reference_frame_body.hpp:238-269 (`ComputeTrihedraDerivatives`): the derivatives of the orthogonal and orthonormal trihedra. -/
def computeTrihedraDerivatives (r r' r'' : R3 ℝ) (orthogonal orthonormal : Trihedron) : Trihedron × Trihedron :=
  let F := orthogonal.fore
  let N := orthogonal.normal
  let B := orthogonal.binormal
  let F' := r'
  let B' := wedge r r''
  let N' := bivectorTimesVector B' F + bivectorTimesVector B F'
  (⟨F', N', B'⟩, ⟨dNormalized F F', dNormalized N N', dNormalized B B'⟩)

/-- physics/rigid_reference_frame_body.hpp:297-305 (the second derivative of a normalized multivector). -/
def d2Normalized (v v' v'' : R3 ℝ) : R3 ℝ :=
  v''.div v.norm - ((2 * v.dot v') • v' + (v'.normSq - v.dot v'') • v).div (v.norm ^ 3) + (v.dot v' ^ 2 • (3 : ℝ) • v).div (v.norm ^ 5)

/-- physics/rigid_reference_frame_body.hpp:271-314 (`ComputeTrihedraDerivatives2`): the second derivatives of the orthogonal and orthonormal trihedra. -/
def computeTrihedraDerivatives2 (r r' r'' r''' : R3 ℝ) (orthogonal orthonormal dOrthogonal dOrthonormal : Trihedron) : Trihedron × Trihedron :=
  let F := orthogonal.fore
  let N := orthogonal.normal
  let B := orthogonal.binormal
  let F' := dOrthogonal.fore
  let N' := dOrthogonal.normal
  let B' := dOrthogonal.binormal
  let F'' := r''
  let B'' := wedge r' r'' + wedge r r'''
  let N'' := bivectorTimesVector B'' F + bivectorTimesVector ((2 : ℝ) • B') F' + bivectorTimesVector B F''
  (⟨F'', N'', B''⟩, ⟨d2Normalized F F' F'', d2Normalized N N' N'', d2Normalized B B' B''⟩)

/-- physics/rigid_reference_frame_body.hpp:316-323 (`ComputeRotation`). -/
def computeRotation (orthonormal : Trihedron) : Rotation ℝ := Rotation.ofToFrameAxes orthonormal.fore orthonormal.normal orthonormal.binormal

/-- physics/rigid_reference_frame_body.hpp:325-338 (`ComputeAngularVelocity`). -/
def computeAngularVelocity (orthonormal dOrthonormal : Trihedron) : R3 ℝ :=
  let f := orthonormal.fore
  let n := orthonormal.normal
  let b := orthonormal.binormal
  let f' := dOrthonormal.fore
  let n' := dOrthonormal.normal
  let b' := dOrthonormal.binormal
  vectorTimesTrivector f (wedgeVectorBivector n' b) + vectorTimesTrivector n (wedgeBivectorVector b' f) + f'.dot n • b

/-- physics/rigid_reference_frame_body.hpp:340-360 (`ComputeAngularAcceleration`). -/
def computeAngularAcceleration (orthonormal dOrthonormal d2Orthonormal : Trihedron) : R3 ℝ :=
  let f := orthonormal.fore
  let n := orthonormal.normal
  let b := orthonormal.binormal
  let f' := dOrthonormal.fore
  let n' := dOrthonormal.normal
  let b' := dOrthonormal.binormal
  let f'' := d2Orthonormal.fore
  let n'' := d2Orthonormal.normal
  let b'' := d2Orthonormal.binormal
  vectorTimesTrivector f (wedgeVectorBivector n'' b + wedgeVectorBivector n' b') + vectorTimesTrivector f' (wedgeVectorBivector n' b) +
    vectorTimesTrivector n (wedgeBivectorVector b'' f + wedgeBivectorVector b' f') + vectorTimesTrivector n' (wedgeBivectorVector b' f) +
    (f''.dot n + f'.dot n') • b + f'.dot n • b'

/-- physics/rigid_reference_frame_body.hpp:189-216 (`ComputeAngularDegreesOfFreedom`). -/
def computeAngularDegreesOfFreedom (primary secondary : DegreesOfFreedom) (primaryAcceleration secondaryAcceleration : R3 ℝ) : Option (Rotation ℝ × R3 ℝ) := do
  let r := secondary.position - primary.position
  let r' := secondary.velocity - primary.velocity
  let r'' := secondaryAcceleration - primaryAcceleration
  let (orthogonal, orthonormal) ← computeTrihedra r r'
  let (_, dOrthonormal) := computeTrihedraDerivatives r r' r'' orthogonal orthonormal
  return (computeRotation orthonormal, computeAngularVelocity orthonormal dOrthonormal)

/-- physics/rigid_reference_frame.hpp:51-191 (`RigidReferenceFrame`): the functions overridden by the derived classes. -/
structure RigidReferenceFrame where
  toThisFrameAtTime : ℝ → Option RigidMotion
  motionOfThisFrame : ℝ → Option AcceleratedRigidMotion
  gravitationalAcceleration : ℝ → R3 ℝ → R3 ℝ
  gravitationalPotential : ℝ → R3 ℝ → ℝ

/-- The results of physics/rigid_reference_frame_body.hpp:362-398. -/
structure GeometricAccelerations where
  gravitational : R3 ℝ
  linear : R3 ℝ
  coriolis : R3 ℝ
  centrifugal : R3 ℝ
  euler : R3 ℝ

namespace RigidReferenceFrame

/-- physics/rigid_reference_frame_body.hpp:50-55 (`FromThisFrameAtTime`). -/
def fromThisFrameAtTime (F : RigidReferenceFrame) (t : ℝ) : Option RigidMotion := (F.toThisFrameAtTime t).map RigidMotion.inverse

/-- physics/rigid_reference_frame_body.hpp:362-398 (`ComputeGeometricAccelerations`). -/
def computeGeometricAccelerations (F : RigidReferenceFrame) (t : ℝ) (d : DegreesOfFreedom) : Option GeometricAccelerations :=
  (F.motionOfThisFrame t).map fun motion =>
    let toThisFrame := motion.rigidMotion
    let fromThisFrame := toThisFrame.inverse
    let Ω := toThisFrame.orthogonalMap.applyBivector toThisFrame.angularVelocityOfToFrame
    let Ω' := toThisFrame.orthogonalMap.applyBivector motion.angularAccelerationOfToFrame
    let r := d.position - 0
    { gravitational := toThisFrame.orthogonalMap.apply (F.gravitationalAcceleration t (fromThisFrame.rigidTransformation.apply d.position))
      linear := -toThisFrame.orthogonalMap.apply motion.accelerationOfToFrameOrigin
      coriolis := bivectorTimesVector ((-2 : ℝ) • Ω) d.velocity
      centrifugal := bivectorTimesVector (-Ω) (bivectorTimesVector Ω r)
      euler := bivectorTimesVector (-Ω') r }

/-- physics/rigid_reference_frame_body.hpp:57-78 (`GeometricAcceleration`). -/
def geometricAcceleration (F : RigidReferenceFrame) (t : ℝ) (d : DegreesOfFreedom) : Option (R3 ℝ) :=
  (F.computeGeometricAccelerations t d).map fun a => a.gravitational + (a.linear + a.coriolis + a.centrifugal + a.euler)

/-- physics/rigid_reference_frame_body.hpp:80-102 (`RotationFreeGeometricAccelerationAtRest`), without the debug check of line 99. -/
def rotationFreeGeometricAccelerationAtRest (F : RigidReferenceFrame) (t : ℝ) (position : R3 ℝ) : Option (R3 ℝ) :=
  (F.computeGeometricAccelerations t ⟨position, 0⟩).map fun a => a.gravitational + (a.linear + a.centrifugal)

/-- physics/rigid_reference_frame_body.hpp:104-130 (`GeometricPotential`). -/
def geometricPotential (F : RigidReferenceFrame) (t : ℝ) (position : R3 ℝ) : Option ℝ :=
  (F.motionOfThisFrame t).map fun motion =>
    let toThisFrame := motion.rigidMotion
    let fromThisFrame := toThisFrame.inverse
    let Ω := toThisFrame.orthogonalMap.applyBivector toThisFrame.angularVelocityOfToFrame
    let r := position - 0
    let gravitationalPotential := F.gravitationalPotential t (fromThisFrame.rigidTransformation.apply position)
    let linearPotential := r.dot (toThisFrame.orthogonalMap.apply motion.accelerationOfToFrameOrigin)
    let centrifugalPotential := -(1 / 2) * (bivectorTimesVector Ω r).normSq
    gravitationalPotential + (linearPotential + centrifugalPotential)

end RigidReferenceFrame

/-- physics/reference_frame_body.hpp:38-54 (`FrenetFrame`), for the given geometric acceleration. -/
def frenetFrame (acceleration velocity : R3 ℝ) : Option (Rotation ℝ) := do
  let normalAcceleration ← acceleration.orthogonalizationAgainst velocity
  let tangent ← velocity.normalize
  let normal ← normalAcceleration.normalize
  let binormal := wedge tangent normal
  return Rotation.ofFromFrameAxes tangent normal binormal

end

end Principia.Physics.Frames
