import Verif.Physics.FrameModel
import Verif.Physics.SimilarMotionModel

/-!
A model of the reference frames defined by the bodies of an ephemeris: physics/body_centred_non_rotating_reference_frame_body.hpp,
physics/body_surface_reference_frame_body.hpp, physics/body_centred_body_direction_reference_frame_body.hpp, physics/barycentric_rotating_reference_frame_body.hpp and
physics/rotating_pulsating_reference_frame_body.hpp; and of the orientation of the bodies in physics/rotating_body_body.hpp.

Simplifications: as in `Verif.Physics.FrameModel`.  The ephemeris is given by the values that its functions return.  The bounds of the times for which it is defined are not
modelled.
-/

set_option linter.unusedSimpArgs false
set_option linter.unusedVariables false
set_option linter.unusedSectionVars false

namespace Principia.Physics.Frames

open Geometry Motion

/-- physics/ephemeris.hpp:67-561 (`Ephemeris`): the results of the functions used by the reference frames. -/
structure Ephemeris (Body : Type) where
  /-- `trajectory(body)->EvaluatePosition(t)`. -/
  position : Body → ℝ → R3 ℝ
  /-- `trajectory(body)->EvaluateVelocity(t)`. -/
  velocity : Body → ℝ → R3 ℝ
  /-- `ComputeGravitationalAccelerationOnMassiveBody(body, t)`. -/
  accelerationOnMassiveBody : Body → ℝ → R3 ℝ
  /-- `ComputeGravitationalJerkOnMassiveBody(body, t)`. -/
  jerkOnMassiveBody : Body → ℝ → R3 ℝ
  /-- `ComputeGravitationalAccelerationOnMasslessBody(position, t)`. -/
  accelerationOnMasslessBody : R3 ℝ → ℝ → R3 ℝ
  /-- `ComputeGravitationalJerkOnMasslessBody(degrees_of_freedom, t)`. -/
  jerkOnMasslessBody : DegreesOfFreedom → ℝ → R3 ℝ
  /-- `ComputeGravitationalPotential(position, t)`. -/
  potential : R3 ℝ → ℝ → ℝ
  /-- `body->gravitational_parameter()`. -/
  gravitationalParameter : Body → ℝ

namespace Ephemeris

/-- `trajectory(body)->EvaluateDegreesOfFreedom(t)`. -/
def degreesOfFreedom {Body : Type} (E : Ephemeris Body) (b : Body) (t : ℝ) : DegreesOfFreedom := ⟨E.position b t, E.velocity b t⟩

end Ephemeris

/-! ## The orientation of the bodies -/

/-- physics/rotating_body.hpp:43-86 (`RotatingBody::Parameters`), without the shape of the body. -/
structure RotatingBody where
  referenceAngle : ℝ
  referenceInstant : ℝ
  angularFrequency : ℝ
  rightAscensionOfPole : ℝ
  declinationOfPole : ℝ

namespace RotatingBody

noncomputable section

/-- physics/rotating_body_body.hpp:43-44: the check of the constructor. -/
def Valid (b : RotatingBody) : Prop := b.angularFrequency ≠ 0

/-- geometry/r3_element_body.hpp:212-219 (`SphericalCoordinates::ToCartesian`), for a radius of 1. -/
def toCartesian (latitude longitude : ℝ) : R3 ℝ :=
  ⟨Real.cos longitude * Real.cos latitude, Real.sin longitude * Real.cos latitude, Real.sin latitude⟩

/-- physics/rotating_body_body.hpp:70-73 (`polar_axis_`). -/
def polarAxis (b : RotatingBody) : R3 ℝ := toCartesian b.declinationOfPole b.rightAscensionOfPole

/-- physics/rotating_body_body.hpp:74-78 (`biequatorial_`). -/
def biequatorial (b : RotatingBody) : R3 ℝ := toCartesian 0 (Real.pi / 2 + b.rightAscensionOfPole)

/-- physics/rotating_body_body.hpp:79 (`equatorial_`). -/
def equatorial (b : RotatingBody) : R3 ℝ := wedge b.biequatorial b.polarAxis

/-- physics/rotating_body_body.hpp:80-81 (`angular_velocity_`). -/
def angularVelocity (b : RotatingBody) : R3 ℝ := b.angularFrequency • b.polarAxis

/-- physics/rotating_body_body.hpp:156-160 (`AngleAt`). -/
def angleAt (b : RotatingBody) (t : ℝ) : ℝ := b.referenceAngle + (t - b.referenceInstant) * b.angularFrequency

/-- physics/rotating_body_body.hpp:123-133 (`ToCelestialFrame`). -/
def toCelestialFrame (b : RotatingBody) : Rotation ℝ := Rotation.ofToFrameAxes b.equatorial b.biequatorial (wedge b.equatorial b.biequatorial)

/-- physics/rotating_body.hpp:181-191 (`FromSurfaceFrame`). -/
def fromSurfaceFrame (b : RotatingBody) (t : ℝ) : Rotation ℝ :=
  Rotation.anglesDefineFromFrame (Real.pi / 2 + b.rightAscensionOfPole) (Real.pi / 2 - b.declinationOfPole) (b.angleAt t) (Rotation.axisConvention 2 0 2)

/-- physics/rotating_body.hpp:193-198 (`ToSurfaceFrame`). -/
def toSurfaceFrame (b : RotatingBody) (t : ℝ) : Rotation ℝ := (b.fromSurfaceFrame t).inverse

end

end RotatingBody

/-! ## The rigid frames -/

noncomputable section

variable {Body : Type}

/-- physics/body_centred_non_rotating_reference_frame_body.hpp:25-133 (`BodyCentredNonRotatingReferenceFrame`).  `orientation` is the centre, if it is a `RotatingBody`. -/
def bodyCentredNonRotating (E : Ephemeris Body) (centre : Body) (orientation : Option RotatingBody) : RigidReferenceFrame :=
  let orthogonalMap : OrthogonalMap ℝ :=
    match orientation with
    | none => .identity
    | some b => b.toCelestialFrame.forgetOrthogonal
  let toThisFrameAtTime := fun t : ℝ =>
    let d := E.degreesOfFreedom centre t
    (⟨⟨d.position, 0, orthogonalMap⟩, 0, d.velocity⟩ : RigidMotion)
  { toThisFrameAtTime := fun t => some (toThisFrameAtTime t)
    motionOfThisFrame := fun t => some ⟨toThisFrameAtTime t, 0, E.accelerationOnMassiveBody centre t⟩
    gravitationalAcceleration := fun t q => E.accelerationOnMasslessBody q t
    gravitationalPotential := fun t q => E.potential q t }

/-- physics/body_surface_reference_frame_body.hpp:23-132 (`BodySurfaceReferenceFrame`). -/
def bodySurface (E : Ephemeris Body) (centre : Body) (orientation : RotatingBody) : RigidReferenceFrame :=
  let toThisFrameAtTime := fun t : ℝ =>
    let d := E.degreesOfFreedom centre t
    (⟨⟨d.position, 0, (orientation.toSurfaceFrame t).forgetOrthogonal⟩, orientation.angularVelocity, d.velocity⟩ : RigidMotion)
  { toThisFrameAtTime := fun t => some (toThisFrameAtTime t)
    motionOfThisFrame := fun t => some ⟨toThisFrameAtTime t, 0, E.accelerationOnMassiveBody centre t⟩
    gravitationalAcceleration := fun t q => E.accelerationOnMasslessBody q t
    gravitationalPotential := fun t q => E.potential q t }

/-- The parts common to physics/body_centred_body_direction_reference_frame_body.hpp:202-230 and physics/barycentric_rotating_reference_frame_body.hpp:394-417: the angular
acceleration. -/
def angularAccelerationOf (r r' r'' r''' : R3 ℝ) : Option (R3 ℝ) := do
  let (orthogonal, orthonormal) ← computeTrihedra r r'
  let (dOrthogonal, dOrthonormal) := computeTrihedraDerivatives r r' r'' orthogonal orthonormal
  let (_, d2Orthonormal) := computeTrihedraDerivatives2 r r' r'' r''' orthogonal orthonormal dOrthogonal dOrthonormal
  return computeAngularAcceleration orthonormal dOrthonormal d2Orthonormal

/-- The trajectory of the primary of a body-direction frame, and the functions that compute its acceleration and jerk. -/
structure Primary where
  trajectory : ℝ → DegreesOfFreedom
  acceleration : R3 ℝ → ℝ → R3 ℝ
  jerk : DegreesOfFreedom → ℝ → R3 ℝ

/-- physics/body_centred_body_direction_reference_frame_body.hpp:28-51: the constructor for a primary that is a massive body. -/
def Primary.massive (E : Ephemeris Body) (primary : Body) : Primary :=
  ⟨E.degreesOfFreedom primary, fun _ t => E.accelerationOnMassiveBody primary t, fun _ t => E.jerkOnMassiveBody primary t⟩

/-- physics/body_centred_body_direction_reference_frame_body.hpp:53-74: the constructor for a primary that is massless, a target vessel. -/
def Primary.massless (E : Ephemeris Body) (trajectory : ℝ → DegreesOfFreedom) : Primary :=
  ⟨trajectory, fun q t => E.accelerationOnMasslessBody q t, fun d t => E.jerkOnMasslessBody d t⟩

/-- physics/body_centred_body_direction_reference_frame_body.hpp:239-264 (`ToThisFrame`). -/
def bodyDirectionToThisFrame (primary secondary : DegreesOfFreedom) (primaryAcceleration secondaryAcceleration : R3 ℝ) : Option RigidMotion :=
  (computeAngularDegreesOfFreedom primary secondary primaryAcceleration secondaryAcceleration).map fun (rotation, angularVelocity) =>
    ⟨⟨primary.position, 0, rotation.forgetOrthogonal⟩, angularVelocity, primary.velocity⟩

/-- physics/body_centred_body_direction_reference_frame_body.hpp:106-237 (`BodyCentredBodyDirectionReferenceFrame`). -/
def bodyCentredBodyDirection (E : Ephemeris Body) (primary : Primary) (secondary : Body) : RigidReferenceFrame where
  toThisFrameAtTime t :=
    let p := primary.trajectory t
    bodyDirectionToThisFrame p (E.degreesOfFreedom secondary t) (primary.acceleration p.position t) (E.accelerationOnMassiveBody secondary t)
  motionOfThisFrame t := do
    let p := primary.trajectory t
    let s := E.degreesOfFreedom secondary t
    let primaryAcceleration := primary.acceleration p.position t
    let secondaryAcceleration := E.accelerationOnMassiveBody secondary t
    let primaryJerk := primary.jerk p t
    let secondaryJerk := E.jerkOnMassiveBody secondary t
    let toThisFrame ← bodyDirectionToThisFrame p s primaryAcceleration secondaryAcceleration
    let angularAcceleration ← angularAccelerationOf (s.position - p.position) (s.velocity - p.velocity) (secondaryAcceleration - primaryAcceleration)
      (secondaryJerk - primaryJerk)
    return ⟨toThisFrame, angularAcceleration, primaryAcceleration⟩
  gravitationalAcceleration t q := E.accelerationOnMasslessBody q t
  gravitationalPotential t q := E.potential q t

/-- geometry/barycentre_calculator_body.hpp:16-46 (`BarycentreCalculator::Add`, `Get`), for the triples of this model; `none` if nothing was added or if the total weight is
zero. -/
def barycentre (l : List (R3 ℝ × ℝ)) : Option (R3 ℝ) :=
  let weight := l.foldl (fun w x => w + x.2) 0
  if l = [] then none else if weight = 0 then none else some ((l.foldl (fun s x => s + x.2 • x.1) (0 : R3 ℝ)).div weight)

/-- physics/barycentric_rotating_reference_frame.hpp:164-171: the part of a `BarycentricRotatingReferenceFrame` that does not change. -/
structure BarycentricRotating (Body : Type) where
  ephemeris : Ephemeris Body
  primaries : List Body
  secondaries : List Body

namespace BarycentricRotating

/-- physics/barycentric_rotating_reference_frame_body.hpp:46-86: the checks of the constructor. -/
def Valid (F : BarycentricRotating Body) : Prop :=
  1 ≤ F.primaries.length ∧ F.primaries.Nodup ∧ 1 ≤ F.secondaries.length ∧ F.secondaries.Nodup ∧ ∀ b, ¬(b ∈ F.primaries ∧ b ∈ F.secondaries)

/-- physics/barycentric_rotating_reference_frame_body.hpp:57-66: the gravitational parameters. -/
def gravitationalParameter (F : BarycentricRotating Body) (bodies : List Body) : ℝ := bodies.foldl (fun sum b => sum + F.ephemeris.gravitationalParameter b) 0

/-- The derivatives of the position of a body. -/
def bodyDerivative (F : BarycentricRotating Body) (degree : Fin 4) : Body → ℝ → R3 ℝ :=
  match degree with
  | 0 => F.ephemeris.position
  | 1 => F.ephemeris.velocity
  | 2 => F.ephemeris.accelerationOnMassiveBody
  | 3 => F.ephemeris.jerkOnMassiveBody

/-- physics/barycentric_rotating_reference_frame_body.hpp:284-351 (`BarycentreDerivative`, without the cache).  The positions and velocities that are passed by the callers
are those of the ephemeris at the same time, see lines 152 and 381. -/
def barycentreDerivative (F : BarycentricRotating Body) (bodies : List Body) (degree : Fin 4) (t : ℝ) : Option (R3 ℝ) :=
  barycentre (bodies.map fun b => (F.bodyDerivative degree b t, F.ephemeris.gravitationalParameter b))

/-- physics/barycentric_rotating_reference_frame_body.hpp:429-462 (`ToThisFrame`). -/
def toThisFrame (F : BarycentricRotating Body) (r₁ r₁' r₁'' r₂ r₂' r₂'' : R3 ℝ) : Option RigidMotion := do
  let (rotation, angularVelocity) ← computeAngularDegreesOfFreedom ⟨r₁, r₁'⟩ ⟨r₂, r₂'⟩ r₁'' r₂''
  let position ← barycentre [(r₁, F.gravitationalParameter F.primaries), (r₂, F.gravitationalParameter F.secondaries)]
  let velocity ← barycentre [(r₁', F.gravitationalParameter F.primaries), (r₂', F.gravitationalParameter F.secondaries)]
  return ⟨⟨position, 0, rotation.forgetOrthogonal⟩, angularVelocity, velocity⟩

/-- physics/barycentric_rotating_reference_frame_body.hpp:143-160 (`ToThisFrameAtTime`). -/
def toThisFrameAtTime (F : BarycentricRotating Body) (t : ℝ) : Option RigidMotion := do
  let r₁ ← F.barycentreDerivative F.primaries 0 t
  let r₁' ← F.barycentreDerivative F.primaries 1 t
  let r₁'' ← F.barycentreDerivative F.primaries 2 t
  let r₂ ← F.barycentreDerivative F.secondaries 0 t
  let r₂' ← F.barycentreDerivative F.secondaries 1 t
  let r₂'' ← F.barycentreDerivative F.secondaries 2 t
  F.toThisFrame r₁ r₁' r₁'' r₂ r₂' r₂''

/-- physics/barycentric_rotating_reference_frame_body.hpp:374-427 (`MotionOfThisFrame`). -/
def motionOfThisFrame (F : BarycentricRotating Body) (t : ℝ) : Option AcceleratedRigidMotion := do
  let r₁ ← F.barycentreDerivative F.primaries 0 t
  let r₁' ← F.barycentreDerivative F.primaries 1 t
  let r₁'' ← F.barycentreDerivative F.primaries 2 t
  let r₁''' ← F.barycentreDerivative F.primaries 3 t
  let r₂ ← F.barycentreDerivative F.secondaries 0 t
  let r₂' ← F.barycentreDerivative F.secondaries 1 t
  let r₂'' ← F.barycentreDerivative F.secondaries 2 t
  let r₂''' ← F.barycentreDerivative F.secondaries 3 t
  let toThisFrame ← F.toThisFrame r₁ r₁' r₁'' r₂ r₂' r₂''
  let angularAcceleration ← angularAccelerationOf (r₂ - r₁) (r₂' - r₁') (r₂'' - r₁'') (r₂''' - r₁''')
  let acceleration ← barycentre [(r₁'', F.gravitationalParameter F.primaries), (r₂'', F.gravitationalParameter F.secondaries)]
  return ⟨toThisFrame, angularAcceleration, acceleration⟩

/-- physics/barycentric_rotating_reference_frame_body.hpp:143-462 (`BarycentricRotatingReferenceFrame`). -/
def frame (F : BarycentricRotating Body) : RigidReferenceFrame where
  toThisFrameAtTime := F.toThisFrameAtTime
  motionOfThisFrame := F.motionOfThisFrame
  gravitationalAcceleration t q := F.ephemeris.accelerationOnMasslessBody q t
  gravitationalPotential t q := F.ephemeris.potential q t

end BarycentricRotating

/-! ## The rotating-pulsating frame -/

/-- physics/rotating_pulsating_reference_frame_body.hpp:23-257 (`RotatingPulsatingReferenceFrame`). -/
structure RotatingPulsating (Body : Type) where
  rotatingFrame : BarycentricRotating Body

namespace RotatingPulsating

/-- physics/rotating_pulsating_reference_frame_body.hpp:202-230 (`r_derivatives`), for the degree 2, of which the others are the beginning. -/
def rDerivatives (F : RotatingPulsating Body) (t : ℝ) : Option (ℝ × ℝ × ℝ) := do
  let R := F.rotatingFrame
  let u₁ ← R.barycentreDerivative R.primaries 0 t
  let u₂ ← R.barycentreDerivative R.secondaries 0 t
  let u := u₁ - u₂
  let r := u.norm
  let v₁ ← R.barycentreDerivative R.primaries 1 t
  let v₂ ← R.barycentreDerivative R.secondaries 1 t
  let v := v₁ - v₂
  let r' := u.dot v / r
  let γ₁ ← R.barycentreDerivative R.primaries 2 t
  let γ₂ ← R.barycentreDerivative R.secondaries 2 t
  let γ := γ₁ - γ₂
  let r'' := v.normSq / r + u.dot γ / r - r' ^ 2 / r
  return (r, r', r'')

/-- physics/rotating_pulsating_reference_frame_body.hpp:232-239 (`ToRotatingFrame`). -/
def toRotatingFrame (r r' : ℝ) : Option SimilarMotion := (Homothecy.make r).bind fun h => SimilarMotion.dilatationAboutOrigin h (r' / r)

/-- physics/rotating_pulsating_reference_frame_body.hpp:91-97 (`ToThisFrameAtTimeSimilarly`). -/
def toThisFrameAtTimeSimilarly (F : RotatingPulsating Body) (t : ℝ) : Option SimilarMotion := do
  let (r, r', _) ← F.rDerivatives t
  let toRotating ← toRotatingFrame r r'
  let fromRotating ← toRotating.inverse
  let rigid ← F.rotatingFrame.toThisFrameAtTime t
  let similar ← rigid.forget
  fromRotating.mul similar

/-- physics/rotating_pulsating_reference_frame_body.hpp:99-118 (`GeometricAcceleration`). -/
def geometricAcceleration (F : RotatingPulsating Body) (t : ℝ) (d : DegreesOfFreedom) : Option (R3 ℝ) := do
  let (r, r', r'') ← F.rDerivatives t
  let toRotating ← toRotatingFrame r r'
  let fromRotating ← toRotating.inverse
  let dR ← toRotating.apply d
  let aR ← F.rotatingFrame.frame.geometricAcceleration t dR
  let q := d.position - 0
  let a ← fromRotating.conformalMap.apply aR
  return (-r'' / r) • q - (2 * r' / r) • d.velocity + a

/-- physics/rotating_pulsating_reference_frame_body.hpp:120-137 (`RotationFreeGeometricAccelerationAtRest`). -/
def rotationFreeGeometricAccelerationAtRest (F : RotatingPulsating Body) (t : ℝ) (position : R3 ℝ) : Option (R3 ℝ) := do
  let (r, r', r'') ← F.rDerivatives t
  let toRotating ← toRotatingFrame r r'
  let fromRotating ← toRotating.inverse
  let p ← toRotating.similarity.applySimilarity position
  let aR ← F.rotatingFrame.frame.rotationFreeGeometricAccelerationAtRest t p
  let q := position - 0
  let a ← fromRotating.conformalMap.apply aR
  return (-r'' / r) • q + a

/-- physics/rotating_pulsating_reference_frame_body.hpp:139-154 (`GeometricPotential`). -/
def geometricPotential (F : RotatingPulsating Body) (t : ℝ) (position : R3 ℝ) : Option ℝ := do
  let (r, r', r'') ← F.rDerivatives t
  let toRotating ← toRotatingFrame r r'
  let p ← toRotating.similarity.applySimilarity position
  let vR ← F.rotatingFrame.frame.geometricPotential t p
  let q := position - 0
  return r'' * q.normSq / (2 * r) + vR / r ^ 2

end RotatingPulsating

end

/-! ## The cache of the barycentric frame -/

/-- physics/barycentric_rotating_reference_frame.hpp:113-119 (`CachedDerivatives`): for each degree, the time and the value of the last evaluation.  `none` is a time that is not a
number, as initially. -/
structure CachedDerivatives (Time Value : Type) where
  derivatives : Fin 4 → Value
  times : Fin 4 → Option Time

/-- physics/barycentric_rotating_reference_frame_body.hpp:269-357 (`BarycentreDerivative`), where `compute` is the computation of lines 284-354. -/
def cachedDerivative {Time Value : Type} [DecidableEq Time] (compute : Fin 4 → Time → Value) (cache : CachedDerivatives Time Value) (degree : Fin 4) (t : Time) :
    Value × CachedDerivatives Time Value :=
  if cache.times degree ≠ some t then
    let cache : CachedDerivatives Time Value :=
      ⟨fun d => if d = degree then compute degree t else cache.derivatives d, fun d => if d = degree then some t else cache.times d⟩
    (cache.derivatives degree, cache)
  else (cache.derivatives degree, cache)

end Principia.Physics.Frames
