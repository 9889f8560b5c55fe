import Verif.Physics.RigidMotionModel

/-!
A model of the similar motions of physics/similar_motion_body.hpp.

Simplifications: as in `Verif.Physics.RigidMotionModel`.  `none` is a failed check, that of the positivity of the scale of a conformal map.
-/

set_option linter.unusedSimpArgs false
set_option linter.unusedVariables false
set_option linter.unusedSectionVars false

namespace Principia.Physics.Motion

open Geometry

/-- geometry/space_transformations.hpp:27-29: `Similarity`. -/
abbrev Similarity := Geometry.AffineMap ConformalMap

/-- physics/similar_motion.hpp:46-104: `SimilarMotion`. -/
@[ext]
structure SimilarMotion where
  similarity : Similarity
  angularVelocityOfToFrame : R3 ℝ
  velocityOfToFrameOrigin : R3 ℝ
  dilatationRateOfToFrame : ℝ

namespace SimilarMotion

noncomputable section

/-- physics/similar_motion_body.hpp:22-26 (`conformal_map`). -/
def conformalMap (m : SimilarMotion) : ConformalMap := m.similarity.linearMap

/-- physics/similar_motion_body.hpp:28-41 (`angular_velocity_of`), for the source frame. -/
def angularVelocityOfFromFrame (m : SimilarMotion) : Option (R3 ℝ) := (m.similarity.linearMap.applyAngularVelocity m.angularVelocityOfToFrame).map (-·)

/-- physics/similar_motion_body.hpp:57-67 (`operator()`). -/
def apply (m : SimilarMotion) (d : DegreesOfFreedom) : Option DegreesOfFreedom := do
  let position ← m.similarity.applySimilarity d.position
  let ω ← m.angularVelocityOfFromFrame
  let v ← m.conformalMap.apply (d.velocity - m.velocityOfToFrameOrigin)
  return ⟨position, m.dilatationRateOfToFrame • (position - 0) + bivectorTimesVector ω (position - 0) + v⟩

/-- physics/similar_motion_body.hpp:43-55 (`velocity_of_origin_of`), for the source frame. -/
def velocityOfFromFrameOrigin (m : SimilarMotion) : Option (R3 ℝ) := (m.apply ⟨0, 0⟩).map DegreesOfFreedom.velocity

/-- physics/similar_motion_body.hpp:69-76 (`Inverse`). -/
def inverse (m : SimilarMotion) : Option SimilarMotion := do
  let similarity ← m.similarity.inverseSimilarity
  let ω ← m.angularVelocityOfFromFrame
  let v ← m.velocityOfFromFrameOrigin
  return ⟨similarity, ω, v, -m.dilatationRateOfToFrame⟩

/-- physics/similar_motion_body.hpp:78-90 (`DilatationAboutOrigin`). -/
def dilatationAboutOrigin (h : Homothecy) (dilatationRate : ℝ) : Option SimilarMotion := do
  let l ← h.forgetConformal
  return ⟨⟨0, 0, l⟩, 0, 0, dilatationRate⟩

/-- physics/similar_motion_body.hpp:92-101 (`Identity`). -/
def identity : Option SimilarMotion := do
  let l ← ConformalMap.identity
  return ⟨⟨0, 0, l⟩, 0, 0, 0⟩

/-- physics/similar_motion_body.hpp:114-125 (`operator*`). -/
def mul (left right : SimilarMotion) : Option SimilarMotion := do
  let similarity ← left.similarity.mulSimilarity right.similarity
  let rightInverse ← right.conformalMap.inverse
  let ω ← rightInverse.applyAngularVelocity left.angularVelocityOfToFrame
  let l ← left.inverse
  let r ← right.inverse
  let origin ← (l.apply ⟨0, 0⟩).bind r.apply
  return ⟨similarity, right.angularVelocityOfToFrame + ω, origin.velocity, left.dilatationRateOfToFrame + right.dilatationRateOfToFrame⟩

end

end SimilarMotion

/-- physics/rigid_motion_body.hpp:104-113 (`Forget`). -/
noncomputable def RigidMotion.forget (m : RigidMotion) : Option SimilarMotion :=
  m.rigidTransformation.forget.map fun s => ⟨s, m.angularVelocityOfToFrame, m.velocityOfToFrameOrigin, 0⟩

end Principia.Physics.Motion
