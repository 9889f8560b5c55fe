import Verif.Physics.RigidMotionModel
import Verif.Geometry.FormsModel

/-!
A model of the mechanical systems of physics/mechanical_system_body.hpp.

Simplifications: as in `Verif.Physics.RigidMotionModel`.  The calculator of the barycentre of the degrees of freedom is the one of geometry/barycentre_calculator_body.hpp for
positions and velocities; the reference positions cancel in exact arithmetic and are taken to be the origin.  `none` is the failed check on an empty system, or the division by
a mass of zero.
-/

set_option linter.unusedSimpArgs false
set_option linter.unusedVariables false
set_option linter.unusedSectionVars false

namespace Principia.Physics.Mechanical

open Geometry Motion

/-- physics/mechanical_system.hpp:69-101: the data members of `MechanicalSystem`.  The first four are the `BarycentreCalculator`. -/
structure MechanicalSystem where
  empty : Bool
  weightedPosition : R3 ℝ
  weightedVelocity : R3 ℝ
  weight : ℝ
  bodyLinearMotions : List (DegreesOfFreedom × ℝ)
  sumOfIntrinsicAngularMomenta : R3 ℝ
  sumOfInertiaTensors : M3 ℝ

namespace MechanicalSystem

noncomputable section

/-- physics/mechanical_system.hpp:47 (the default constructor). -/
def init : MechanicalSystem := ⟨true, 0, 0, 0, [], 0, ⟨0, 0, 0⟩⟩

/-- geometry/barycentre_calculator_body.hpp:16-35 (`Add`). -/
def addWeight (s : MechanicalSystem) (d : DegreesOfFreedom) (mass : ℝ) : MechanicalSystem :=
  if s.empty then { s with empty := false, weightedPosition := mass • d.position, weightedVelocity := mass • d.velocity, weight := mass }
  else { s with weightedPosition := s.weightedPosition + mass • d.position
                weightedVelocity := s.weightedVelocity + mass • d.velocity
                weight := s.weight + mass }

/-- physics/mechanical_system_body.hpp:18-35 (`AddRigidBody`). -/
def addRigidBody (s : MechanicalSystem) (motion : RigidMotion) (mass : ℝ) (tensors : M3 ℝ) : MechanicalSystem :=
  let degreesOfFreedom := motion.apply ⟨0, 0⟩
  let inertiaTensorInInertialAxes := motion.orthogonalMap.applyForm (Form.anticommutatorInverse tensors)
  let s := s.addWeight degreesOfFreedom mass
  { s with bodyLinearMotions := s.bodyLinearMotions ++ [(degreesOfFreedom, mass)]
           sumOfInertiaTensors := s.sumOfInertiaTensors + inertiaTensorInInertialAxes
           sumOfIntrinsicAngularMomenta :=
             s.sumOfIntrinsicAngularMomenta + Form.anticommutatorWith inertiaTensorInInertialAxes motion.angularVelocityOfFromFrame }

/-- physics/mechanical_system_body.hpp:55-59 (`centre_of_mass`), and geometry/barycentre_calculator_body.hpp:37-46 (`Get`). -/
def centreOfMass (s : MechanicalSystem) : Option DegreesOfFreedom :=
  if s.empty then none else if s.weight = 0 then none else some ⟨s.weightedPosition.div s.weight, s.weightedVelocity.div s.weight⟩

/-- physics/mechanical_system_body.hpp:37-48 (`LinearMotion`). -/
def linearMotion (s : MechanicalSystem) : Option RigidMotion :=
  s.centreOfMass.map fun c => RigidMotion.ofFromFrame ⟨0, c.position, .identity⟩ 0 c.velocity

/-- physics/mechanical_system_body.hpp:50-53 (`mass`). -/
def mass (s : MechanicalSystem) : ℝ := s.weight

/-- physics/mechanical_system_body.hpp:61-79 (`AngularMomentum`). -/
def angularMomentum (s : MechanicalSystem) : Option (R3 ℝ) :=
  s.linearMotion.map fun linearMotion =>
    let toSystemFrame := linearMotion.inverse
    s.bodyLinearMotions.foldl
      (fun result x =>
        let d := toSystemFrame.apply x.1
        let r := d.position - 0
        let v := d.velocity
        let p := x.2 • v
        result + wedge r p)
      (toSystemFrame.orthogonalMap.applyBivector s.sumOfIntrinsicAngularMomenta)

/-- physics/mechanical_system_body.hpp:81-96 (`InertiaTensor`). -/
def inertiaTensor (s : MechanicalSystem) : Option (M3 ℝ) :=
  s.linearMotion.map fun linearMotion =>
    let toSystemFrame := linearMotion.inverse
    Form.anticommutator
      (s.bodyLinearMotions.foldl
        (fun result x =>
          let d := toSystemFrame.apply x.1
          let r := d.position - 0
          result + x.2 • Form.symmetricSquare r)
        (toSystemFrame.orthogonalMap.applyForm s.sumOfInertiaTensors))

end

end MechanicalSystem

end Principia.Physics.Mechanical
