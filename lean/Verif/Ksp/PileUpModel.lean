import Verif.Physics.MechanicalSystemModel
import Verif.Physics.EulerSolverModel

/-!
A model of a pile-up, ksp_plugin/pile_up.cpp, and of the part of ksp_plugin/part.cpp that it uses.

Simplifications: exact real arithmetic, as in the models of the rigid motions, mechanical systems, symmetric bilinear forms and Euler solver, which this one uses.  The parts are
identified by natural numbers and live in a world, which maps the numbers to the parts.  The maps from parts to motions are lists of pairs, iterated over in the order of
insertion; the code iterates in the order of the addresses, which is arbitrary.  The frames `Barycentric`, `NonRotatingPileUp`, `Apparent` and `ApparentPileUp` all have the same
axes, and the identity maps between them disappear.  The trajectory of a pile-up, which has two segments that share a point, is modelled by its history and by the points of the
psychohistory after that one.  The integrators, which are functions of the ephemeris, and Davenport's method are parameters.  The mutex is not modelled: the functions run one at
a time.  The serialization is not modelled.  `none` is a failed check, undefined behaviour, or a division by zero.
-/

set_option linter.unusedSimpArgs false
set_option linter.unusedVariables false
set_option linter.unusedSectionVars false

namespace Principia.Ksp.PileUp

open Geometry Physics.Motion Physics.Mechanical Physics.Euler

noncomputable section

/-- physics/discrete_trajectory_types.hpp:27-29: a point of a `Timeline`. -/
structure Point where
  time : ℝ
  state : DegreesOfFreedom

open Classical in
/-- physics/discrete_trajectory_segment_body.hpp:413-466 (`Append`), without downsampling. -/
def append (l : List Point) (p : Point) : Option (List Point) :=
  match l.head?, l.getLast? with
  | some first, some last => if first.time = p.time then some l else if last.time < p.time then some (l ++ [p]) else none
  | _, _ => some [p]

/-- Successive calls to `Append`. -/
def appendAll : List Point → List Point → Option (List Point)
  | l, [] => some l
  | l, p :: ps => (append l p).bind (appendAll · ps)

/-! ## Parts -/

/-- ksp_plugin/part.hpp:186-224: some of the data members of `Part`.  The trajectory is given by its history and psychohistory segments. -/
structure Part where
  mass : ℝ
  massChange : ℝ
  isSolidRocketMotor : Bool
  inertiaTensor : M3 ℝ
  intrinsicForce : R3 ℝ
  intrinsicTorque : R3 ℝ
  rigidMotion : RigidMotion
  history : List Point
  psychohistory : Option (List Point)

namespace Part

/-- ksp_plugin/part.cpp:85-88 (`set_mass`). -/
def setMass (p : Part) (mass : ℝ) : Part := { p with massChange := mass - p.mass, mass := mass }

/-- ksp_plugin/part.cpp:122-124 and 135-137 (`clear_intrinsic_force`, `clear_intrinsic_torque`). -/
def clearIntrinsicForceAndTorque (p : Part) : Part := { p with intrinsicForce := 0, intrinsicTorque := 0 }

/-- ksp_plugin/part.cpp:126-129, 139-142 and 148-153 (`apply_intrinsic_force`, `apply_intrinsic_torque`, `ApplyIntrinsicForceWithLeverArm`). -/
def applyIntrinsicForceWithLeverArm (p : Part) (force leverArm : R3 ℝ) : Part :=
  { p with intrinsicForce := p.intrinsicForce + force, intrinsicTorque := p.intrinsicTorque + wedge leverArm force }

/-- ksp_plugin/part.cpp:188-195 (`AppendToHistory`). -/
def appendToHistory (p : Part) (point : Point) : Option Part :=
  (append p.history point).map fun h => { p with history := h, psychohistory := none }

open Classical in
/-- ksp_plugin/part.cpp:197-204 (`AppendToPsychohistory`), with physics/discrete_trajectory_body.hpp:362-388 (`Append`): the segment is the one that contains the time of the
point.  A new segment starts with the last point of the previous one. -/
def appendToPsychohistory (p : Part) (point : Point) : Option Part :=
  let segment := p.psychohistory.getD p.history.getLast?.toList
  match segment.head? with
  | none => (append segment point).map fun s => { p with psychohistory := some s }
  | some first =>
    if point.time < first.time then (append p.history point).map fun h => { p with history := h, psychohistory := some segment }
    else (append segment point).map fun s => { p with psychohistory := some s }

/-- ksp_plugin/part.cpp:206-209 (`ClearHistory`). -/
def clearHistory (p : Part) : Part := { p with history := [], psychohistory := none }

end Part

/-- The parts. -/
abbrev World := ℕ → Part

/-! ## Maps -/

/-- ksp_plugin/identification.hpp:45-48: `PartTo`. -/
abbrev PartTo (α : Type) := List (ℕ × α)

namespace PartTo

variable {α : Type}

/-- `std::map::find`. -/
def find (m : PartTo α) (p : ℕ) : Option α := (m.find? fun x => x.1 = p).map (·.2)

/-- `std::map::emplace`, which does nothing if the key is present. -/
def emplace (m : PartTo α) (p : ℕ) (a : α) : PartTo α := if (m.find p).isSome then m else m ++ [(p, a)]

end PartTo

/-! ## Pile-ups -/

/-- What the ephemeris and Davenport's method compute, and the contents of uninitialized matrices.  `ι` is the type of the instances of the fixed-step integrator. -/
structure Env (ι : Type) where
  /-- numerics/davenport_q_method_body.hpp:26-86 (`DavenportQMethod`). -/
  davenport : List (R3 ℝ) → List (R3 ℝ) → List ℝ → Rotation ℝ
  /-- physics/ephemeris_body.hpp: `NewInstance`, for a trajectory that ends at the given point. -/
  newInstance : Point → ι
  /-- physics/ephemeris_body.hpp: `FlowWithFixedStep`: the points appended to the trajectory, the new state of the instance and whether the status is OK. -/
  flowFixed : ℝ → ι → List Point × ι × Bool
  /-- physics/ephemeris_body.hpp: `FlowWithAdaptiveStep`, with the given intrinsic acceleration and from the given point: the points appended to the trajectory and whether the
  status is OK. -/
  flowAdaptive : R3 ℝ → ℝ → Point → List Point × Bool
  /-- The uninitialized matrices of the resolution of a linear system. -/
  L : M3 ℝ
  U : M3 ℝ

/-- ksp_plugin/pile_up.hpp:190-241: the data members of `PileUp`. -/
structure PileUp (ι : Type) where
  parts : List ℕ
  mass : ℝ
  intrinsicForce : R3 ℝ
  intrinsicTorque : R3 ℝ
  angularMomentumChange : R3 ℝ
  history : List Point
  psychohistory : List Point
  angularMomentum : R3 ℝ
  fixedInstance : Option ι
  actual : PartTo RigidMotion
  apparent : PartTo RigidMotion
  rigidPileUp : PartTo RigidTransformation
  eulerSolver : Option EulerSolver

variable {ι : Type}

namespace PileUp

/-- The last point of the psychohistory, which is the last point of the history if the psychohistory has no other point. -/
def back (u : PileUp ι) : Option Point := (u.history ++ u.psychohistory).getLast?

/-- ksp_plugin/pile_up.cpp:410-429 (`MakeEulerSolver`). -/
def makeEulerSolver (u : PileUp ι) (inertiaTensor : M3 ℝ) (t : ℝ) : Option (PileUp ι) :=
  (Form.diagonalize inertiaTensor).bind fun eigensystem =>
    (Physics.Euler.make eigensystem.1 u.angularMomentum eigensystem.2 t).map fun solver =>
      let toPrincipalAxes : RigidTransformation := ⟨0, 0, eigensystem.2.inverse.forgetOrthogonal⟩;
      { u with
        eulerSolver := some solver
        rigidPileUp := u.actual.foldl (fun m x => m.emplace x.1 (toPrincipalAxes.mul x.2.rigidTransformation)) [] }

/-- ksp_plugin/pile_up.cpp:129-158: an iteration of the loop of `RecomputeFromParts`. -/
def recomputeFromPart (w : World) (u : PileUp ι) (part : ℕ) : Option (PileUp ι) :=
  (u.actual.find part).bind fun partMotion =>
    let p := w part;
    let dof := partMotion.apply ⟨0, 0⟩;
    let angularVelocity := partMotion.angularVelocityOfFromFrame;
    let inertiaTensor := partMotion.orthogonalMap.applyForm p.inertiaTensor;
    let u := { u with
      mass := u.mass + p.mass
      intrinsicForce := u.intrinsicForce + p.intrinsicForce
      intrinsicTorque := u.intrinsicTorque + (wedge (dof.position - 0) p.intrinsicForce + p.intrinsicTorque) };
    if p.isSolidRocketMotor then
      if p.mass = 0 then none
      else some { u with
        angularMomentumChange := u.angularMomentumChange +
          (wedge (dof.position - 0) (p.massChange • dof.velocity) + (p.massChange / p.mass) • inertiaTensor.mulVec angularVelocity) }
    else some u

/-- ksp_plugin/pile_up.cpp:122-159 (`RecomputeFromParts`). -/
def recomputeFromParts (w : World) (u : PileUp ι) : Option (PileUp ι) :=
  u.parts.foldlM (recomputeFromPart w) { u with mass := 0, intrinsicForce := 0, intrinsicTorque := 0, angularMomentumChange := 0 }

/-- ksp_plugin/pile_up.cpp:63-67: the mechanical system made of the given parts. -/
def systemOfParts (w : World) (parts : List ℕ) : MechanicalSystem :=
  parts.foldl (fun s p => s.addRigidBody (w p).rigidMotion (w p).mass (w p).inertiaTensor) .init

/-- ksp_plugin/pile_up.cpp:48-84: the constructor. -/
def make (w : World) (parts : List ℕ) (t : ℝ) : Option (PileUp ι) :=
  let system := systemOfParts w parts;
  system.centreOfMass.bind fun barycentre =>
    system.angularMomentum.bind fun angularMomentum =>
      system.linearMotion.bind fun linearMotion =>
        system.inertiaTensor.bind fun inertiaTensor =>
          let toPileUp := linearMotion.inverse;
          let u : PileUp ι :=
            { parts := parts, mass := 0, intrinsicForce := 0, intrinsicTorque := 0, angularMomentumChange := 0
              history := [⟨t, barycentre⟩], psychohistory := [], angularMomentum := angularMomentum, fixedInstance := none
              actual := parts.foldl (fun m p => m.emplace p (toPileUp.mul (w p).rigidMotion)) []
              apparent := [], rigidPileUp := [], eulerSolver := none };
          (u.makeEulerSolver inertiaTensor t).bind (recomputeFromParts w)

/-- ksp_plugin/pile_up.cpp:102-109 (`SetPartApparentRigidMotion`). -/
def setPartApparentRigidMotion (u : PileUp ι) (part : ℕ) (motion : RigidMotion) : Option (PileUp ι) :=
  if (u.apparent.find part).isSome then none else some { u with apparent := u.apparent.emplace part motion }

/-- ksp_plugin/pile_up.cpp:433-444: the pile-up is rigid. -/
def warp (u : PileUp ι) (t : ℝ) : Option (PileUp ι) :=
  u.eulerSolver.bind fun solver =>
    (solver.motionAt t ⟨0, 0⟩).bind fun pileUpMotion =>
      (u.actual.mapM fun x => (u.rigidPileUp.find x.1).map fun rigid => (x.1, pileUpMotion.mul ⟨rigid, 0, 0⟩)).map fun actual => { u with actual := actual }

/-- ksp_plugin/pile_up.cpp:487-501: the directions of the axes of the parts, given their motions. -/
def directions (parts : List ℕ) (motions : PartTo RigidMotion) : Option (List (R3 ℝ)) :=
  parts.foldlM (fun result part =>
    (motions.find part).map fun m =>
      result ++ [m.orthogonalMap.apply ⟨1, 0, 0⟩, m.orthogonalMap.apply ⟨0, 1, 0⟩, m.orthogonalMap.apply ⟨0, 0, 1⟩]) []

/-- ksp_plugin/pile_up.cpp:498-500: the weights of the directions. -/
def weights (w : World) (parts : List ℕ) : List ℝ := parts.flatMap fun part => [(w part).mass, (w part).mass, (w part).mass]

/-- ksp_plugin/pile_up.cpp:459-464: the mechanical system made of the parts with their apparent motions. -/
def systemOfApparent (w : World) (apparent : PartTo RigidMotion) : MechanicalSystem :=
  apparent.foldl (fun s x => s.addRigidBody x.2 (w x.1).mass (w x.1).inertiaTensor) .init

/-- ksp_plugin/pile_up.cpp:446-569: the parts have apparent motions. -/
def deform (env : Env ι) (w : World) (u : PileUp ι) (t : ℝ) : Option (PileUp ι) :=
  if u.parts.length = u.apparent.length ∧ ∀ part ∈ u.parts, (u.apparent.find part).isSome then
    u.back.bind fun back =>
      let t₀ := back.time;
      let Δt := t - t₀;
      let system := systemOfApparent w u.apparent;
      system.angularMomentum.bind fun apparentAngularMomentum =>
        system.inertiaTensor.bind fun apparentInertiaTensor =>
          (Form.diagonalize apparentInertiaTensor).bind fun eigensystem =>
            system.linearMotion.bind fun linearMotion =>
              (directions u.parts u.apparent).bind fun apparentDirections =>
                (directions u.parts u.actual).bind fun actualDirections =>
                  let apparentAttitude := eigensystem.2;
                  let davenport := env.davenport actualDirections apparentDirections (weights w u.parts);
                  let initialAttitude := (davenport.inverse.mul linearMotion.orthogonalMap.makeRotation).mul apparentAttitude;
                  initialAttitude.quaternion.normalize.bind fun quaternion =>
                    let angularMomentum := u.angularMomentum + (Δt • u.intrinsicTorque + u.angularMomentumChange);
                    (Physics.Euler.make eigensystem.1 angularMomentum ⟨quaternion⟩ t₀).bind fun solver =>
                      (solver.motionAt t ⟨0, 0⟩).bind fun actualPileUpMotion =>
                        match Form.divide env.L env.U apparentAngularMomentum apparentInertiaTensor with
                        | .error _ => none
                        | .ok apparentAngularVelocity =>
                          let apparentPileUpMotion := RigidMotion.ofFromFrame ⟨0, 0, apparentAttitude.forgetOrthogonal⟩ apparentAngularVelocity 0;
                          let rotationalCorrection := actualPileUpMotion.mul apparentPileUpMotion.inverse;
                          let correction := rotationalCorrection.mul linearMotion.inverse;
                          some { u with
                            angularMomentum := angularMomentum
                            eulerSolver := some solver
                            actual := u.apparent.foldl (fun m x => m.emplace x.1 (correction.mul x.2)) []
                            rigidPileUp := u.apparent.foldl (fun m x =>
                              m.emplace x.1 (actualPileUpMotion.rigidTransformation.inverse.mul (correction.mul x.2).rigidTransformation)) []
                            apparent := [] }
  else none

/-- ksp_plugin/pile_up.cpp:431-570 (`DeformPileUpIfNeeded`). -/
def deformPileUpIfNeeded (env : Env ι) (w : World) (u : PileUp ι) (t : ℝ) : Option (PileUp ι) :=
  if u.apparent.isEmpty then u.warp t else u.deform env w t

/-- ksp_plugin/pile_up.cpp:643-650 and 661-668: the motion from the frame of the pile-up to the barycentric frame when the centre of mass of the pile-up is at a point. -/
def toBarycentric (c : DegreesOfFreedom) : RigidMotion := RigidMotion.inverse ⟨⟨c.position, 0, .identity⟩, 0, c.velocity⟩

/-- ksp_plugin/pile_up.cpp:658-677 (`AppendToPart`). -/
def appendToPart (f : Part → Point → Option Part) (u : PileUp ι) (w : World) (it : Point) : Option World :=
  u.parts.foldlM (fun w part =>
    (u.actual.find part).bind fun motion =>
      (f (w part) ⟨it.time, (toBarycentric it.state).apply (motion.apply ⟨0, 0⟩)⟩).map fun p => Function.update w part p) w

open Classical in
/-- ksp_plugin/pile_up.cpp:573-620: the trajectory of the pile-up. -/
def advanceTrajectory (env : Env ι) (u : PileUp ι) (t : ℝ) : Option (PileUp ι × Bool) :=
  if u.intrinsicForce = 0 then
    u.history.getLast?.bind fun last =>
      let fixedInstance := u.fixedInstance.getD (env.newInstance last);
      if last.time < t then
        let fixed := env.flowFixed t fixedInstance;
        (appendAll u.history fixed.1).bind fun history =>
          history.getLast?.bind fun last =>
            if last.time < t then
              let adaptive := env.flowAdaptive 0 t last;
              (appendAll [last] adaptive.1).map fun segment =>
                ({ u with fixedInstance := some fixed.2.1, history := history, psychohistory := segment.tail }, fixed.2.2 && adaptive.2)
            else some ({ u with fixedInstance := some fixed.2.1, history := history, psychohistory := [] }, fixed.2.2)
      else none
  else if u.mass = 0 then none
  else
    (appendAll u.history u.psychohistory).bind fun history =>
      history.getLast?.bind fun last =>
        let adaptive := env.flowAdaptive (u.intrinsicForce.div u.mass) t last;
        (appendAll history adaptive.1).map fun history =>
          ({ u with fixedInstance := none, history := history, psychohistory := [] }, adaptive.2)

open Classical in
/-- ksp_plugin/pile_up.cpp:572-638 (`AdvanceTime`). -/
def advanceTime (env : Env ι) (w : World) (u : PileUp ι) (t : ℝ) : Option (World × PileUp ι × Bool) :=
  u.history.getLast?.bind fun historyLast =>
    (u.advanceTrajectory env t).bind fun result =>
      let u := result.1;
      ((u.history.filter fun p => historyLast.time < p.time).foldlM (appendToPart Part.appendToHistory u) w).bind fun w =>
        (u.psychohistory.foldlM (appendToPart Part.appendToPsychohistory u) w).bind fun w =>
          u.history.getLast?.map fun front =>
            (w, { u with history := u.history.filter fun p => front.time ≤ p.time }, result.2)

/-- ksp_plugin/pile_up.cpp:640-656 (`NudgeParts`). -/
def nudgeParts (u : PileUp ι) (w : World) : Option World :=
  u.back.bind fun centreOfMass =>
    u.parts.foldlM (fun w part =>
      (u.actual.find part).map fun motion =>
        Function.update w part { w part with rigidMotion := (toBarycentric centreOfMass.state).mul motion }) w

open Classical in
/-- ksp_plugin/pile_up.cpp:111-120 (`DeformAndAdvanceTime`). -/
def deformAndAdvanceTime (env : Env ι) (w : World) (u : PileUp ι) (t : ℝ) : Option (World × PileUp ι × Bool) :=
  u.back.bind fun back =>
    if back.time < t then
      (u.deformPileUpIfNeeded env w t).bind fun u =>
        (u.advanceTime env w t).bind fun result =>
          (result.2.1.nudgeParts result.1).map fun w => (w, result.2.1, result.2.2)
    else some (w, u, true)

end PileUp

end

end Principia.Ksp.PileUp
