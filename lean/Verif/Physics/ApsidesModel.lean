import Verif.Base.SortedMap
import Verif.Numerics.Hermite3Model
import Verif.Numerics.BrentModel

/-!
# Model of the computation of the apsides and of the nodes

physics/apsides_body.hpp: `ComputeApsides` and `ComputeNodes`.  The arithmetic is exact.  The instants are real numbers; the displacements and the velocities are the elements of a real inner product
space `E`, and the positions are identified with their displacements from the origin of the frame.  The trajectories are the functions that evaluate them.
-/

namespace Principia.Apsides

open Principia.SortedMap Principia.RootFinders

noncomputable section

/-- physics/degrees_of_freedom.hpp: a position and a velocity. -/
abbrev DegreesOfFreedom (E : Type) := E × E

/-- physics/trajectory.hpp. -/
structure Trajectory (E : Type) where
  tMin : ℝ
  tMax : ℝ
  eval : ℝ → DegreesOfFreedom E

/-- physics/discrete_trajectory_types.hpp: a point of a discrete trajectory. -/
structure Point (E : Type) where
  time : ℝ
  dof : DegreesOfFreedom E

/-- physics/apsides.hpp:33-34: a map ordered by time. -/
abbrev DistinguishedPoints (E : Type) := List (ℝ × DegreesOfFreedom E)

/-- How an execution of the body of a loop ends: it goes on to the next element, it exits the loop, or its behaviour is undefined or involves NaNs. -/
inductive Control (S : Type)
  | next (s : S)
  | exit (s : S)
  | undefined

/-- A range-based `for` loop. -/
def forLoop {S P : Type} (body : S → P → Control S) : List P → S → Option S
  | [], s => some s
  | p :: l, s =>
    match body s p with
    | .next s' => forLoop body l s'
    | .exit s' => some s'
    | .undefined => none

variable {E : Type} [NormedAddCommGroup E] [InnerProductSpace ℝ E]

/-! ### Apsides -/

/-- The variables of physics/apsides_body.hpp:65-69.  The optionals are always set together: they are the time, the squared distance and its derivative (the previous degrees of freedom are not
used). -/
structure ApsidesState (E : Type) where
  previous : Option (ℝ × ℝ × ℝ)
  apoapsides : DistinguishedPoints E
  periapsides : DistinguishedPoints E

/-- physics/apsides_body.hpp:85. -/
def squaredDistance (relative : DegreesOfFreedom E) : ℝ := inner ℝ relative.1 relative.1

/-- physics/apsides_body.hpp:87-88. -/
def squaredDistanceDerivative (relative : DegreesOfFreedom E) : ℝ := 2 * inner ℝ relative.1 relative.2

/-- physics/apsides_body.hpp:97-133: the time of the apsis, when the derivative changed sign.  The value assigned at lines 116-118 is overwritten at line 125.  The call `extrema.back()` has an undefined
behaviour if there are no extrema.  Extrema are always finite in exact arithmetic, as NaNs and infinities are not between the bounds. -/
def apsisTime (previous : ℝ × ℝ × ℝ) (time squaredDistance squaredDistanceDerivative : ℝ) : Option ℝ :=
  (Hermite3.make (previous.1, time) (previous.2.1, squaredDistance) (previous.2.2, squaredDistanceDerivative)).bind fun h => h.findExtrema.getLast?

open Classical in
/-- physics/apsides_body.hpp:73-156: the body of the loop.  A negative `max_points`, which is converted to a large unsigned number, is not modelled. -/
def apsidesBody (reference : Trajectory E) (trajectory : ℝ → DegreesOfFreedom E) (tMax : ℝ) (maxPoints : ℕ) (s : ApsidesState E) (p : Point E) : Control (ApsidesState E) :=
  if p.time < reference.tMin then .next s
  else if p.time > min tMax reference.tMax then .exit s
  else
    let relative := p.dof - reference.eval p.time
    let d := squaredDistance relative
    let d' := squaredDistanceDerivative relative
    match s.previous with
    | none => .next { s with previous := some (p.time, d, d') }
    | some previous =>
      if negative d' ≠ negative previous.2.2 then
        match apsisTime previous p.time d d' with
        | none => .undefined
        | some t =>
          let apoapsides := if negative d' then emplace s.apoapsides t (trajectory t) else s.apoapsides
          let periapsides := if negative d' then s.periapsides else emplace s.periapsides t (trajectory t)
          let s' : ApsidesState E := ⟨some (p.time, d, d'), apoapsides, periapsides⟩;
          if apoapsides.length ≥ maxPoints ∧ periapsides.length ≥ maxPoints then .exit s' else .next s'
      else .next { s with previous := some (p.time, d, d') }

/-- physics/apsides_body.hpp:56-157 `ComputeApsides`, given the points between `begin` and `end`, and empty maps. -/
def computeApsides (reference : Trajectory E) (trajectory : ℝ → DegreesOfFreedom E) (points : List (Point E)) (tMax : ℝ) (maxPoints : ℕ) :
    Option (DistinguishedPoints E × DistinguishedPoints E) :=
  (forLoop (apsidesBody reference trajectory tMax maxPoints) points ⟨none, [], []⟩).map fun s => (s.apoapsides, s.periapsides)

/-! ### Nodes -/

/-- The variables of physics/apsides_body.hpp:490-492, which are always set together: time, z, and its derivative; and the results. -/
structure NodesState (E : Type) where
  previous : Option (ℝ × ℝ × ℝ)
  ascending : DistinguishedPoints E
  descending : DistinguishedPoints E

open Classical in
/-- physics/apsides_body.hpp:507-529: the time of the node, when `z` changed sign.  `fuel` bounds the number of iterations of Brent's method. -/
def nodeTime (fuel : ℕ) (previous : ℝ × ℝ × ℝ) (time z zSpeed : ℝ) : Option ℝ :=
  (Hermite3.make (previous.1, time) (previous.2.1, z) (previous.2.2, zSpeed)).bind fun h =>
    if negative (h.eval previous.1) = negative (h.eval time) then
      -- geometry/barycentre_calculator_body.hpp.
      if z - previous.2.1 = 0 then none else some ((previous.1 * z + time * -previous.2.1) / (z + -previous.2.1))
    else
      match brent h.eval fuel previous.1 time with
      | .returned t => some t
      | _ => none

open Classical in
/-- physics/apsides_body.hpp:494-551: the body of the loop.  `zCoordinate` is the third coordinate, `north` the third coordinate of the argument of that name.  Interruption (`RETURN_IF_STOPPED`) is
modelled by giving fewer points. -/
def nodesBody (zCoordinate : E → ℝ) (fuel : ℕ) (trajectory : ℝ → DegreesOfFreedom E) (tMax north : ℝ) (maxPoints : ℕ) (predicate : DegreesOfFreedom E → Bool) (s : NodesState E) (p : Point E) :
    Control (NodesState E) :=
  if p.time > tMax then .exit s
  else
    let z := zCoordinate p.dof.1
    let zSpeed := zCoordinate p.dof.2
    match s.previous with
    | none => .next { s with previous := some (p.time, z, zSpeed) }
    | some previous =>
      if negative z ≠ negative previous.2.1 then
        match nodeTime fuel previous p.time z zSpeed with
        | none => .undefined
        | some t =>
          let dof := trajectory t
          if predicate dof then
            let up := negative north = negative zSpeed
            let ascending := if up then emplace s.ascending t dof else s.ascending
            let descending := if up then s.descending else emplace s.descending t dof
            let s' : NodesState E := ⟨some (p.time, z, zSpeed), ascending, descending⟩;
            if ascending.length ≥ maxPoints ∧ descending.length ≥ maxPoints then .exit s' else .next s'
          else .next { s with previous := some (p.time, z, zSpeed) }
      else .next { s with previous := some (p.time, z, zSpeed) }

/-- physics/apsides_body.hpp:473-553 `ComputeNodes`, given the points between `begin` and `end`, and empty maps. -/
def computeNodes (zCoordinate : E → ℝ) (fuel : ℕ) (trajectory : ℝ → DegreesOfFreedom E) (points : List (Point E)) (tMax north : ℝ) (maxPoints : ℕ) (predicate : DegreesOfFreedom E → Bool) :
    Option (DistinguishedPoints E × DistinguishedPoints E) :=
  (forLoop (nodesBody zCoordinate fuel trajectory tMax north maxPoints predicate) points ⟨none, [], []⟩).map fun s => (s.ascending, s.descending)

end

end Principia.Apsides
