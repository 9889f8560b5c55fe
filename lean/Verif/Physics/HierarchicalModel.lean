import Verif.Geometry.BarycentreModel
import Mathlib.Order.Defs.LinearOrder

/-!
A model of physics/jacobi_coordinates_body.hpp and physics/hierarchical_system_body.hpp.

Simplifications: exact arithmetic over a field `K`; the degrees of freedom (a position and a velocity) with respect to some origin, and the relative
degrees of freedom, are elements of a vector space `V`, and the frames are forgotten; the origin, at rest, is 0.  The construction of a `KeplerOrbit`
and its evaluation at its epoch are a parameter `kepler`, which is given the gravitational parameters of the primary and of the secondary and the
elements, and which may fail.  `std::sort` is a parameter: it is not stable, so its result is not determined by its specification.
-/

set_option linter.unusedVariables false

namespace Principia.Physics.Hierarchical

open Principia.Geometry.Barycentre

/-! ## Jacobi coordinates -/

section

variable {K V E : Type} [Field K] [DecidableEq K] [AddCommGroup V] [Module K V]

/-- physics/jacobi_coordinates.hpp:69-77 (`JacobiCoordinates`). -/
structure Jacobi (K V : Type) where
  primocentric : List V
  barycentre : Calculator K V

namespace Jacobi

/-- physics/jacobi_coordinates_body.hpp:16-23 (the constructor), for the gravitational parameter of the primary. -/
def init (primary : K) : Jacobi K V := ⟨[0], (Calculator.init).addPoint (0 : V) (0 : V) primary⟩

/-- physics/jacobi_coordinates_body.hpp:25-33 (`Add`). -/
def add (j : Jacobi K V) (body : K) (relative : V) : Option (Jacobi K V) :=
  match j.barycentre.getPoint (0 : V) with
  | .error _ => none
  | .ok b => some ⟨j.primocentric ++ [b + relative], j.barycentre.addPoint (0 : V) (b + relative) body⟩

/-- physics/jacobi_coordinates_body.hpp:47-51 (`System`). -/
def system (j : Jacobi K V) : K := j.barycentre.weight

/-- physics/jacobi_coordinates_body.hpp:35-45 (`Add`). -/
def addElements (kepler : K → K → E → Option V) (j : Jacobi K V) (body : K) (elements : E) : Option (Jacobi K V) :=
  match kepler j.system body elements with
  | none => none
  | some relative => j.add body relative

/-- physics/jacobi_coordinates_body.hpp:53-64 (`BarycentricDegreesOfFreedom`). -/
def barycentric (j : Jacobi K V) : Option (List V) :=
  match j.barycentre.getPoint (0 : V) with
  | .error _ => none
  | .ok b => some (j.primocentric.map fun x => x - b)

end Jacobi

end

/-! ## Hierarchical systems -/

/-- physics/hierarchical_system.hpp:60-80 (`System` and `Subsystem`).  The elements of the system that has no parent are not used. -/
inductive System (E B : Type) where
  | mk (elements : E) (primary : B) (satellites : List (System E B))

namespace System

variable {E B : Type}

/-- physics/hierarchical_system.hpp:79. -/
def elements : System E B → E | ⟨e, _, _⟩ => e

/-- physics/hierarchical_system.hpp:67. -/
def primary : System E B → B | ⟨_, p, _⟩ => p

/-- physics/hierarchical_system.hpp:68. -/
def satellites : System E B → List (System E B) | ⟨_, _, s⟩ => s

mutual

/-- physics/hierarchical_system_body.hpp:34: whether `systems_` has an entry for a body.  The bodies are identified by their addresses, here by
their values. -/
def contains [DecidableEq B] (body : B) : System E B → Bool
  | ⟨_, p, s⟩ => p == body || containsAll body s

/-- See `contains`. -/
def containsAll [DecidableEq B] (body : B) : List (System E B) → Bool
  | [] => false
  | s :: l => contains body s || containsAll body l

end

mutual

/-- physics/hierarchical_system_body.hpp:35-36: appends a subsystem to the satellites of a body. -/
def insertAt [DecidableEq B] (parent : B) (subsystem : System E B) : System E B → System E B
  | ⟨e, p, s⟩ => ⟨e, p, if p = parent then insertAtAll parent subsystem s ++ [subsystem] else insertAtAll parent subsystem s⟩

/-- See `insertAt`. -/
def insertAtAll [DecidableEq B] (parent : B) (subsystem : System E B) : List (System E B) → List (System E B)
  | [] => []
  | s :: l => insertAt parent subsystem s :: insertAtAll parent subsystem l

end

/-- physics/hierarchical_system_body.hpp:28-45 (`Add`): a null pointer is dereferenced if the parent was not inserted. -/
def add [DecidableEq B] (s : System E B) (body parent : B) (elements : E) : Option (System E B) :=
  if s.contains parent then some (insertAt parent ⟨elements, body, []⟩ s) else none

end System

/-- The elements that give the size of an orbit, physics/kepler_orbit.hpp (`KeplerianElements`): valid arguments of `KeplerOrbit` have at most one of
them.  `other` is any of the elements not used by the comparison. -/
inductive Size (K : Type) where
  | semimajorAxis (a : K)
  | meanMotion (n : K)
  | period (T : K)
  | other

/-- physics/hierarchical_system_body.hpp:77-105 (`semimajor_axis_less_than`); `none` for `LOG(FATAL)`. -/
def Size.less {K : Type} [LinearOrder K] : Size K → Size K → Option Bool
  | .semimajorAxis a, .semimajorAxis a' => some (a < a')
  | .meanMotion n, .meanMotion n' => some (n > n')
  | .period T, .period T' => some (T < T')
  | _, _ => none

/-- The type of `std::sort`. -/
abbrev Sorter : Type 1 := ∀ α : Type, (α → α → Bool) → List α → List α

/-- physics/hierarchical_system_body.hpp:107-109 (the call to `std::sort`).  Any sorting algorithm compares elements that are next to each other in the
result, so that it fails if some elements cannot be compared; there is no comparison if there is at most one element. -/
def sortSatellites {K E α : Type} [LinearOrder K] (size : E → Size K) (sort : Sorter) (l : List (E × α)) : Option (List (E × α)) :=
  if l.length ≤ 1 then some l
  else if l.all fun x => l.all fun y => ((size x.1).less (size y.1)).isSome then
    some (sort _ (fun x y => ((size x.1).less (size y.1)).getD false) l)
  else none

/-- physics/hierarchical_system.hpp:83-92 (`BarycentricSubsystem`), with the gravitational parameter of the equivalent body. -/
structure Subsystem (K V B : Type) where
  equivalent : K
  bodies : List B
  degreesOfFreedom : List V

section

variable {K V E B : Type} [Field K] [LinearOrder K] [AddCommGroup V] [Module K V]

/-- physics/hierarchical_system_body.hpp:133-143: the Jacobi coordinates. -/
def jacobiCoordinates (kepler : K → K → E → Option V) (j : Jacobi K V) : List (E × Subsystem K V B) → Option (Jacobi K V)
  | [] => some j
  | (e, s) :: l => (j.addElements kepler s.equivalent e).bind fun j => jacobiCoordinates kepler j l

/-- physics/hierarchical_system_body.hpp:111-181: the part of `ToBarycentric` after the sort, where the satellites have already been converted. -/
def combine (μ : B → K) (kepler : K → K → E → Option V) (primary : B) (l : List (E × Subsystem K V B)) : Option (Subsystem K V B) :=
  match jacobiCoordinates kepler (Jacobi.init (μ primary)) l with
  | none => none
  | some j =>
    match j.barycentric with
    | some (b :: bs) =>
      some ⟨j.system, primary :: l.flatMap fun x => x.2.bodies,
        b :: (bs.zip l).flatMap fun x => x.2.2.degreesOfFreedom.map fun y => x.1 + y⟩
    | _ => none

mutual

/-- physics/hierarchical_system_body.hpp:73-181 (`ToBarycentric`).  In the code the satellites are sorted before they are converted; the conversion of
each of them does not depend on the others. -/
def toBarycentric (μ : B → K) (size : E → Size K) (sort : Sorter) (kepler : K → K → E → Option V) : System E B → Option (Subsystem K V B)
  | ⟨_, p, satellites⟩ =>
    (toBarycentricAll μ size sort kepler satellites).bind fun l => (sortSatellites size sort l).bind fun l => combine μ kepler p l

/-- The recursive calls of `ToBarycentric`, physics/hierarchical_system_body.hpp:134-135. -/
def toBarycentricAll (μ : B → K) (size : E → Size K) (sort : Sorter) (kepler : K → K → E → Option V) :
    List (System E B) → Option (List (E × Subsystem K V B))
  | [] => some []
  | s :: l =>
    (toBarycentric μ size sort kepler s).bind fun r => (toBarycentricAll μ size sort kepler l).bind fun rs => some ((s.elements, r) :: rs)

end

/-- physics/hierarchical_system_body.hpp:47-62 (`ConsumeBarycentricSystem`): the bodies and their degrees of freedom. -/
def consume (μ : B → K) (size : E → Size K) (sort : Sorter) (kepler : K → K → E → Option V) (s : System E B) : Option (List B × List V) :=
  (toBarycentric μ size sort kepler s).map fun r => (r.bodies, r.degreesOfFreedom.map fun x => 0 + x)

end

/-! ## Serialization -/

mutual

/-- physics/hierarchical_system_body.hpp:64-70 and 183-211 (`WriteToMessage`): the message is modelled as a system whose satellites are in the order of
the message. -/
def write {E B N : Type} [LinearOrder N] (name : B → N) (sort : Sorter) : System E B → System E B
  | ⟨e, p, s⟩ => ⟨e, p, sort _ (fun x y => name x.primary < name y.primary) (writeAll name sort s)⟩

/-- See `write`. -/
def writeAll {E B N : Type} [LinearOrder N] (name : B → N) (sort : Sorter) : List (System E B) → List (System E B)
  | [] => []
  | s :: l => write name sort s :: writeAll name sort l

end

end Principia.Physics.Hierarchical
