import Verif.Geometry.FormsModel
import Mathlib.Order.WithBot
import Mathlib.Data.List.Basic

/-!
A model of the principal component partitioning trees of numerics/nearest_neighbour_body.hpp.

Simplifications: exact real arithmetic; the values are points of ℝ³, given by pointers of an arbitrary type `P` that is dereferenced by a function, so the values do not
change after they have been added.  The indices, which are 32-bit integers, are natural numbers, and no more than 2³¹ - 1 values are taken to be added.
`max_values_per_cell`, a signed integer, is a natural number.
-/

set_option linter.unusedSimpArgs false
set_option linter.unusedVariables false
set_option linter.unusedSectionVars false

namespace Principia.Numerics.NearestNeighbour

open Geometry

/-- numerics/nearest_neighbour.hpp:88-102: `Node`, which is an `Internal` or a `Leaf`. -/
inductive Node where
  | leaf (indices : List Nat)
  | internal (principalAxis anchor : R3 ℝ) (first second : Node)

/-- `std::nth_element` (numerics/nearest_neighbour_body.hpp:148): from the projections, the range and the position of the element, the reordered range. -/
abbrev NthElement := (Nat → ℝ) → List Nat → Nat → List Nat

open Classical in
/-- `std::max_element` (numerics/nearest_neighbour_body.hpp:156) on a range that is not empty: the first of the largest elements. -/
noncomputable def maxElement (key : Nat → ℝ) (first : Nat) (rest : List Nat) : Nat :=
  rest.foldl (fun largest i => if key largest < key i then i else largest) first

/-- `displacements_[index]`; an index that is out of bounds would be an error, but `C42_indices` shows that there is none. -/
noncomputable def displacement (ds : List (R3 ℝ)) (i : Nat) : R3 ℝ := ds.getD i 0

/-- numerics/nearest_neighbour_body.hpp:170-181 (`ComputePrincipalComponentForm`). -/
noncomputable def principalComponentForm (ds : List (R3 ℝ)) (indices : List Nat) : M3 ℝ :=
  indices.foldl (fun result i => result + Form.symmetricSquare (displacement ds i)) ⟨0, 0, 0⟩

/-- numerics/nearest_neighbour_body.hpp:125-133: the direction of the largest eigenvalue. -/
noncomputable def principalAxis (ds : List (R3 ℝ)) (indices : List Nat) : Option (R3 ℝ) :=
  (Form.diagonalize (principalComponentForm ds indices)).map fun eigensystem => eigensystem.2.apply ⟨0, 0, 1⟩

/-- numerics/nearest_neighbour_body.hpp:156: `mid_lower`.  On an empty range `std::max_element` returns its end, which is `mid_upper`. -/
noncomputable def midLower (key : Nat → ℝ) (midUpper : Nat) : List Nat → Nat
  | [] => midUpper
  | first :: rest => maxElement key first rest

/-- numerics/nearest_neighbour_body.hpp:108-168 (`BuildTree`).  The recursion, which does not terminate if `maxValuesPerCell` is 0, is limited by `fuel`; `none` is this
limit, or a failure. -/
noncomputable def buildTree (nth : NthElement) (maxValuesPerCell : Nat) (ds : List (R3 ℝ)) : (fuel : Nat) → (indices : List Nat) → Option Node
  | 0, _ => none
  | fuel + 1, indices =>
    if indices.length ≤ maxValuesPerCell then some (.leaf indices)
    else
      match principalAxis ds indices with
      | none => none
      | some axis =>
        let key := fun i => axis.dot (displacement ds i)
        let mid := indices.length / 2
        let reordered := nth key indices mid
        match reordered.drop mid with
        | [] => none
        | midUpper :: _ =>
          let anchor := (1 / 2 : ℝ) • (displacement ds (midLower key midUpper (reordered.take mid)) + displacement ds midUpper)
          match buildTree nth maxValuesPerCell ds fuel (reordered.take mid), buildTree nth maxValuesPerCell ds fuel (reordered.drop mid) with
          | some first, some second => some (.internal axis anchor first second)
          | _, _ => none

open Classical in
/-- numerics/nearest_neighbour_body.hpp:183-225: the three private overloads of `Add`. -/
noncomputable def addNode (nth : NthElement) (maxValuesPerCell : Nat) (ds : List (R3 ℝ)) (index : Nat) : Node → Option Node
  | .internal axis anchor first second =>
    if axis.dot (displacement ds index - anchor) < 0 then (addNode nth maxValuesPerCell ds index first).map fun first => .internal axis anchor first second
    else (addNode nth maxValuesPerCell ds index second).map fun second => .internal axis anchor first second
  | .leaf indices =>
    let indices := indices ++ [index]
    if maxValuesPerCell < indices.length then
      match buildTree nth maxValuesPerCell ds (indices.length + 1) indices with
      | some (.internal axis anchor first second) => some (.internal axis anchor first second)
      | _ => none
    else some (.leaf indices)

/-- numerics/nearest_neighbour.hpp:140-152: `min_distance²` and `min_index`, whose value may be infinite and `no_min_index`, respectively. -/
structure Best where
  distance2 : WithTop ℝ
  index : Option Nat

open Classical in
/-- numerics/nearest_neighbour_body.hpp:340-352: the loop over the values of a leaf.  The filter is given as a function of the index. -/
noncomputable def findLeaf (ds : List (R3 ℝ)) (filter : Nat → Bool) (d : R3 ℝ) (indices : List Nat) : Best :=
  indices.foldl (fun best i =>
    let distance2 := (displacement ds i - d).normSq
    if (distance2 : WithTop ℝ) < best.distance2 ∧ filter i then ⟨distance2, some i⟩ else best) ⟨⊤, none⟩

open Classical in
/-- numerics/nearest_neighbour_body.hpp:320-326, 354-360: the value given to `*must_check_other_side`, if any.  The `parent` is given by its axis and anchor, and `check` is
false if the pointer is null. -/
noncomputable def mustCheckOtherSide (d : R3 ℝ) (parent : Option (R3 ℝ × R3 ℝ)) (check : Bool) (best : Best) : Option Bool :=
  match parent, check with
  | some (axis, anchor), true => some (decide (((axis.dot (d - anchor) ^ 2 : ℝ) : WithTop ℝ) < best.distance2))
  | _, _ => none

open Classical in
/-- numerics/nearest_neighbour_body.hpp:227-361: the three private overloads of `Find`.  `none` is a `CHECK` failure, or the use of a variable that is not initialized. -/
noncomputable def find (ds : List (R3 ℝ)) (filter : Nat → Bool) (d : R3 ℝ) (parent : Option (R3 ℝ × R3 ℝ)) (check : Bool) : Node → Option (Best × Option Bool)
  | .leaf indices =>
    if indices = [] then none
    else
      let best := findLeaf ds filter d indices
      some (best, mustCheckOtherSide d parent check best)
  | .internal axis anchor first second =>
    let projection := axis.dot (d - anchor)
    match if projection < 0 then find ds filter d (some (axis, anchor)) true first else find ds filter d (some (axis, anchor)) true second with
    | some (preferred, some true) =>
      match if projection < 0 then find ds filter d parent false second else find ds filter d parent false first with
      | some (other, _) =>
        let best := if other.distance2 < preferred.distance2 then other else preferred
        some (best, mustCheckOtherSide d parent check best)
      | none => none
    | some (preferred, some false) => some (preferred, mustCheckOtherSide d parent check preferred)
    | _ => none

variable {P : Type}

/-- numerics/nearest_neighbour.hpp:32-183: `PrincipalComponentPartitioningTree`. -/
structure Tree (P : Type) where
  values : List P
  maxValuesPerCell : Nat
  centroid : R3 ℝ
  displacements : List (R3 ℝ)
  root : Option Node

/-- numerics/nearest_neighbour_body.hpp:82-106 (`Initialize`). -/
noncomputable def Tree.initialize (nth : NthElement) (deref : P → R3 ℝ) (t : Tree P) : Option (Tree P) :=
  let centroid := (t.values.length : ℝ)⁻¹ • t.values.foldl (fun sum p => sum + deref p) 0
  let displacements := t.displacements ++ t.values.map fun p => deref p - centroid
  (buildTree nth t.maxValuesPerCell displacements (displacements.length + 1) (List.range displacements.length)).map fun root =>
    { t with centroid := centroid, displacements := displacements, root := some root }

/-- numerics/nearest_neighbour_body.hpp:29-39: the constructor. -/
noncomputable def Tree.new (nth : NthElement) (deref : P → R3 ℝ) (values : List P) (maxValuesPerCell : Nat) : Option (Tree P) :=
  if values.length ≤ 2 ^ 31 - 1 then
    if values = [] then some ⟨values, maxValuesPerCell, 0, [], none⟩
    else Tree.initialize nth deref ⟨values, maxValuesPerCell, 0, [], none⟩
  else none

/-- numerics/nearest_neighbour_body.hpp:41-57 (the public `Add`). -/
noncomputable def Tree.add (nth : NthElement) (deref : P → R3 ℝ) (t : Tree P) (value : P) : Option (Tree P) :=
  let t := { t with values := t.values ++ [value] }
  if t.values.length = 1 then t.initialize nth deref
  else
    let index := t.displacements.length
    let displacements := t.displacements ++ [deref value - t.centroid]
    match t.root with
    | none => none
    | some root =>
      (addNode nth t.maxValuesPerCell displacements index root).map fun root => { t with displacements := displacements, root := some root }

/-- The outcome of a search. -/
inductive Found (P : Type) where
  | crash
  | null
  | value (p : P)

/-- numerics/nearest_neighbour_body.hpp:348-349: the filter applied to the value with the given index. -/
def Tree.passes (t : Tree P) (filter : Option (P → Bool)) (i : Nat) : Bool :=
  match filter, t.values[i]? with
  | none, _ => true
  | some f, some p => f p
  | some _, none => false

/-- numerics/nearest_neighbour_body.hpp:59-80 (`FindNearestNeighbour`).  The filter may be null. -/
noncomputable def Tree.findNearestNeighbour (t : Tree P) (value : R3 ℝ) (filter : Option (P → Bool)) : Found P :=
  if t.displacements = [] then .null
  else
    match t.root.bind (find t.displacements (t.passes filter) (value - t.centroid) none false) with
    | none => .crash
    | some (best, _) =>
      match best.index with
      | none => .null
      | some i =>
        match t.values[i]? with
        | some p => .value p
        | none => .crash

end Principia.Numerics.NearestNeighbour
