import Verif.Base.SortedMap
import Mathlib.Algebra.Order.Group.Defs

/-!
# Model of `physics/discrete_trajectory_segment_body.hpp`

Instants are the elements of a linearly ordered type `T`.  Degrees of freedom are the elements of a type `D`; the fact that NaNs are not
equal to themselves is not modelled.  Interpolations are the elements of a type `H`, built from two points by an arbitrary function, and
lengths (errors and tolerances) are the elements of an ordered group `E`; the `L∞L₂` norm of the difference of two interpolations is an
arbitrary function.  Failed `CHECK`s and undefined behaviour are represented by `none`.
-/

namespace Principia.DiscreteTrajectory

open Principia.SortedMap

/-- numerics/hermite3.hpp: the constructor and the norm of the difference, used by physics/discrete_trajectory_segment_body.hpp. -/
structure Hermite (T D H E : Type) where
  make : T × D → T × D → H
  distance : H → H → E

/-- physics/discrete_trajectory_types.hpp:50-54: `Interpolation`. -/
structure Interpolation (H E : Type) where
  hermite : H
  error : E

/-- physics/discrete_trajectory_types.hpp:56-81: `value_type`, without the time. -/
structure Val (D H E : Type) where
  dof : D
  interpolation : Option (Interpolation H E)

/-- physics/discrete_trajectory_types.hpp:100-101. -/
abbrev Timeline (T D H E : Type) := List (T × Val D H E)

/-- physics/discrete_trajectory_segment.hpp:230-240: the fields of `DiscreteTrajectorySegment`, except `self_` which is represented by the
index of the segment in its trajectory. -/
structure Seg (T D H E : Type) where
  timeline : Timeline T D H E
  tolerance : Option E   -- `downsampling_parameters_`.
  error : E              -- `downsampling_error_`.

variable {T D H E : Type} [LinearOrder T] [AddCommGroup E] [LinearOrder E]

/-- physics/discrete_trajectory_segment_body.hpp:27-30. -/
def Seg.new : Seg T D H E := { timeline := [], tolerance := none, error := 0 }

/-- physics/discrete_trajectory_segment_body.hpp:81-84 and 655-658. -/
def Seg.isEmpty (s : Seg T D H E) : Bool := s.timeline.isEmpty

/-- physics/discrete_trajectory_segment_body.hpp:93-98. -/
def Seg.clear (_ : Seg T D H E) : Seg T D H E := { timeline := [], tolerance := none, error := 0 }

/-- The time and degrees of freedom of an element of a timeline. -/
def point (a : T × Val D H E) : T × D := (a.1, a.2.dof)

/-- physics/discrete_trajectory_segment_body.hpp:172-180. -/
def Seg.setDownsampling (s : Seg T D H E) (tolerance : E) : Option (Seg T D H E) :=
  if s.timeline.length ≤ 1 then some { s with tolerance := some tolerance, error := 0 } else none

/-- physics/discrete_trajectory_segment_body.hpp:182-185. -/
def Seg.clearDownsampling (s : Seg T D H E) : Seg T D H E := { s with tolerance := none }

/-- physics/discrete_trajectory_segment_body.hpp:461-476: adds a point after the last one. -/
def Seg.push (h : Hermite T D H E) (s : Seg T D H E) (last : T × Val D H E) (t : T) (d : D) : Seg T D H E :=
  { s with timeline := s.timeline ++ [(t, { dof := d, interpolation := some { hermite := h.make (point last) (t, d), error := 0 } })],
           error := 0 }

/-- physics/discrete_trajectory_segment_body.hpp:413-479. -/
def Seg.append (h : Hermite T D H E) (s : Seg T D H E) (t : T) (d : D) : Option (Seg T D H E) :=
  match s.timeline.head?, s.timeline.getLast? with
  | some first, some last =>
    if first.1 = t then some s
    else if last.1 < t then
      match s.tolerance, s.timeline.dropLast.getLast? with
      | some tolerance, some lower =>
        match last.2.interpolation with
        | none => none
        | some interpolation =>
          let hermite := h.make (point lower) (t, d)
          let error := s.error + h.distance hermite interpolation.hermite
          if error < tolerance then
            some { s with timeline := s.timeline.dropLast ++
                            [(t, { dof := d, interpolation := some { hermite := hermite, error := error } })],
                          error := error }
          else some (s.push h last t d)
      | _, _ => some (s.push h last t d)
    else none
  | _, _ => some { s with timeline := [(t, { dof := d, interpolation := none })] }

/-- physics/discrete_trajectory_segment_body.hpp:582-608 `UpdateInterpolation`, for the element at index `upper`. -/
def updateInterpolation (h : Hermite T D H E) (l : Timeline T D H E) (upper : Nat) : Option (Timeline T D H E) :=
  if upper = 0 then none
  else match l[upper - 1]?, l[upper]? with
    | some a, some b =>
      some (l.set upper (b.1, { dof := b.2.dof, interpolation := some { hermite := h.make (point a) (point b), error := 0 } }))
    | _, _ => none

/-- physics/discrete_trajectory_segment_body.hpp:573-580. -/
def createInterpolation (h : Hermite T D H E) (l : Timeline T D H E) (upper : Nat) : Option (Timeline T D H E) :=
  match l[upper]? with
  | some b => if b.2.interpolation.isSome then none else updateInterpolation h l upper
  | none => none

/-- physics/discrete_trajectory_segment_body.hpp:358-374. -/
def Seg.prepend (h : Hermite T D H E) (s : Seg T D H E) (t : T) (d : D) : Option (Seg T D H E) :=
  match s.timeline with
  | [] => some { s with timeline := [(t, { dof := d, interpolation := none })] }
  | a :: l =>
    if t < a.1 then do
      let timeline ← createInterpolation h ((t, { dof := d, interpolation := none }) :: a :: l) 1
      some { s with timeline := timeline }
    else none

/-- physics/discrete_trajectory_segment_body.hpp:376-395. -/
def Seg.forgetAfter (s : Seg T D H E) (t : T) : Seg T D H E :=
  let timeline := s.timeline.take (lowerBound s.timeline t)
  { s with timeline := timeline,
           error := match timeline.getLast? with
             | none => 0
             | some last => match last.2.interpolation with
               | none => 0
               | some interpolation => interpolation.error }

/-- physics/discrete_trajectory_segment_body.hpp:397-411. -/
def Seg.forgetBefore (s : Seg T D H E) (t : T) : Seg T D H E :=
  { s with timeline := match s.timeline.drop (lowerBound s.timeline t) with
             | [] => []
             | a :: l => (a.1, { a.2 with interpolation := none }) :: l }

/-- physics/discrete_trajectory_segment_body.hpp:512-523 and 540-550: merges the timelines and updates the interpolation at `t`. -/
def mergeTimelines (h : Hermite T D H E) (l l' : Timeline T D H E) (t : T) : Option (Timeline T D H E) :=
  let merged := mergeInto l l'
  if contains merged t then
    let it := lowerBound merged t
    if it ≠ 0 then updateInterpolation h merged it else some merged
  else none

/-- physics/discrete_trajectory_segment_body.hpp:488-557. -/
def Seg.merge (h : Hermite T D H E) (s segment : Seg T D H E) : Option (Seg T D H E) :=
  match segment.timeline.head?, segment.timeline.getLast?, s.timeline.head?, s.timeline.getLast? with
  | some segmentBegin, some segmentBack, some thisBegin, some thisBack =>
    if thisBack.1 ≤ segmentBegin.1 then do
      let timeline ← mergeTimelines h s.timeline segment.timeline segmentBegin.1
      some { s with tolerance := segment.tolerance, timeline := timeline }
    else if segmentBack.1 ≤ thisBegin.1 then do
      let timeline ← mergeTimelines h s.timeline segment.timeline thisBegin.1
      some { s with timeline := timeline }
    else none
  | none, _, _, _ => some s
  | _, none, _, _ => some s
  | _, _, _, _ => some { s with tolerance := segment.tolerance, timeline := segment.timeline }

/-- physics/discrete_trajectory_segment_body.hpp:157-170: either the degrees of freedom of a point, or the interpolation to be evaluated. -/
def Seg.evaluate (s : Seg T D H E) (t : T) : Option (D ⊕ H) :=
  match s.timeline.head?, s.timeline.getLast? with
  | some first, some last =>
    if first.1 ≤ t ∧ t ≤ last.1 then
      let it := lowerBound s.timeline t
      match s.timeline[it]? with
      | none => none
      | some a =>
        if a.1 = t then some (.inl a.2.dof)
        -- Lines 634-641.
        else if it = 0 then none
        else a.2.interpolation.map fun i => .inr i.hermite
    else none
  | _, _ => none

end Principia.DiscreteTrajectory
