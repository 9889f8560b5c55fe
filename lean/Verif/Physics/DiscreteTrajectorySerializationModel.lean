import Verif.Physics.DiscreteTrajectoryIteratorModel

/-!
# Model of the serialization of discrete trajectories

physics/discrete_trajectory_body.hpp:493-758 and physics/discrete_trajectory_segment_body.hpp:187-317, 665-772.  The compression of the
degrees of freedom is an arbitrary function `codec` which takes the downsampling tolerance and the points, and returns what decompression
yields.  The compression of the times and of the errors has a null tolerance: it is taken to be exact, as are the serializations of instants
and degrees of freedom.  The compatibility with the messages written by earlier versions (pre-Hamilton, pre-Leibniz, pre-Лефшец) is not
modelled.
-/

namespace Principia.DiscreteTrajectory

open Principia.SortedMap

variable {T D H E : Type} [LinearOrder T] [DecidableEq D] [AddCommGroup E] [LinearOrder E]

/-- numerics/zfp_compressor as used at physics/discrete_trajectory_segment_body.hpp:749-771 and 246-267: what is read back for the degrees of
freedom of the given points. -/
abbrev Codec (T D E : Type) := Option E → List (T × D) → List D

/-- serialization/physics.proto: `DiscreteTrajectorySegment`.  The compressed fields are represented by what decompression yields. -/
structure SegMessage (T D E : Type) where
  tolerance : Option E
  exact : List (T × D)
  timeline : List (T × D × E)

/-- physics/discrete_trajectory_segment_body.hpp:741-742. -/
def Val.err (v : Val D H E) : E :=
  match v.interpolation with
  | none => 0
  | some i => i.error

/-- physics/discrete_trajectory_segment_body.hpp:665-772: writes the elements of the timeline with indices in `[b, e)`. -/
def writeSegment (codec : Codec T D E) (s : Seg T D H E) (b e : Nat) (exact : List (T × D)) : SegMessage T D E :=
  let range := (s.timeline.take e).drop b
  let pts := range.map point
  { tolerance := s.tolerance,
    exact := (exact ++ pts.head?.toList ++ pts.getLast?.toList).foldl (fun m p => emplace m p.1 p.2) [],
    timeline := List.zipWith (fun a d => (a.1, d, a.2.err)) range (codec s.tolerance pts) }

/-- physics/discrete_trajectory_segment_body.hpp:306: the last element is dereferenced, and so is its interpolation. -/
def setLastError (s : Seg T D H E) (e : E) : Option (Seg T D H E) :=
  match s.timeline.getLast? with
  | none => none
  | some a =>
    match a.2.interpolation with
    | none => none
    | some i =>
      some { s with timeline := s.timeline.dropLast ++ [(a.1, { a.2 with interpolation := some { i with error := e } })] }

/-- physics/discrete_trajectory_segment_body.hpp:297-301. -/
def restoredDof (exact : List (T × D)) (t : T) (d : D) : D :=
  match find exact t with
  | none => d
  | some p => p.2

/-- physics/discrete_trajectory_segment_body.hpp:284-308: the boolean is `i > 0`. -/
def readLoop (h : Hermite T D H E) (exact : List (T × D)) : List (T × D × E) → Bool → Seg T D H E → Option (Seg T D H E)
  | [], _, s => some s
  | a :: l, notFirst, s => do
    let s ← s.append h a.1 (restoredDof exact a.1 a.2.1)
    let s ← if notFirst then setLastError s a.2.2 else some s
    readLoop h exact l true s

/-- physics/discrete_trajectory_segment_body.hpp:222-317. -/
def readSegment (h : Hermite T D H E) (m : SegMessage T D E) : Option (Seg T D H E) := do
  let s ← readLoop h (m.exact.foldl (fun m p => emplace m p.1 p.2) []) m.timeline false Seg.new
  some { s with tolerance := m.tolerance }

/-- serialization/physics.proto: `DiscreteTrajectory`.  Missing tracked positions are represented by `none`. -/
structure Message (T D E : Type) where
  leading : List (Nat × Option E)   -- `leading_empty_segments`.
  segments : List (SegMessage T D E)   -- `segment`.
  tracked : List (Option Nat)   -- `tracked_position`.
  endpoints : List (T × Nat)   -- `segment_by_left_endpoint`.

/-- `lower_bound` in a segment, for a time that may be infinite (`none`). -/
def lowerBoundIt (segs : List (Seg T D H E)) (s : Nat) (t : Option T) : Option Iter :=
  match t with
  | none => segEnd segs s
  | some t => segLowerBound segs s t

/-- physics/discrete_trajectory_segment_body.hpp:204-209: the index in the timeline. -/
def timelineIt (segs : List (Seg T D H E)) (s : Nat) (it fin : Iter) : Nat :=
  if it.eq segs fin then len segs s else it.pt.getD 0

/-- The local variables of the loop of physics/discrete_trajectory_body.hpp:536-602. -/
structure WriteState (T D E : Type) where
  leading : List (Nat × Option E)   -- Those that have been written.
  count : Nat                       -- `leading_empty_segments.count`.
  tolerance : Option E              -- `leading_empty_segments.downsampling_parameters`.
  segments : List (SegMessage T D E)
  intersect : Bool                  -- `intersect_range`.
  intersecting : List Nat           -- `intersecting_segments`.

/-- physics/discrete_trajectory_body.hpp:578-590. -/
def WriteState.addEmpty (st : WriteState T D E) (tolerance : Option E) : WriteState T D E :=
  if tolerance ≠ st.tolerance then
    { st with leading := if 0 < st.count then st.leading ++ [(st.count, st.tolerance)] else st.leading, count := 1, tolerance := tolerance }
  else { st with count := st.count + 1 }

/-- physics/discrete_trajectory_body.hpp:544-602: the remaining segments are `rest`, the first of which has the index `i`.  Returns the number
of segments that have been considered, which determines the tracked segments that are found. -/
def writeLoop (codec : Codec T D E) (segs : List (Seg T D H E)) (bt et : Option T) (exact : List (T × D)) :
    Nat → List (Seg T D H E) → WriteState T D E → Option (WriteState T D E × Nat)
  | i, [], st => some (st, i)
  | i, s :: rest, st =>
    match lowerBoundIt segs i bt, lowerBoundIt segs i et, segEnd segs i with
    | some bit, some eit, some fin =>
      if st.intersect && bit.eq segs eit then some (st, i)
      else if !bit.eq segs fin then
        writeLoop codec segs bt et exact (i + 1) rest
          { st with segments := st.segments ++ [writeSegment codec s (timelineIt segs i bit fin) (timelineIt segs i eit fin) exact],
                    intersect := true, intersecting := st.intersecting ++ [i] }
      else writeLoop codec segs bt et exact (i + 1) rest { st.addEmpty s.tolerance with intersect := false }
    | _, _, _ => none

/-- physics/discrete_trajectory_body.hpp:627-636: the last left endpoint that has been written is `last_left_endpoint`. -/
def addEndpoint (l : List (T × Nat)) (t : T) (i : Nat) : List (T × Nat) :=
  match l.getLast? with
  | none => l ++ [(t, i)]
  | some e => if e.1 = t then l.dropLast ++ [(t, i)] else l ++ [(t, i)]

/-- physics/discrete_trajectory_body.hpp:608-638.  If `begin_time` is infinite there are no intersecting segments. -/
def writeEndpoints (map : List (T × Nat)) (bt : Option T) (intersecting : List Nat) : List (T × Nat) :=
  map.foldl (fun l e =>
    if e.2 ∈ intersecting then
      match bt with
      | none => l
      | some b => addEndpoint l (max e.1 b) e.2
    else l) []

/-- physics/discrete_trajectory_body.hpp:528-534: `none` is `InfiniteFuture`. -/
def timeOf (segs : List (Seg T D H E)) (it : Iter) : Option T := (deref segs it).map Prod.fst

/-- The dereferencing of a list of iterators: `none` if one of them is at the end. -/
def derefs (segs : List (Seg T D H E)) : List Iter → Option (List (T × D))
  | [] => some []
  | it :: l => do
    let p ← deref segs it
    let ps ← derefs segs l
    some (p :: ps)

/-- physics/discrete_trajectory_body.hpp:501-639.  The tracked segments are given by their indices, the number of segments stands for
`segments().end()`. -/
def Trajectory.write (codec : Codec T D E) (tr : Trajectory T D H E) (first last : Iter) (tracked : List Nat) (exact : List Iter) :
    Option (Message T D E) := do
  let exact ← derefs tr.segs exact
  let r ← writeLoop codec tr.segs (timeOf tr.segs first) (timeOf tr.segs last) exact 0 tr.segs
    { leading := [], count := 0, tolerance := none, segments := [], intersect := false, intersecting := [] }
  some { leading := if 0 < r.1.count then r.1.leading ++ [(r.1.count, r.1.tolerance)] else r.1.leading,
         segments := r.1.segments,
         tracked := tracked.map fun i => if i < r.2 then some i else none,
         endpoints := writeEndpoints tr.map (timeOf tr.segs first) r.1.intersecting }

/-- physics/discrete_trajectory_body.hpp:692-699. -/
def readSegments (h : Hermite T D H E) : List (SegMessage T D E) → Option (List (Seg T D H E))
  | [] => some []
  | m :: l => do
    let s ← readSegment h m
    let segs ← readSegments h l
    some (s :: segs)

/-- physics/discrete_trajectory_body.hpp:701-711: `n` is the number of segments. -/
def readTracked (n : Nat) : List (Option Nat) → Option (List Nat)
  | [] => some []
  | none :: l => do
    let r ← readTracked n l
    some (n :: r)
  | some i :: l => do
    let r ← readTracked n l
    if i < n then some (i :: r) else none

/-- physics/discrete_trajectory_body.hpp:713-726: the current segment is `i`, it can only move forward. -/
def readEndpoints (n : Nat) : List (T × Nat) → Nat → List (T × Nat) → Option (List (T × Nat))
  | [], _, map => some map
  | e :: l, i, map => if i ≤ e.2 ∧ e.2 < n then readEndpoints n l e.2 (insertOrAssign map e.1 e.2) else none

/-- physics/discrete_trajectory_body.hpp:641-730. -/
def readTrajectory (h : Hermite T D H E) (m : Message T D E) : Option (Trajectory T D H E × List Nat) := do
  let leading := m.leading.flatMap fun e => List.replicate e.1 { (Seg.new : Seg T D H E) with tolerance := e.2 }
  let segments ← readSegments h m.segments
  let segs := leading ++ segments
  let tracked ← readTracked segs.length m.tracked
  let map ← readEndpoints segs.length m.endpoints 0 []
  let tr ← check { segs := segs, map := map }
  some (tr, tracked)

end Principia.DiscreteTrajectory
