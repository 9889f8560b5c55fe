import Verif.Physics.DiscreteTrajectorySegmentModel

/-!
# Model of `physics/discrete_trajectory_body.hpp`

A segment is designated by its index in the list of segments, instead of an iterator.  Consequently, where the code moves segments from
the list of a trajectory to that of another one, the model renumbers the segments designated by the time-to-segment map.
-/

namespace Principia.DiscreteTrajectory

open Principia.SortedMap

variable {T D H E : Type} [LinearOrder T] [DecidableEq D] [AddCommGroup E] [LinearOrder E]

/-- physics/discrete_trajectory.hpp:220-230. -/
structure Trajectory (T D H E : Type) where
  segs : List (Seg T D H E)   -- `segments_`.
  map : List (T × Nat)        -- `segment_by_left_endpoint_`.

/-- physics/discrete_trajectory_body.hpp:22-28. -/
def Trajectory.new : Trajectory T D H E := { segs := [Seg.new], map := [] }

/-- physics/discrete_trajectory_body.hpp:760-762. -/
def Trajectory.uninitialized : Trajectory T D H E := { segs := [], map := [] }

/-- physics/discrete_trajectory_body.hpp:73-76. -/
def Trajectory.isEmpty (tr : Trajectory T D H E) : Bool := tr.map.isEmpty

/-- physics/discrete_trajectory_body.hpp:78-93. -/
def Trajectory.size (tr : Trajectory T D H E) : Int :=
  if tr.isEmpty then 0
  else
    let nonempty := tr.segs.filter fun s => !s.isEmpty
    1 + (nonempty.map fun s => (s.timeline.length : Int)).sum - nonempty.length

/-- physics/discrete_trajectory_body.hpp:764-788 `FindSegment`: the position in the map, `none` for the end. -/
def findSegment (map : List (T × Nat)) (t : T) : Option Nat :=
  let it := upperBound map t
  if it = 0 then none else some (it - 1)

/-- physics/discrete_trajectory_body.hpp:825-853: `sit1` designates the segments `rest`, whose first index is `i`; `leit` designates the
entries of the second list. -/
def scan (segs : List (Seg T D H E)) : Nat → List (Seg T D H E) → List (T × Nat) → Bool
  | _, [], [] => true
  | _, s :: _, [] => s.isEmpty
  | _, [], _ :: _ => false
  | i, s :: rest, (t, j) :: map =>
    match segs[j]? with
    | none => false
    | some s2 =>
      if s2.isEmpty then false
      else if i = j then scan segs (i + 1) rest map
      else if s.isEmpty || s.timeline.length = 1 then scan segs (i + 1) rest ((t, j) :: map)
      else false

/-- physics/discrete_trajectory_body.hpp:854-896: consecutive segments. -/
def chained : List (Seg T D H E) → Bool
  | [] => true
  | [_] => true
  | s :: s' :: rest =>
    (match s.timeline.getLast?, s'.timeline.head? with
     | none, _ => true
     | some _, none => false
     | some a, some b => point a = point b) && chained (s' :: rest)

/-- physics/discrete_trajectory_body.hpp:790-898: whether `ConsistencyStatus` is OK. -/
def consistencyStatus (tr : Trajectory T D H E) : Bool :=
  -- Lines 792-797.
  decide (tr.map.length ≤ tr.segs.length) &&
  -- Lines 798-808.
  (!tr.map.isEmpty || tr.segs.all fun s => s.isEmpty) &&
  -- Lines 809-824.
  (tr.map.all fun e => match tr.segs[e.2]? with
    | none => false
    | some s => match s.timeline.head? with
      | none => true
      | some a => a.1 = e.1) &&
  scan tr.segs 0 tr.segs tr.map &&
  chained tr.segs

/-- `CHECK_OK(ConsistencyStatus())`. -/
def check (tr : Trajectory T D H E) : Option (Trajectory T D H E) := if consistencyStatus tr then some tr else none

/-- `front()` of the segment with the given index, physics/discrete_trajectory_segment_body.hpp:38-42 and 50-54.  The constructor of the
iterator skips the empty segments, physics/discrete_trajectory_iterator_body.hpp:259-275. -/
def frontFrom (segs : List (Seg T D H E)) (i : Nat) : Option (T × D) :=
  ((segs.drop i).find? fun s => !s.isEmpty).bind fun s => s.timeline.head?.map point

/-- physics/discrete_trajectory_body.hpp:30-35. -/
def Trajectory.front (tr : Trajectory T D H E) : Option (T × D) := do
  let e ← tr.map.head?
  let s ← tr.segs[e.2]?
  let a ← s.timeline.head?
  some (point a)

/-- physics/discrete_trajectory_body.hpp:37-41, 61-65.  The decrement of the iterator is simplified: it reads the last point of the last
segment. -/
def Trajectory.back (tr : Trajectory T D H E) : Option (T × D) := do
  let s ← tr.segs.getLast?
  let a ← s.timeline.getLast?
  some (point a)

/-- physics/discrete_trajectory_body.hpp:95-100. -/
def Trajectory.clear (tr : Trajectory T D H E) : Option (Trajectory T D H E) :=
  match tr.segs with
  | [] => none
  | s :: _ => some { segs := [s.clear], map := [] }

/-- physics/discrete_trajectory_body.hpp:154-183. -/
def Trajectory.newSegment (h : Hermite T D H E) (tr : Trajectory T D H E) : Option (Trajectory T D H E) :=
  match tr.segs.getLast? with
  | none => none
  | some lastSegment =>
    match lastSegment.timeline.getLast? with
    | none => if tr.map.isEmpty then check { tr with segs := tr.segs ++ [Seg.new] } else none
    | some last => do
      let s ← Seg.new.append h last.1 last.2.dof
      check { segs := tr.segs ++ [s], map := insertOrAssign tr.map last.1 tr.segs.length }

/-- physics/discrete_trajectory_body.hpp:900-936.  `renumber` maps the index that a segment had in `fromMap` to the index that it has in
`dest`; the first spliced segment has index `toBegin`; `fromSegs` are the segments that remain in `from`. -/
def adjustAfterSplicing (fromSegs : List (Seg T D H E)) (fromMap : List (T × Nat)) (dest : Trajectory T D H E) (toBegin : Nat)
    (renumber : Nat → Nat) : Option (Trajectory T D H E × Trajectory T D H E) := do
  let front ← frontFrom dest.segs toBegin
  let fromLeit := (findSegment fromMap front.1).getD fromMap.length
  let toMap := (fromMap.drop fromLeit).foldl (fun m e => insertOrAssign m e.1 (renumber e.2)) dest.map
  let fromMap := fromMap.take fromLeit
  let fromMap := match fromSegs.getLast? with
    | none => fromMap
    | some lastSegment => match lastSegment.timeline.head? with
      | none => fromMap
      | some a => insertOrAssign fromMap a.1 (fromSegs.length - 1)
  some ({ segs := fromSegs, map := fromMap }, { dest with map := toMap })

/-- physics/discrete_trajectory_body.hpp:185-201: the trajectory and the detached trajectory. -/
def Trajectory.detachSegments (tr : Trajectory T D H E) (k : Nat) : Option (Trajectory T D H E × Trajectory T D H E) := do
  let (tr, detached) ← adjustAfterSplicing (tr.segs.take k) tr.map { segs := tr.segs.drop k, map := [] } 0 (fun i => i - k)
  let tr ← check tr
  some (tr, detached)

/-- physics/discrete_trajectory_body.hpp:214-225: prepends a point to a trajectory. -/
def prependPoint (h : Hermite T D H E) (trajectory : Trajectory T D H E) (t : T) (d : D) : Option (Trajectory T D H E) :=
  match trajectory.segs, trajectory.map with
  | s :: segs, leit :: map => do
    let s ← s.prepend h t d
    some { segs := s :: segs, map := emplace map t leit.2 }
  | _, _ => none

/-- physics/discrete_trajectory_body.hpp:203-242: the trajectory and the index of the first attached segment.  On lines 229 and 235 the code
decrements the end iterator of a list that may be empty and increments it after the splice; this is undefined, but it has the effect
modelled here for the usual implementations, where the list is circular. -/
def Trajectory.attachSegments (h : Hermite T D H E) (tr trajectory : Trajectory T D H E) : Option (Trajectory T D H E × Nat) := do
  if trajectory.isEmpty then none
  else
    let (tr, trajectory) ←
      if tr.isEmpty then some (Trajectory.uninitialized, trajectory)
      else do
        let back ← tr.back
        let front ← trajectory.front
        if back.1 = front.1 then
          if back.2 = front.2 then some (tr, trajectory) else none
        else if back.1 < front.1 then do
          let trajectory ← prependPoint h trajectory back.1 back.2
          some (tr, trajectory)
        else none
    let n := tr.segs.length
    let (_, tr) ← adjustAfterSplicing [] trajectory.map { tr with segs := tr.segs ++ trajectory.segs } n (fun i => i + n)
    let tr ← check tr
    some (tr, n)

/-- physics/discrete_trajectory_body.hpp:244-266. -/
def Trajectory.deleteSegments (tr : Trajectory T D H E) (k : Nat) : Option (Trajectory T D H E) :=
  let segs := tr.segs.take k
  match segs.getLast? with
  | none => check { segs := segs, map := [] }
  | some lastSegment => match lastSegment.timeline.head? with
    | none => check { segs := segs, map := [] }
    | some a =>
      let map := insertOrAssign tr.map a.1 (segs.length - 1)
      check { segs := segs, map := map.take (upperBound map a.1) }

/-- physics/discrete_trajectory_body.hpp:281-287: skips the preceding 1-point segments. -/
def skipBack (segs : List (Seg T D H E)) (t : T) : Nat → Nat
  | 0 => 0
  | sit + 1 =>
    match segs[sit]? with
    | none => sit + 1
    | some previous => match previous.timeline.head? with
      | none => sit + 1
      | some a => if a.1 ≠ t then sit + 1 else skipBack segs t sit

/-- physics/discrete_trajectory_body.hpp:268-309. -/
def Trajectory.forgetAfter (tr : Trajectory T D H E) (t : T) : Option (Trajectory T D H E) :=
  match findSegment tr.map t with
  | none => tr.clear
  | some leit => do
    let e ← tr.map[leit]?
    let sit := skipBack tr.segs t e.2
    let s ← tr.segs[sit]?
    let s := s.forgetAfter t
    if s.isEmpty then
      if sit = 0 then check { segs := [s], map := tr.map.take leit }
      else check { segs := tr.segs.take sit, map := tr.map.take leit }
    else check { segs := tr.segs.take sit ++ [s], map := tr.map.take (leit + 1) }

/-- physics/discrete_trajectory_body.hpp:318-351. -/
def Trajectory.forgetBefore (tr : Trajectory T D H E) (t : T) : Option (Trajectory T D H E) :=
  match findSegment tr.map t with
  | none => some tr
  | some leit => do
    let e ← tr.map[leit]?
    let sit := e.2
    let s ← tr.segs[sit]?
    let s := s.forgetBefore t
    let segs := (tr.segs.take sit).map (fun s => s.forgetBefore t) ++ s :: tr.segs.drop (sit + 1)
    let map := tr.map.drop (leit + 1)
    match s.timeline.head? with
    | none => check { segs := segs, map := map }
    | some a => check { segs := segs, map := insertOrAssign map a.1 sit }

/-- physics/discrete_trajectory_body.hpp:362-387.  The `DCHECK` is not modelled. -/
def Trajectory.append (h : Hermite T D H E) (tr : Trajectory T D H E) (t : T) (d : D) : Option (Trajectory T D H E) :=
  match tr.map with
  | [] =>
    match tr.segs.getLast? with
    | none => none
    | some s => do
      let s ← s.append h t d
      some { segs := tr.segs.set (tr.segs.length - 1) s, map := [(t, tr.segs.length - 1)] }
  | _ :: _ => do
    let leit ← findSegment tr.map t
    let e ← tr.map[leit]?
    let s ← tr.segs[e.2]?
    if s.isEmpty then none
    else do
      let s ← s.append h t d
      some { tr with segs := tr.segs.set e.2 s }

/-- physics/discrete_trajectory_body.hpp:394-421: merges the segments with the same index, starting at `i`. -/
def mergeStep (h : Hermite T D H E) (tr : Trajectory T D H E) (i : Nat) (source : Seg T D H E) : Option (Trajectory T D H E) := do
  let target ← tr.segs[i]?
  let merged ← target.merge h source
  let map := match target.timeline.head?, merged.timeline.head? with
    | some leftEndpoint, some front =>
      if front.1 < leftEndpoint.1 then
        match find tr.map leftEndpoint.1 with
        | some e => if e.2 = i then eraseKey tr.map leftEndpoint.1 else tr.map
        | none => tr.map
      else tr.map
    | _, _ => tr.map
  let map := match merged.timeline.head? with
    | some front => insertOrAssign map front.1 i
    | none => map
  some { segs := tr.segs.set i merged, map := map }

/-- physics/discrete_trajectory_body.hpp:439-445: no more segments in the source. -/
def mergeRest (tr : Trajectory T D H E) (i : Nat) : Trajectory T D H E :=
  { tr with map := (tr.segs.drop i).zipIdx i |>.foldl (fun map s => match s.1.timeline.head? with
      | some front => insertOrAssign map front.1 s.2
      | none => map) tr.map }

/-- physics/discrete_trajectory_body.hpp:393-450: the loop; `sources` are the segments of the source that were not processed yet and `i` the
index of the first one; `sourceMap` is the time-to-segment map of the source. -/
def mergeLoop (h : Hermite T D H E) (sourceMap : List (T × Nat)) : Trajectory T D H E → Nat → List (Seg T D H E) →
    Option (Trajectory T D H E)
  | tr, i, [] => some (mergeRest tr i)
  | tr, i, source :: sources =>
    if i < tr.segs.length then do
      let tr ← mergeStep h tr i source
      mergeLoop h sourceMap tr (i + 1) sources
    else do
      -- Lines 422-438.
      let (_, tr) ← adjustAfterSplicing [] sourceMap { tr with segs := tr.segs ++ source :: sources } i (fun j => j)
      some tr

/-- physics/discrete_trajectory_body.hpp:389-453. -/
def Trajectory.merge (h : Hermite T D H E) (tr trajectory : Trajectory T D H E) : Option (Trajectory T D H E) := do
  let tr ← mergeLoop h trajectory.map tr 0 trajectory.segs
  check tr

/-- `SetDownsampling` on the segment with index `k`, physics/discrete_trajectory_segment_body.hpp:172-180. -/
def Trajectory.setDownsampling (tr : Trajectory T D H E) (k : Nat) (tolerance : E) : Option (Trajectory T D H E) := do
  let s ← tr.segs[k]?
  let s ← s.setDownsampling tolerance
  some { tr with segs := tr.segs.set k s }

/-- `ClearDownsampling` on the segment with index `k`, physics/discrete_trajectory_segment_body.hpp:182-185. -/
def Trajectory.clearDownsampling (tr : Trajectory T D H E) (k : Nat) : Option (Trajectory T D H E) := do
  let s ← tr.segs[k]?
  some { tr with segs := tr.segs.set k s.clearDownsampling }

end Principia.DiscreteTrajectory
