import Verif.Physics.DiscreteTrajectoryModel

/-!
# Model of `physics/discrete_trajectory_iterator_body.hpp` and of the lookups

An iterator is made of the index of a segment and of the optional index of a point in its timeline.  The increment of an iterator at the
end, the decrement of the begin iterator of a segment that follows an empty one, etc., are represented by `none`: the code either fails a
`CHECK` or has undefined behaviour.
-/

namespace Principia.DiscreteTrajectory

open Principia.SortedMap

variable {T D H E : Type} [LinearOrder T] [DecidableEq D] [AddCommGroup E] [LinearOrder E]

/-- physics/discrete_trajectory_iterator.hpp:78-84. -/
structure Iter where
  seg : Nat           -- `segment_`.
  pt : Option Nat     -- `point_`.
deriving DecidableEq, Repr

/-- The number of points in the timeline of a segment, `timeline_size()`. -/
def len (segs : List (Seg T D H E)) (s : Nat) : Nat :=
  match segs[s]? with
  | none => 0
  | some s => s.timeline.length

/-- `point->time`, and the degrees of freedom. -/
def deref (segs : List (Seg T D H E)) (it : Iter) : Option (T × D) := do
  let s ← segs[it.seg]?
  let k ← it.pt
  let a ← s.timeline[k]?
  some (point a)

/-- physics/discrete_trajectory_iterator_body.hpp:22-24 and 265-268: the index of the first non-empty segment, starting with `s`. -/
def skipEmpty (segs : List (Seg T D H E)) (s : Nat) : Nat := s + ((segs.drop s).takeWhile fun s => s.isEmpty).length

/-- physics/discrete_trajectory_iterator_body.hpp:259-275: the constructor. -/
def Iter.mk' (segs : List (Seg T D H E)) (seg : Nat) (pt : Option Nat) : Iter :=
  let s := skipEmpty segs seg
  if segs.length ≤ s then { seg := s, pt := none }
  else if s ≠ seg then { seg := s, pt := some 0 }
  else { seg := s, pt := pt }

/-- physics/discrete_trajectory_iterator_body.hpp:19-34: the outer loop of `operator++`.  The fuel bounds the number of iterations. -/
def incrLoop (segs : List (Seg T D H E)) (previous : T) : Nat → Nat → Nat → Option Iter
  | 0, _, _ => none
  | fuel + 1, s, k =>
    let (s, k) := if k + 1 = len segs s then (skipEmpty segs (s + 1), 0) else (s, k + 1)
    if segs.length ≤ s then some { seg := s, pt := none }
    else match deref segs { seg := s, pt := some k } with
      | none => none
      | some p => if p.1 = previous then incrLoop segs previous fuel s k else some { seg := s, pt := some k }

/-- physics/discrete_trajectory_iterator_body.hpp:14-36: `operator++`. -/
def Iter.incr (segs : List (Seg T D H E)) (it : Iter) : Option Iter :=
  match it.pt with
  | none => none
  | some k => do
    let p ← deref segs it
    incrLoop segs p.1 segs.length it.seg k

/-- physics/discrete_trajectory_iterator_body.hpp:50-57: the loop of `operator--`.  The previous time is infinite (`none`) when the iterator
was at the end. -/
def decrLoop (segs : List (Seg T D H E)) (previous : Option T) : Nat → Nat → Nat → Option Iter
  | 0, _, _ => none
  | fuel + 1, s, k =>
    match (if k = 0 then
             if s = 0 then none
             else if len segs (s - 1) = 0 then none
             else some (s - 1, len segs (s - 1) - 1)
           else some (s, k - 1)) with
    | none => none
    | some (s, k) => match deref segs { seg := s, pt := some k } with
      | none => none
      | some p => if some p.1 = previous then decrLoop segs previous fuel s k else some { seg := s, pt := some k }

/-- physics/discrete_trajectory_iterator_body.hpp:38-59: `operator--`. -/
def Iter.decr (segs : List (Seg T D H E)) (it : Iter) : Option Iter :=
  match it.pt with
  | none => if segs.length = 0 then none
            else decrLoop segs none (segs.length + 1) (segs.length - 1) (len segs (segs.length - 1))
  | some k => do
    let p ← deref segs it
    decrLoop segs (some p.1) (segs.length + 1) it.seg k

/-- physics/discrete_trajectory_iterator_body.hpp:101-118: the loop of `operator+=`. -/
def advance (segs : List (Seg T D H E)) : Nat → Iter → Nat → Option Iter
  | _, it, 0 => some it
  | 0, _, _ + 1 => none
  | fuel + 1, it, m + 1 =>
    match it.pt with
    | none => none
    | some k =>
      let size := len segs it.seg
      if 2 < size ∧ size ≤ m + 1 + 2 ∧ k = 1 then advance segs fuel { it with pt := some (size - 1) } (m + 1 - (size - 2))
      else do
        let it ← it.incr segs
        advance segs fuel it m

/-- physics/discrete_trajectory_iterator_body.hpp:136-151: the loop of `operator-=`. -/
def retreat (segs : List (Seg T D H E)) : Nat → Iter → Nat → Option Iter
  | _, it, 0 => some it
  | 0, _, _ + 1 => none
  | fuel + 1, it, m + 1 =>
    match it.pt with
    | none => none
    | some k =>
      let size := len segs it.seg
      if 2 < size ∧ size ≤ m + 1 + 2 ∧ k = size - 2 then retreat segs fuel { it with pt := some 0 } (m + 1 - (size - 2))
      else do
        let it ← it.decr segs
        retreat segs fuel it m

/-- physics/discrete_trajectory_iterator_body.hpp:127-135 and 136-151: `operator-=` for a nonnegative argument. -/
def retreatFrom (segs : List (Seg T D H E)) (it : Iter) (n : Nat) : Option Iter :=
  if 0 < n ∧ it.pt = none then do
    let it ← it.decr segs
    retreat segs (n - 1) it (n - 1)
  else retreat segs n it n

/-- physics/discrete_trajectory_iterator_body.hpp:91-120: `operator+=`. -/
def Iter.plus (segs : List (Seg T D H E)) (it : Iter) (n : Int) : Option Iter :=
  if n < 0 then retreatFrom segs it (-n).toNat else advance segs n.toNat it n.toNat

/-- physics/discrete_trajectory_iterator_body.hpp:122-154: `operator-=`. -/
def Iter.minus (segs : List (Seg T D H E)) (it : Iter) (n : Int) : Option Iter :=
  if n < 0 then advance segs (-n).toNat it (-n).toNat else retreatFrom segs it n.toNat

/-- physics/discrete_trajectory_iterator_body.hpp:197-207: `operator==`. -/
def Iter.eq (segs : List (Seg T D H E)) (it other : Iter) : Bool :=
  match it.pt, other.pt with
  | none, none => it.seg = other.seg
  | none, some _ => false
  | some _, none => false
  | some _, some _ => (deref segs it).map Prod.fst = (deref segs other).map Prod.fst

/-- physics/discrete_trajectory_iterator_body.hpp:215-225: `operator<`. -/
def Iter.lt (segs : List (Seg T D H E)) (it other : Iter) : Bool :=
  match it.pt, other.pt with
  | none, _ => false
  | some _, none => true
  | some _, some _ => match deref segs it, deref segs other with
    | some p, some q => p.1 < q.1
    | _, _ => false

/-- physics/discrete_trajectory_iterator_body.hpp:227-237: `operator>`. -/
def Iter.gt (segs : List (Seg T D H E)) (it other : Iter) : Bool :=
  match it.pt, other.pt with
  | _, none => false
  | none, some _ => true
  | some _, some _ => match deref segs it, deref segs other with
    | some p, some q => q.1 < p.1
    | _, _ => false

/-- physics/discrete_trajectory_iterator_body.hpp:239-243: `operator<=`. -/
def Iter.le (segs : List (Seg T D H E)) (it other : Iter) : Bool := !it.gt segs other

/-- physics/discrete_trajectory_iterator_body.hpp:245-249: `operator>=`. -/
def Iter.ge (segs : List (Seg T D H E)) (it other : Iter) : Bool := !it.lt segs other

/-- physics/discrete_trajectory_iterator_body.hpp:184-186: the part of the condition of lines 184-186 which compares the time of the last point of
the segment of `it` with that of `left`. -/
def lastNotAfter (segs : List (Seg T D H E)) (left it : Iter) : Bool :=
  match deref segs { it with pt := some (len segs it.seg - 1) }, left.pt, deref segs left with
  | some p, some _, some q => decide (p.1 ≤ q.1)
  | some _, none, _ => true
  | _, _, _ => false

/-- physics/discrete_trajectory_iterator_body.hpp:169-195: the loop (179-193) of the difference of two iterators. -/
def distanceLoop (segs : List (Seg T D H E)) (left : Iter) : Nat → Iter → Nat → Option Nat
  | 0, it, m => if it.eq segs left then some m else none
  | fuel + 1, it, m =>
    if it.eq segs left then some m
    else match it.pt with
      | none => none
      | some k =>
        let size := len segs it.seg
        if 2 < size ∧ lastNotAfter segs left it = true ∧ k = 1 then
          distanceLoop segs left fuel { it with pt := some (size - 1) } (m + (size - 2))
        else match it.incr segs with
          | none => none
          | some it => distanceLoop segs left fuel it (m + 1)

/-- physics/discrete_trajectory_iterator_body.hpp:169-195: `operator-` for two iterators.  The fuel is the number of points of all the
segments. -/
def Iter.distance (segs : List (Seg T D H E)) (left right : Iter) : Option Nat :=
  distanceLoop segs left ((segs.map fun s => s.timeline.length).sum + 1) right 0

/-- physics/discrete_trajectory_segment_body.hpp:50-54. -/
def segBegin (segs : List (Seg T D H E)) (s : Nat) : Iter := Iter.mk' segs s (some 0)

/-- physics/discrete_trajectory_segment_body.hpp:56-67. -/
def segEnd (segs : List (Seg T D H E)) (s : Nat) : Option Iter :=
  if len segs s = 0 then some (Iter.mk' segs s (some 0)) else (Iter.mk' segs s (some (len segs s - 1))).incr segs

/-- physics/discrete_trajectory_body.hpp:54-59. -/
def Trajectory.endIt (tr : Trajectory T D H E) : Iter := Iter.mk' tr.segs tr.segs.length none

/-- physics/discrete_trajectory_body.hpp:43-52. -/
def Trajectory.beginIt (tr : Trajectory T D H E) : Iter :=
  match tr.map with
  | [] => tr.endIt
  | e :: _ => segBegin tr.segs e.2

/-- physics/discrete_trajectory_segment_body.hpp:319-328. -/
def findOrNullopt (segs : List (Seg T D H E)) (s : Nat) (t : T) : Option Iter :=
  match segs[s]? with
  | none => none
  | some seg =>
    let it := lowerBound seg.timeline t
    match seg.timeline[it]? with
    | none => none
    | some a => if a.1 = t then some (Iter.mk' segs s (some it)) else none

/-- physics/discrete_trajectory_segment_body.hpp:330-339. -/
def lowerBoundOrNullopt (segs : List (Seg T D H E)) (s : Nat) (t : T) : Option Iter :=
  match segs[s]? with
  | none => none
  | some seg =>
    let it := lowerBound seg.timeline t
    if it = seg.timeline.length then none else some (Iter.mk' segs s (some it))

/-- physics/discrete_trajectory_segment_body.hpp:341-350. -/
def upperBoundOrNullopt (segs : List (Seg T D H E)) (s : Nat) (t : T) : Option Iter :=
  match segs[s]? with
  | none => none
  | some seg =>
    let it := upperBound seg.timeline t
    if it = seg.timeline.length then none else some (Iter.mk' segs s (some it))

/-- physics/discrete_trajectory_body.hpp:102-112. -/
def Trajectory.find (tr : Trajectory T D H E) (t : T) : Option Iter :=
  match findSegment tr.map t with
  | none => some tr.endIt
  | some leit => do
    let e ← tr.map[leit]?
    some ((findOrNullopt tr.segs e.2 t).getD tr.endIt)

/-- physics/discrete_trajectory_body.hpp:114-125. -/
def Trajectory.lowerBound (tr : Trajectory T D H E) (t : T) : Option Iter :=
  match findSegment tr.map t with
  | none => some tr.beginIt
  | some leit => do
    let e ← tr.map[leit]?
    some ((lowerBoundOrNullopt tr.segs e.2 t).getD tr.endIt)

/-- physics/discrete_trajectory_body.hpp:127-138. -/
def Trajectory.upperBound (tr : Trajectory T D H E) (t : T) : Option Iter :=
  match findSegment tr.map t with
  | none => some tr.beginIt
  | some leit => do
    let e ← tr.map[leit]?
    some ((upperBoundOrNullopt tr.segs e.2 t).getD tr.endIt)

/-- physics/discrete_trajectory_segment_body.hpp:100-119: the lookups in a segment. -/
def segFind (segs : List (Seg T D H E)) (s : Nat) (t : T) : Option Iter :=
  match findOrNullopt segs s t with
  | some it => some it
  | none => segEnd segs s

/-- physics/discrete_trajectory_segment_body.hpp:107-112. -/
def segLowerBound (segs : List (Seg T D H E)) (s : Nat) (t : T) : Option Iter :=
  match lowerBoundOrNullopt segs s t with
  | some it => some it
  | none => segEnd segs s

/-- physics/discrete_trajectory_segment_body.hpp:114-119. -/
def segUpperBound (segs : List (Seg T D H E)) (s : Nat) (t : T) : Option Iter :=
  match upperBoundOrNullopt segs s t with
  | some it => some it
  | none => segEnd segs s

end Principia.DiscreteTrajectory
