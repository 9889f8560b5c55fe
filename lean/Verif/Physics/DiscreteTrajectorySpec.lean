import Verif.Physics.DiscreteTrajectoryModel

/-!
# Specification of discrete trajectories

A trajectory is seen as a list of segments, each of which is a list of points in increasing order of the times.  The points of the
trajectory are those of its segments.
-/

namespace Principia.DiscreteTrajectory

open Principia.SortedMap

variable {T D H E : Type} [LinearOrder T] [DecidableEq D] [AddCommGroup E] [LinearOrder E]

/-- The points of a segment. -/
def Seg.points (s : Seg T D H E) : List (T × D) := s.timeline.map point

/-- The first point of the segment with the given index. -/
def hd (segs : List (Seg T D H E)) (i : Nat) : Option (T × D) := segs[i]?.bind fun s => s.timeline.head?.map point

/-- The last point of the segment with the given index. -/
def lst (segs : List (Seg T D H E)) (i : Nat) : Option (T × D) := segs[i]?.bind fun s => s.timeline.getLast?.map point

/-- The time of the first point of the segment with the given index. -/
def tm (segs : List (Seg T D H E)) (i : Nat) : Option T := (hd segs i).map Prod.fst

/-- The times of a segment are strictly increasing, and each point except the first one has an interpolation. -/
structure SegInv (s : Seg T D H E) : Prop where
  sorted : Sorted s.timeline
  interpolations : ∀ k a, s.timeline[k]? = some a → (a.2.interpolation.isSome = true ↔ 0 < k)

/-- If a segment is not empty and is followed by another one, the latter starts at the last point of the former. -/
def Chain (segs : List (Seg T D H E)) : Prop := ∀ i, i + 1 < segs.length → ∀ p, lst segs i = some p → hd segs (i + 1) = some p

/-- The segment with index `i` is the last one starting at time `t`. -/
def IsLastAt (segs : List (Seg T D H E)) (t : T) (i : Nat) : Prop :=
  tm segs i = some t ∧ ∀ j, i < j → tm segs j ≠ some t

/-- The time-to-segment map gives, for each time which is the beginning of some segment, the last segment that starts at that time. -/
structure Canon (tr : Trajectory T D H E) : Prop where
  sorted : Sorted tr.map
  mem : ∀ t i, (t, i) ∈ tr.map ↔ IsLastAt tr.segs t i

/-- Consistent trajectories. -/
structure Inv (tr : Trajectory T D H E) : Prop where
  segs : ∀ s ∈ tr.segs, SegInv s
  chain : Chain tr.segs
  canon : Canon tr

/-- The points of a trajectory. -/
def IsPoint (tr : Trajectory T D H E) (t : T) (d : D) : Prop := ∃ s ∈ tr.segs, (t, d) ∈ s.points

/-- The points of a trajectory, in order. -/
def points (segs : List (Seg T D H E)) : List (T × D) := segs.foldl (fun l s => mergeInto l s.points) []

end Principia.DiscreteTrajectory
