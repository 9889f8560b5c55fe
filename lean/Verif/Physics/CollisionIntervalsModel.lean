import Verif.Numerics.BrentModel
import Mathlib.Data.Finset.Sort

/-!
# Model of the computation of the collision intervals

physics/apsides_body.hpp: `ComputeCollisionIntervals`.  The instants are real numbers.  The function `distance2` is the squared distance of the trajectory to the centre of the body as a function of time,
physics/apsides_body.hpp:166-175, and `radius2` is the square of its maximal radius.  The arithmetic is exact.  A set of instants is the sorted list of its elements, an iterator is the list of the elements that start
at it, and `previous_it` is the element that it denotes or `none` if it is past the end.
-/

namespace Principia.CollisionIntervals

open Principia.RootFinders

noncomputable section

/-- geometry/interval.hpp. -/
structure Interval where
  min : ℝ
  max : ℝ

/-- physics/apsides_body.hpp:181-188 `apsides_times`, for the sets of the times of the apoapsides and of the periapsides. -/
def apsidesTimes (tMin tMax : ℝ) (apoapsides periapsides : Finset ℝ) : List ℝ := (insert tMin (insert tMax (apoapsides ∪ periapsides))).sort (· ≤ ·)

open Classical in
/-- physics/apsides_body.hpp:215-243: the loop that looks for anomalies: whether they alternate.  `up` and `down` are `at_apoapsis` and `at_periapsis`. -/
def alternates (distance2 : ℝ → ℝ) (up down : Bool) : List ℝ → Bool
  | s :: t :: l =>
    if distance2 s < distance2 t then if up then false else alternates distance2 true false (t :: l)
    else if distance2 t < distance2 s then if down then false else alternates distance2 false true (t :: l)
    else false
  | _ => true

variable (distance2 : ℝ → ℝ) (radius2 : ℝ) (fuel : ℕ)

/-- physics/apsides_body.hpp:273-279 and 312-318: the time at which the trajectory crosses the sphere of maximal radius. -/
def crossing (lower upper : ℝ) : Outcome ℝ := brent (fun t => distance2 t - radius2) fuel lower upper

open Classical in
/-- physics/apsides_body.hpp:293-335: the nested loop, which starts at a periapsis: the end of the interval, and the iterator at the end of the loop. -/
def intervalMax : List ℝ → Outcome (ℝ × List ℝ)
  | [] => .crashed  -- Not reached.
  | [periapsis] => .returned (periapsis, [])
  | periapsis :: apoapsis :: l =>
    if ¬ periapsis ≤ apoapsis then .crashed
    else if distance2 apoapsis > radius2 then (crossing distance2 radius2 fuel periapsis apoapsis).bind fun t => .returned (t, apoapsis :: l)
    else
      match l with
      | [] => .returned (apoapsis, [])
      | p :: l' => intervalMax (p :: l')

open Classical in
/-- physics/apsides_body.hpp:260-286: the beginning of the interval. -/
def intervalMin (tMin : ℝ) (previous : Option ℝ) (periapsis : ℝ) : Outcome ℝ :=
  match previous with
  | none => if periapsis = tMin then .returned periapsis else .crashed
  | some apoapsis =>
    if ¬ apoapsis ≤ periapsis then .crashed
    else if distance2 apoapsis > radius2 then crossing distance2 radius2 fuel apoapsis periapsis
    else if apoapsis = tMin then .returned apoapsis else .crashed

open Classical in
/-- physics/apsides_body.hpp:251-363: the outer loop.  `n` bounds its number of iterations. -/
def intervalsLoop (tMin : ℝ) : ℕ → Option ℝ → List ℝ → List Interval → Outcome (List Interval)
  | _, _, [], intervals => .returned intervals
  | 0, _, _ :: _, _ => .outOfFuel
  | n + 1, previous, periapsis :: l, intervals =>
    if distance2 periapsis < radius2 then
      (intervalMin distance2 radius2 fuel tMin previous periapsis).bind fun min =>
        (intervalMax distance2 radius2 fuel (periapsis :: l)).bind fun max =>
          let intervals := intervals ++ [⟨min, max.1⟩]
          match max.2 with
          | [] => .returned intervals
          | apoapsis :: l' => intervalsLoop tMin n (some apoapsis) l' intervals
    else
      match l with
      | [] => .returned intervals
      | apoapsis :: l' => intervalsLoop tMin n (some apoapsis) l' intervals

open Classical in
/-- physics/apsides_body.hpp:365-369: the consistency of the result. -/
def consistent : List Interval → Bool
  | i :: j :: l => decide (i.max ≤ j.min) && decide (j.min ≤ j.max) && consistent (j :: l)
  | _ => true

open Classical in
/-- physics/apsides_body.hpp:159-372 `ComputeCollisionIntervals`. -/
def computeCollisionIntervals (tMin tMax : ℝ) (apoapsides periapsides : Finset ℝ) : Outcome (List Interval) :=
  match apsidesTimes tMin tMax apoapsides periapsides with
  | first :: second :: l =>
    let start : Option ℝ × List ℝ := if distance2 first < distance2 second then (none, first :: second :: l) else (some first, second :: l)
    if alternates distance2 false false (first :: second :: l) then
      (intervalsLoop distance2 radius2 fuel tMin start.2.length start.1 start.2 []).bind fun intervals => if consistent intervals then .returned intervals else .crashed
    else .returned []
  | _ => .returned []

end

end Principia.CollisionIntervals
