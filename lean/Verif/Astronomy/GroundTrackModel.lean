import Verif.Numerics.AngleReductionModel
import Mathlib.Data.EReal.Basic

/-!
# Model of `astronomy/orbit_ground_track_body.hpp` and `geometry/interval_body.hpp`

Simplifications: exact real arithmetic.  The nodes and the rotation of the primary are not modelled: the functions start from the longitudes of the equator crossings and from the mean solar times.
The choice of the quadrant by `ReduceAngle` is a parameter, as in the model of that function.
-/

namespace Principia.GroundTrack

open Real Principia.Numerics.AngleReduction

noncomputable section

/-- geometry/interval.hpp:16-40 `Interval`; the interval is empty by default. -/
structure Interval where
  min : EReal := ⊤
  max : EReal := ⊥

/-- geometry/interval_body.hpp:23-26 `empty`: the interval has no interior. -/
def Interval.Empty (I : Interval) : Prop := I.max ≤ I.min

open Classical in
/-- geometry/interval_body.hpp:18-21 `measure`. -/
def Interval.measure (I : Interval) : EReal := if I.max ≥ I.min then I.max - I.min else 0

/-- geometry/interval_body.hpp:38-42 `Include`. -/
def Interval.include (I : Interval) (x : EReal) : Interval := ⟨Min.min I.min x, Max.max I.max x⟩

/-- geometry/interval_body.hpp:44-48 `Intersection`. -/
def intersection (left right : Interval) : Interval := ⟨Max.max left.min right.min, Min.min left.max right.max⟩

/-- `std::nearbyint` in the default rounding mode: ties are rounded to even. -/
def nearbyint (x : ℝ) : ℤ := if Int.fract x = 1 / 2 ∧ ⌊x⌋ % 2 = 0 then ⌊x⌋ else round x

/-- numerics/elementary_functions_body.hpp:268-271 `UnwindFrom`. -/
def unwindFrom (previous α : ℝ) : ℝ := α + nearbyint ((previous - α) / (2 * π)) * (2 * π)

/-- astronomy/orbit_ground_track_body.hpp:67-78 and 89-100: the loops of `MeanSolarTimesOfNodes` and `ReducedLongitudesOfEquatorialCrossings`, over the angles that are unwound. -/
def unwindLoop (quadrant : ℝ → ℤ) : Option ℝ → Interval → List ℝ → Interval
  | _, I, [] => I
  | none, I, α :: rest =>
    let β := reducePositive (quadrant α) α
    unwindLoop quadrant (some β) (I.include β) rest
  | some previous, I, α :: rest =>
    let β := unwindFrom previous α
    unwindLoop quadrant (some β) (I.include β) rest

/-- astronomy/orbit_ground_track_body.hpp:54-61 `MeanSolarTime`, given the celestial longitude and the time. -/
def meanSolarTime (epoch meanLongitudeAtEpoch year : ℝ) (node : ℝ × ℝ) : ℝ :=
  let t := node.1 - epoch
  π + node.2 - (meanLongitudeAtEpoch + 2 * π * t / year)

/-- astronomy/orbit_ground_track_body.hpp:63-79 `MeanSolarTimesOfNodes`.  The nodes are given by their times and celestial longitudes. -/
def meanSolarTimesOfNodes (quadrant : ℝ → ℤ) (epoch meanLongitudeAtEpoch year : ℝ) (nodes : List (ℝ × ℝ)) : Interval :=
  unwindLoop quadrant none {} (nodes.map (meanSolarTime epoch meanLongitudeAtEpoch year))

/-- astronomy/orbit_ground_track_body.hpp:85-101 `ReducedLongitudesOfEquatorialCrossings`, where `shift` is the equatorial shift. -/
def reducedLongitudes (quadrant : ℝ → ℤ) (longitudes : List ℝ) (shift initialOffset : ℝ) : Interval :=
  unwindLoop quadrant none {} (longitudes.mapIdx fun n longitude => longitude - initialOffset - n * shift)

/-- astronomy/orbit_ground_track.hpp:42-60 `EquatorCrossingLongitudes`; of the nominal recurrence, only the equatorial shift is kept. -/
structure EquatorCrossingLongitudes where
  shift : ℝ
  ascending : Interval := {}
  descending : Interval := {}

/-- astronomy/orbit_ground_track_body.hpp:166-197 `equator_crossing_longitudes`, where `shift` and `δ` are the equatorial shift and the grid interval of the recurrence. -/
def equatorCrossingLongitudes (quadrant : ℝ → ℤ) (ascending descending : List ℝ) (descendingFirst : Bool) (shift δ : ℝ) (firstAscendingPassIndex : ℤ) : EquatorCrossingLongitudes :=
  match ascending with
  | [] => { shift := shift }
  | l₀ :: _ =>
    let initialOffset := ⌊l₀ / δ⌋ * δ + ((firstAscendingPassIndex - 1).tdiv 2 : ℤ) * shift
    { shift := shift
      ascending := reducedLongitudes quadrant ascending shift initialOffset
      descending := reducedLongitudes quadrant descending shift (if descendingFirst then initialOffset - shift else initialOffset) }

/-- astronomy/orbit_ground_track_body.hpp:103-122 `longitudes_reduced_to_pass`, for intervals whose bounds are numbers; the bounds of the result. -/
def EquatorCrossingLongitudes.reducedToPass (e : EquatorCrossingLongitudes) (passIndex : ℤ) : ℝ × ℝ :=
  let shift : ℝ := if passIndex.tmod 2 = 1 then ((passIndex - 1).tdiv 2 : ℤ) * e.shift else ((passIndex - 2).tdiv 2 : ℤ) * e.shift
  let longitudes := if passIndex.tmod 2 = 1 then e.ascending else e.descending
  let min := longitudes.min.toReal
  let max := longitudes.max.toReal
  let midpoint := min + (max - min) / 2
  let reduction := -(⌊(midpoint + shift) / (2 * π)⌋ : ℝ) * (2 * π)
  (min + shift + reduction, max + shift + reduction)

/-- astronomy/orbit_ground_track_body.hpp:158-162: whether the first descending pass is before the first ascending pass, given the times of the nodes.  `none` is undefined behaviour: the iterator to the end of an empty container is dereferenced. -/
def descendingFirst (ascendingTimes descendingTimes : List ℝ) : Option Prop := do
  let firstAscending ← ascendingTimes.head?
  let firstDescending ← descendingTimes.head?
  some (ascendingTimes ≠ [] ∧ descendingTimes ≠ [] ∧ firstDescending < firstAscending)

end

end Principia.GroundTrack
