import Verif.Physics.KeplerModel
import Verif.Geometry.MapsModel
import Verif.Geometry.RotationModel
import Mathlib.Analysis.SpecialFunctions.Arcosh
import Mathlib.Analysis.SpecialFunctions.Complex.Arg

/-!
A model of the Keplerian orbits of physics/kepler_orbit_body.hpp: the completion of the anomalies, the construction of an orbit from elements and from state vectors,
and the state vectors at a given time.

Simplifications: the same as in `KeplerModel`.  Brent's method is a parameter.  Times are real numbers.
-/

set_option linter.unusedSimpArgs false
set_option linter.unusedVariables false
set_option linter.unusedSectionVars false

namespace Principia.Physics.Kepler

open Geometry

namespace Fl

/-- numerics/elementary_functions.hpp: `ArcTan` with two arguments, which is the argument of a complex number. -/
noncomputable def arcTan (y x : Fl) : Fl := lift₂ (fun y x => num (Complex.arg ⟨x, y⟩)) y x

open Classical in
/-- numerics/elementary_functions.hpp: `ArcCosh`, NaN for a number less than 1. -/
noncomputable def arcCosh : Fl → Fl := lift fun x => if x < 1 then nan else num (Real.arcosh x)

/-- numerics/elementary_functions.hpp: `Sinh`. -/
noncomputable def sinh : Fl → Fl := lift fun x => num (Real.sinh x)

/-- numerics/elementary_functions.hpp: `Cosh`. -/
noncomputable def cosh : Fl → Fl := lift fun x => num (Real.cosh x)

/-- The comparison `x < y`, false for NaNs. -/
def Lt : Fl → Fl → Prop
  | num x, num y => x < y
  | _, _ => False

/-- The comparison `x == y`, false for NaNs. -/
def Eq : Fl → Fl → Prop
  | num x, num y => x = y
  | _, _ => False

end Fl

open Fl

/-- physics/kepler_orbit.hpp:68-81: the elements that determine a point on the conic. -/
@[ext]
structure Anomalies where
  trueAnomaly : Option Fl := none
  meanAnomaly : Option Fl := none
  hyperbolicMeanAnomaly : Option Fl := none

/-- numerics/root_finders_body.hpp:66-156 (`Brent`): a function from a function and two bounds to an argument; `none` is a `CHECK` failure. -/
abbrev RootFinder := (ℝ → ℝ) → ℝ → ℝ → Option ℝ

open Classical Real in
/-- physics/kepler_orbit_body.hpp:601-603. -/
noncomputable def positiveAngle (α : Fl) : Fl := if α.Gt (num 0) then α else α + num (2 * π)

open Classical in
/-- physics/kepler_orbit_body.hpp:614-622: the eccentric anomaly, from the mean anomaly. -/
noncomputable def eccentricAnomaly (brent : RootFinder) (e M : ℝ) : Option ℝ :=
  if e = 0 then some M else brent (fun E => M - (E - e * Real.sin E)) (M - e) (M + e)

/-- physics/kepler_orbit_body.hpp:629-639: the hyperbolic eccentric anomaly, from the hyperbolic mean anomaly. -/
noncomputable def hyperbolicEccentricAnomaly (brent : RootFinder) (e Mh : ℝ) : Option ℝ :=
  brent (fun H => Mh - (e * Real.sinh H - H)) 0 (Mh / (e - 1))

/-- physics/kepler_orbit_body.hpp:623-626. -/
noncomputable def trueFromEccentric (e E : Fl) : Fl :=
  num 2 * arcTan (sqrt (num 1 + e) * Fl.sin (E / num 2)) (sqrt (num 1 - e) * Fl.cos (E / num 2))

/-- physics/kepler_orbit_body.hpp:640-642. -/
noncomputable def trueFromHyperbolicEccentric (e H : Fl) : Fl :=
  num 2 * arcTan (sqrt (e + num 1) * Fl.sinh (H / num 2)) (sqrt (e - num 1) * Fl.cosh (H / num 2))

/-- physics/kepler_orbit_body.hpp:604-608. -/
noncomputable def meanFromTrue (e ν : Fl) : Fl :=
  let E := arcTan (sqrt (num 1 - pow 2 e) * Fl.sin ν) (e + Fl.cos ν)
  positiveAngle (E - e * Fl.sin E)

/-- physics/kepler_orbit_body.hpp:609-612. -/
noncomputable def hyperbolicMeanFromTrue (e ν : Fl) : Fl :=
  let H := arcCosh ((e + Fl.cos ν) / (num 1 + e * Fl.cos ν))
  e * Fl.sinh H - H

/-- physics/kepler_orbit_body.hpp:590-645 (`CompleteAnomalies`): `none` is a `CHECK` failure.  The search for the zero of a function that yields NaNs is taken to
be a failure. -/
noncomputable def Anomalies.complete (brent : RootFinder) (e : Fl) (x : Anomalies) : Option Anomalies :=
  match x.trueAnomaly, x.meanAnomaly, x.hyperbolicMeanAnomaly with
  | some ν, none, none => some { x with
      meanAnomaly := some (meanFromTrue e ν)
      hyperbolicMeanAnomaly := some (hyperbolicMeanFromTrue e ν) }
  | none, some M, none =>
    match e, M with
    | num e, num M => (eccentricAnomaly brent e M).map fun E => { x with
        trueAnomaly := some (trueFromEccentric (num e) (num E))
        hyperbolicMeanAnomaly := some nan }
    | _, _ => none
  | none, none, some Mh =>
    match e, Mh with
    | num e, num Mh => (hyperbolicEccentricAnomaly brent e Mh).map fun H => { x with
        trueAnomaly := some (trueFromHyperbolicEccentric (num e) (num H))
        meanAnomaly := some nan }
    | _, _ => none
  | _, _, _ => none

/-- physics/kepler_orbit.hpp:92-144: `KeplerOrbit`. -/
structure Orbit where
  /-- `gravitational_parameter_`. -/
  μ : Fl
  conic : ConicElements
  orientation : Orientation
  anomalies : Anomalies
  epoch : ℝ

/-- physics/kepler_orbit_body.hpp:123-138, 582-588: the construction from elements.  The gravitational parameter is the sum of those of the primary and of the
secondary, and that of a massless body is 0. -/
noncomputable def Orbit.ofElements (brent : RootFinder) (μ₁ μ₂ : ℝ) (conic : ConicElements) (orientation : Orientation) (anomalies : Anomalies) (epoch : ℝ) : Option Orbit :=
  let μ := num (μ₁ + μ₂)
  match conic.complete μ with
  | none => none
  | some conic =>
    match orientation.complete, conic.ecc.eccentricity with
    | some orientation, some e => (anomalies.complete brent e).map fun anomalies => ⟨μ, conic, orientation, anomalies, epoch⟩
    | _, _ => none

/-- The state vectors: a failure, NaNs, or a displacement and a velocity. -/
inductive States where
  | abort
  | nan
  | ok (q v : R3 ℝ)

/-- geometry/rotation.hpp:59-63: `EulerAngles::ZXZ`. -/
def zxz : Nat := Rotation.axisConvention 2 0 2

/-- physics/kepler_orbit_body.hpp:236-253: the displacement and velocity, from their norms and directions. -/
noncomputable def assembleStates : (Ω i ω ν r φ speed : Fl) → States
  | num Ω, num i, num ω, num ν, num r, num φ, num speed =>
    let fromOrbitPlane := Rotation.anglesDefineFromFrame Ω i ω zxz
    .ok (r • fromOrbitPlane.apply ⟨Real.cos ν, Real.sin ν, 0⟩) (speed • fromOrbitPlane.apply ⟨-Real.sin (ν - φ), Real.cos (ν - φ), 0⟩)
  | _, _, _, _, _, _, _ => .nan

/-- physics/kepler_orbit_body.hpp:236-253. -/
noncomputable def statesAt (μ e i Ω ω ℓ ε ν : Fl) : States :=
  let r := ℓ / (num 1 + e * Fl.cos ν)
  let φ := arcTan (e * Fl.sin ν) (num 1 + e * Fl.cos ν)
  assembleStates Ω i ω ν r φ (sqrt (num 2 * (ε + μ / r)))

open Classical in
/-- physics/kepler_orbit_body.hpp:222-234: the anomalies at a given time; `none` is a failure. -/
noncomputable def Orbit.anomaliesAt (o : Orbit) (e : Fl) (t : ℝ) : Option Anomalies :=
  if e.Lt (num 1) then
    match o.anomalies.meanAnomaly, o.conic.sma.meanMotion with
    | some M, some n => some { meanAnomaly := some (M + n * num (t - o.epoch)) }
    | _, _ => none
  else if e.Eq (num 1) then none
  else
    match o.anomalies.hyperbolicMeanAnomaly, o.conic.sma.hyperbolicMeanMotion with
    | some M, some n => some { hyperbolicMeanAnomaly := some (M + n * num (t - o.epoch)) }
    | _, _ => none

/-- physics/kepler_orbit_body.hpp:208-254 (`StateVectors`). -/
noncomputable def Orbit.stateVectors (brent : RootFinder) (o : Orbit) (t : ℝ) : States :=
  match o.conic.ecc.eccentricity, o.orientation.argumentOfPeriapsis, o.conic.slr.semilatusRectum, o.conic.sma.specificEnergy with
  | some e, some ω, some ℓ, some ε =>
    match (o.anomaliesAt e t).bind (Anomalies.complete brent e) with
    | some ⟨some ν, _, _⟩ => statesAt o.μ e o.orientation.inclination o.orientation.longitudeOfAscendingNode ω ℓ ε ν
    | _ => .abort
  | _, _, _, _ => .abort

/-- numerics/angle_reduction_body.hpp:172-190 (`ReduceAngle<0.0, 2 * π>`), in exact arithmetic. -/
noncomputable def reduceAngle (θ : ℝ) : ℝ := θ - 2 * Real.pi * ⌊θ / (2 * Real.pi)⌋

/-- physics/kepler_orbit_body.hpp:140-206: the construction from state vectors.  `none` is a failure. -/
noncomputable def Orbit.ofStates (brent : RootFinder) (μ₁ μ₂ : ℝ) (r v : R3 ℝ) (epoch : ℝ) : Option Orbit :=
  let μ := μ₁ + μ₂
  let z : R3 ℝ := ⟨0, 0, 1⟩
  let h := r.cross v
  match r.normalize with
  | none => none
  | some rHat =>
    let eccentricityVector := (v.cross h).div μ - rHat
    let ascendingNode := z.cross h
    let i := z.angleBetween h
    let ω := reduceAngle (orientedAngleBetween ascendingNode eccentricityVector h)
    let Ω := reduceAngle (Complex.arg ⟨ascendingNode.x, ascendingNode.y⟩)
    let trueAnomaly := reduceAngle (orientedAngleBetween eccentricityVector r h)
    let ε := num (v.normSq / 2 - μ / r.norm)
    let e := num eccentricityVector.norm
    let b := sqrt (-num h.normSq / (num 2 * ε))
    let impactParameter := sqrt (num h.normSq / (num 2 * ε))
    let rPe := num h.normSq / ((num 1 + e) * num μ)
    let rAp := -num μ * (num 1 + e) / (num 2 * ε)
    let conic : ConicElements := {
      ecc := { eccentricity := some e }
      sma := { specificEnergy := some ε }
      smi := { semiminorAxis := some b, impactParameter := some impactParameter }
      slr := { specificAngularMomentum := some (num h.norm) }
      periapsisDistance := some rPe
      apoapsisDistance := some rAp }
    let orientation : Orientation := ⟨num i, num Ω, some (num ω), none⟩
    match conic.completeByCategory (num μ), orientation.complete with
    | some conic, some orientation =>
      match conic.ecc.eccentricity with
      | some e => (Anomalies.complete brent e { trueAnomaly := some (num trueAnomaly) }).map fun anomalies => ⟨num μ, conic, orientation, anomalies, epoch⟩
      | none => none
    | _, _ => none

end Principia.Physics.Kepler
