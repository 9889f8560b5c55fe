import Mathlib.Analysis.SpecialFunctions.Sqrt
import Mathlib.Analysis.SpecialFunctions.Pow.Real
import Mathlib.Analysis.SpecialFunctions.Trigonometric.Inverse

/-!
A model of the completion of the Keplerian elements by physics/kepler_orbit_body.hpp: the elements that determine the conic and its orientation.

Simplifications: a double is a real number, computed exactly, or a NaN.  The infinities are identified with the NaNs.  Units are not modelled, in particular a
radian is the number 1.  The elements of the conic are grouped by the numbered categories of physics/kepler_orbit.hpp:31-59.
-/

set_option linter.unusedSimpArgs false
set_option linter.unusedVariables false
set_option linter.unusedSectionVars false

namespace Principia.Physics.Kepler

/-- A double: a number, or NaN. -/
inductive Fl where
  | nan
  | num (x : ℝ)

namespace Fl

/-- Lifts an operation to the doubles: the result is NaN if an operand is. -/
def lift₂ (f : ℝ → ℝ → Fl) : Fl → Fl → Fl
  | num x, num y => f x y
  | _, _ => nan

instance : Add Fl := ⟨lift₂ fun x y => num (x + y)⟩
instance : Sub Fl := ⟨lift₂ fun x y => num (x - y)⟩
instance : Mul Fl := ⟨lift₂ fun x y => num (x * y)⟩
open Classical in
/-- A division by zero yields an infinity or a NaN, which are not distinguished. -/
noncomputable instance : Div Fl := ⟨lift₂ fun x y => if y = 0 then nan else num (x / y)⟩
instance : Neg Fl := ⟨fun x => match x with
  | nan => nan
  | num x => num (-x)⟩

/-- Lifts a function. -/
def lift (f : ℝ → Fl) : Fl → Fl
  | nan => nan
  | num x => f x

/-- quantities: `Pow<n>`. -/
def pow (n : ℕ) : Fl → Fl := lift fun x => num (x ^ n)

open Classical in
/-- numerics/elementary_functions.hpp: `Sqrt`, NaN for a negative number. -/
noncomputable def sqrt : Fl → Fl := lift fun x => if x < 0 then nan else num (Real.sqrt x)

/-- numerics/elementary_functions.hpp: `Cbrt`. -/
noncomputable def cbrt : Fl → Fl := lift fun x => num (if 0 ≤ x then x ^ (1 / 3 : ℝ) else -((-x) ^ (1 / 3 : ℝ)))

/-- numerics/elementary_functions.hpp: `Abs`. -/
noncomputable def abs : Fl → Fl := lift fun x => num |x|

open Classical in
/-- numerics/elementary_functions.hpp: `ArcSin`, NaN outside of [-1, 1]. -/
noncomputable def arcSin : Fl → Fl := lift fun x => if -1 ≤ x ∧ x ≤ 1 then num (Real.arcsin x) else nan

open Classical in
/-- numerics/elementary_functions.hpp: `ArcCos`, NaN outside of [-1, 1]. -/
noncomputable def arcCos : Fl → Fl := lift fun x => if -1 ≤ x ∧ x ≤ 1 then num (Real.arccos x) else nan

/-- numerics/elementary_functions.hpp: `Sin`. -/
noncomputable def sin : Fl → Fl := lift fun x => num (Real.sin x)

/-- numerics/elementary_functions.hpp: `Cos`. -/
noncomputable def cos : Fl → Fl := lift fun x => num (Real.cos x)

open Classical in
/-- geometry/sign_body.hpp:25-29 (`Sign`) multiplied by a quantity: the sign bit of a NaN is irrelevant here. -/
noncomputable def signTimes (s x : Fl) : Fl := lift₂ (fun s x => if s < 0 then num (-x) else num x) s x

/-- The comparison `x > y`, false for NaNs. -/
def Gt : Fl → Fl → Prop
  | num x, num y => x > y
  | _, _ => False

/-- `x != x`. -/
def IsNaN : Fl → Prop
  | nan => True
  | num _ => False

end Fl

/-- physics/kepler_orbit.hpp:33-37: the first category. -/
@[ext]
structure EccentricityForms where
  eccentricity : Option Fl := none
  asymptoticTrueAnomaly : Option Fl := none
  turningAngle : Option Fl := none

/-- physics/kepler_orbit.hpp:38-47: the second category. -/
@[ext]
structure SemimajorForms where
  semimajorAxis : Option Fl := none
  specificEnergy : Option Fl := none
  characteristicEnergy : Option Fl := none
  meanMotion : Option Fl := none
  period : Option Fl := none
  hyperbolicMeanMotion : Option Fl := none
  hyperbolicExcessVelocity : Option Fl := none

/-- physics/kepler_orbit.hpp:48-51: the third category. -/
@[ext]
structure SemiminorForms where
  semiminorAxis : Option Fl := none
  impactParameter : Option Fl := none

/-- physics/kepler_orbit.hpp:52-55: the fourth category. -/
@[ext]
structure SemilatusForms where
  semilatusRectum : Option Fl := none
  specificAngularMomentum : Option Fl := none

/-- physics/kepler_orbit.hpp:30-59: the elements that determine the shape and size of the conic. -/
@[ext]
structure ConicElements where
  ecc : EccentricityForms := {}
  sma : SemimajorForms := {}
  smi : SemiminorForms := {}
  slr : SemilatusForms := {}
  /-- The fifth category. -/
  periapsisDistance : Option Fl := none
  /-- The sixth category. -/
  apoapsisDistance : Option Fl := none

/-- A Boolean used as an integer. -/
def has {α : Type} (x : Option α) : ℕ := if x.isSome then 1 else 0

namespace EccentricityForms

/-- physics/kepler_orbit_body.hpp:281-283. -/
def specifications (g : EccentricityForms) : ℕ := has g.eccentricity + has g.asymptoticTrueAnomaly + has g.turningAngle

open Fl Real in
/-- physics/kepler_orbit_body.hpp:314-328. -/
noncomputable def fill (g : EccentricityForms) : EccentricityForms :=
  match g.eccentricity, g.turningAngle, g.asymptoticTrueAnomaly with
  | some e, _, _ => { g with
      turningAngle := some (num 2 * arcSin (num 1 / e))
      asymptoticTrueAnomaly := some (arcCos (-num 1 / e)) }
  | none, some δ, _ => { g with
      eccentricity := some (num 1 / Fl.sin (δ / num 2))
      asymptoticTrueAnomaly := some ((δ + num π) / num 2) }
  | none, none, some νInf => { g with
      eccentricity := some (-num 1 / Fl.cos νInf)
      turningAngle := some (num 2 * νInf - num π) }
  | none, none, none => g

/-- physics/kepler_orbit_body.hpp:295-296, 308, 314-328: `none` is a `CHECK` failure. -/
noncomputable def complete (g : EccentricityForms) : Option EccentricityForms :=
  if g.specifications ≤ 1 ∨ g.specifications = 3 then some (if g.specifications = 1 then g.fill else g) else none

end EccentricityForms

namespace SemimajorForms

/-- physics/kepler_orbit_body.hpp:284-288. -/
def specifications (g : SemimajorForms) : ℕ :=
  has g.semimajorAxis + has g.specificEnergy + has g.characteristicEnergy + has g.meanMotion + has g.period + has g.hyperbolicMeanMotion +
    has g.hyperbolicExcessVelocity

open Fl Real in
/-- physics/kepler_orbit_body.hpp:332-390. -/
noncomputable def fill (μ : Fl) (g : SemimajorForms) : SemimajorForms :=
  match g.semimajorAxis, g.specificEnergy, g.characteristicEnergy, g.meanMotion, g.period, g.hyperbolicMeanMotion, g.hyperbolicExcessVelocity with
  | some a, _, _, _, _, _, _ => { g with
      specificEnergy := some (-μ / (num 2 * a))
      characteristicEnergy := some (-μ / a)
      meanMotion := some (sqrt (μ / pow 3 a))
      period := some (num (2 * π) * sqrt (pow 3 a / μ))
      hyperbolicMeanMotion := some (sqrt (μ / pow 3 (-a)))
      hyperbolicExcessVelocity := some (sqrt (-μ / a)) }
  | none, some ε, _, _, _, _, _ => { g with
      semimajorAxis := some (-μ / (num 2 * ε))
      characteristicEnergy := some (num 2 * ε)
      meanMotion := some (num 2 * sqrt (num (-2) * pow 3 ε / pow 2 μ))
      period := some (num π * sqrt (-pow 2 μ / (num 2 * pow 3 ε)))
      hyperbolicMeanMotion := some (num 2 * sqrt (num 2 * pow 3 ε / pow 2 μ))
      hyperbolicExcessVelocity := some (sqrt (num 2 * ε)) }
  | none, none, some c3, _, _, _, _ => { g with
      semimajorAxis := some (-μ / c3)
      specificEnergy := some (c3 / num 2)
      meanMotion := some (sqrt (-pow 3 c3 / pow 2 μ))
      period := some (num (2 * π) * sqrt (-pow 2 μ / pow 3 c3))
      hyperbolicMeanMotion := some (sqrt (pow 3 c3 / pow 2 μ))
      hyperbolicExcessVelocity := some (sqrt c3) }
  | none, none, none, some n, _, _, _ => { g with
      semimajorAxis := some (cbrt (μ / pow 2 n))
      specificEnergy := some (-pow 2 (cbrt (μ * n)) / num 2)
      characteristicEnergy := some (-pow 2 (cbrt (μ * n)))
      period := some (num (2 * π) / n)
      hyperbolicMeanMotion := some (sqrt (-pow 2 n))
      hyperbolicExcessVelocity := some (sqrt (-pow 2 (cbrt (μ * n)))) }
  | none, none, none, none, some T, _, _ => { g with
      semimajorAxis := some (cbrt (μ * pow 2 (T / num (2 * π))))
      specificEnergy := some (-cbrt (pow 2 (num π * μ / T) / num 2))
      characteristicEnergy := some (-cbrt (pow 2 (num (2 * π) * μ / T)))
      meanMotion := some (num (2 * π) / T)
      hyperbolicMeanMotion := some (num (2 * π) * sqrt (num (-1) / pow 2 T))
      hyperbolicExcessVelocity := some (cbrt (num (2 * π) * sqrt (-pow 2 (μ / T)))) }
  | none, none, none, none, none, some nOverI, _ => { g with
      semimajorAxis := some (-cbrt (μ / pow 2 nOverI))
      specificEnergy := some (pow 2 (cbrt (μ * nOverI)) / num 2)
      characteristicEnergy := some (pow 2 (cbrt (μ * nOverI)))
      period := some (num (2 * π) / sqrt (-pow 2 nOverI))
      meanMotion := some (sqrt (-pow 2 nOverI))
      hyperbolicExcessVelocity := some (sqrt (pow 2 (cbrt (μ * nOverI)))) }
  | none, none, none, none, none, none, some vInf => { g with
      semimajorAxis := some (-μ / pow 2 vInf)
      specificEnergy := some (pow 2 vInf / num 2)
      characteristicEnergy := some (pow 2 vInf)
      period := some (num (2 * π) * sqrt (-pow 2 μ / pow 6 vInf))
      meanMotion := some (sqrt (-pow 6 vInf / pow 2 μ))
      hyperbolicMeanMotion := some (sqrt (pow 6 vInf / pow 2 μ)) }
  | none, none, none, none, none, none, none => g

/-- physics/kepler_orbit_body.hpp:297-299, 309, 332-390. -/
noncomputable def complete (μ : Fl) (g : SemimajorForms) : Option SemimajorForms :=
  if g.specifications ≤ 1 ∨ g.specifications = 7 then some (if g.specifications = 1 then g.fill μ else g) else none

end SemimajorForms

namespace SemiminorForms

/-- physics/kepler_orbit_body.hpp:289-290. -/
def specifications (g : SemiminorForms) : ℕ := has g.semiminorAxis + has g.impactParameter

open Fl in
/-- physics/kepler_orbit_body.hpp:391-397. -/
noncomputable def fill (g : SemiminorForms) : SemiminorForms :=
  match g.semiminorAxis, g.impactParameter with
  | some b, _ => { g with impactParameter := some (sqrt (-pow 2 b)) }
  | none, some p => { g with semiminorAxis := some (sqrt (-pow 2 p)) }
  | none, none => g

/-- physics/kepler_orbit_body.hpp:300-302, 310, 391-397. -/
noncomputable def complete (g : SemiminorForms) : Option SemiminorForms :=
  if g.specifications ≤ 1 ∨ g.specifications = 2 then some (if g.specifications = 1 then g.fill else g) else none

end SemiminorForms

namespace SemilatusForms

/-- physics/kepler_orbit_body.hpp:291-292. -/
def specifications (g : SemilatusForms) : ℕ := has g.semilatusRectum + has g.specificAngularMomentum

open Fl in
/-- physics/kepler_orbit_body.hpp:398-405. -/
noncomputable def fill (μ : Fl) (g : SemilatusForms) : SemilatusForms :=
  match g.semilatusRectum, g.specificAngularMomentum with
  | some ℓ, _ => { g with specificAngularMomentum := some (sqrt (μ * ℓ)) }
  | none, some h => { g with semilatusRectum := some (pow 2 h / μ) }
  | none, none => g

/-- physics/kepler_orbit_body.hpp:303-305, 311-312, 398-405. -/
noncomputable def complete (μ : Fl) (g : SemilatusForms) : Option SemilatusForms :=
  if g.specifications ≤ 1 ∨ g.specifications = 2 then some (if g.specifications = 1 then g.fill μ else g) else none

end SemilatusForms

namespace ConicElements

/-- physics/kepler_orbit_body.hpp:261-406 (`CompleteConicParametersByCategory`): `none` is a `CHECK` failure.  The checks on the number of periapsis and apoapsis
distances, each at most 1, always succeed. -/
noncomputable def completeByCategory (μ : Fl) (x : ConicElements) : Option ConicElements :=
  match x.ecc.complete, x.sma.complete μ, x.smi.complete, x.slr.complete μ with
  | some ecc, some sma, some smi, some slr => some { x with ecc := ecc, sma := sma, smi := smi, slr := slr }
  | _, _, _, _ => none

open Classical in
/-- physics/kepler_orbit_body.hpp:470-472, 504-506, 514-516, 523-525: b². -/
noncomputable def bSquared (b p : Fl) : Fl := if b.IsNaN then -Fl.pow 2 p else Fl.pow 2 b

open Fl Classical in
/-- physics/kepler_orbit_body.hpp:429-557: the computation of the main form of each category from two of them.  `*impact_parameter` is undefined behaviour when it is
absent, which never happens after the completion by category: here the value is then a NaN. -/
noncomputable def combine (x : ConicElements) : ConicElements :=
  let p := x.smi.impactParameter.getD nan
  match x.ecc.eccentricity, x.sma.semimajorAxis, x.smi.semiminorAxis, x.slr.semilatusRectum, x.periapsisDistance, x.apoapsisDistance with
  | some e, some a, _, _, _, _ => { x with
      smi := { semiminorAxis := some (a * sqrt (num 1 - pow 2 e)), impactParameter := some (-a * sqrt (pow 2 e - num 1)) }
      slr := { x.slr with semilatusRectum := some (a * (num 1 - pow 2 e)) }
      periapsisDistance := some (a * (num 1 - e))
      apoapsisDistance := some (a * (num 1 + e)) }
  | some e, _, some b, _, _, _ =>
    let absB := if e.Gt (num 1) then p else b
    let ℓ := absB * sqrt (abs (num 1 - pow 2 e))
    let a := ℓ / (num 1 - pow 2 e)
    { x with
      slr := { x.slr with semilatusRectum := some ℓ }
      sma := { x.sma with semimajorAxis := some a }
      periapsisDistance := some (a * (num 1 - e))
      apoapsisDistance := some (a * (num 1 + e)) }
  | some e, _, _, some ℓ, _, _ =>
    let a := ℓ / (num 1 - pow 2 e)
    { x with
      sma := { x.sma with semimajorAxis := some a }
      smi := { semiminorAxis := some (a * sqrt (num 1 - pow 2 e)), impactParameter := some (-a * sqrt (pow 2 e - num 1)) }
      periapsisDistance := some (ℓ / (num 1 + e))
      apoapsisDistance := some (ℓ / (num 1 - e)) }
  | some e, _, _, _, some rPe, _ =>
    let a := rPe / (num 1 - e)
    { x with
      sma := { x.sma with semimajorAxis := some a }
      smi := { semiminorAxis := some (a * sqrt (num 1 - pow 2 e)), impactParameter := some (-a * sqrt (pow 2 e - num 1)) }
      slr := { x.slr with semilatusRectum := some (rPe * (num 1 + e)) }
      apoapsisDistance := some (a * (num 1 + e)) }
  | some e, _, _, _, _, some rAp =>
    let a := rAp / (num 1 + e)
    { x with
      sma := { x.sma with semimajorAxis := some a }
      smi := { semiminorAxis := some (a * sqrt (num 1 - pow 2 e)), impactParameter := some (-a * sqrt (pow 2 e - num 1)) }
      slr := { x.slr with semilatusRectum := some (rAp * (num 1 - e)) }
      periapsisDistance := some (a * (num 1 - e)) }
  | _, some a, some b, _, _, _ =>
    let b2 := bSquared b p
    let s := signTimes a (sqrt (pow 2 a - b2))
    { x with
      ecc := { x.ecc with eccentricity := some (sqrt (num 1 - b2 / pow 2 a)) }
      slr := { x.slr with semilatusRectum := some (b2 / a) }
      periapsisDistance := some (a - s)
      apoapsisDistance := some (a + s) }
  | _, some a, _, some ℓ, _, _ =>
    let e := sqrt (num 1 - ℓ / a)
    { x with
      ecc := { x.ecc with eccentricity := some e }
      smi := { semiminorAxis := some (sqrt (a * ℓ)), impactParameter := some (sqrt (-a * ℓ)) }
      periapsisDistance := some (ℓ / (num 1 + e))
      apoapsisDistance := some (ℓ / (num 1 - e)) }
  | _, some a, _, _, some rPe, _ => { x with
      ecc := { x.ecc with eccentricity := some (num 1 - rPe / a) }
      smi := { semiminorAxis := some (sqrt ((num 2 * a - rPe) * rPe)), impactParameter := some (sqrt ((rPe - num 2 * a) * rPe)) }
      slr := { x.slr with semilatusRectum := some (rPe * (num 2 - rPe / a)) }
      apoapsisDistance := some (num 2 * a - rPe) }
  | _, some a, _, _, _, some rAp => { x with
      ecc := { x.ecc with eccentricity := some (rAp / a - num 1) }
      smi := { semiminorAxis := some (sqrt ((num 2 * a - rAp) * rAp)), impactParameter := some (sqrt ((rAp - num 2 * a) * rAp)) }
      slr := { x.slr with semilatusRectum := some (rAp * (num 2 - rAp / a)) }
      periapsisDistance := some (num 2 * a - rAp) }
  | _, _, some b, some ℓ, _, _ =>
    let b2 := bSquared b p
    let e := sqrt (num 1 - pow 2 ℓ / b2)
    { x with
      ecc := { x.ecc with eccentricity := some e }
      sma := { x.sma with semimajorAxis := some (b2 / ℓ) }
      periapsisDistance := some (ℓ / (num 1 + e))
      apoapsisDistance := some (ℓ / (num 1 - e)) }
  | _, _, some b, _, some rPe, _ =>
    let b2 := bSquared b p
    { x with
      ecc := { x.ecc with eccentricity := some ((b2 - pow 2 rPe) / (b2 + pow 2 rPe)) }
      sma := { x.sma with semimajorAxis := some ((b2 + pow 2 rPe) / (num 2 * rPe)) }
      slr := { x.slr with semilatusRectum := some (num 2 * b2 * rPe / (b2 + pow 2 rPe)) }
      apoapsisDistance := some (b2 / rPe) }
  | _, _, some b, _, _, some rAp =>
    let b2 := bSquared b p
    { x with
      ecc := { x.ecc with eccentricity := some ((pow 2 rAp - b2) / (b2 + pow 2 rAp)) }
      sma := { x.sma with semimajorAxis := some ((b2 + pow 2 rAp) / (num 2 * rAp)) }
      slr := { x.slr with semilatusRectum := some (num 2 * b2 * rAp / (b2 + pow 2 rAp)) }
      periapsisDistance := some (b2 / rAp) }
  | _, _, _, some ℓ, some rPe, _ =>
    let a := pow 2 rPe / (num 2 * rPe - ℓ)
    { x with
      ecc := { x.ecc with eccentricity := some (ℓ / rPe - num 1) }
      sma := { x.sma with semimajorAxis := some a }
      smi := { semiminorAxis := some (sqrt (a * ℓ)), impactParameter := some (sqrt (-a * ℓ)) }
      apoapsisDistance := some (ℓ * rPe / (num 2 * rPe - ℓ)) }
  | _, _, _, some ℓ, _, some rAp =>
    let a := pow 2 rAp / (num 2 * rAp - ℓ)
    { x with
      ecc := { x.ecc with eccentricity := some (num 1 - ℓ / rAp) }
      sma := { x.sma with semimajorAxis := some a }
      smi := { semiminorAxis := some (sqrt (a * ℓ)), impactParameter := some (sqrt (-a * ℓ)) }
      periapsisDistance := some (ℓ * rAp / (num 2 * rAp - ℓ)) }
  -- physics/kepler_orbit_body.hpp:549 tests the periapsis distance twice, but there are exactly two elements.
  | _, _, _, _, some rPe, some rAp => { x with
      ecc := { x.ecc with eccentricity := some ((rAp - rPe) / (rAp + rPe)) }
      sma := { x.sma with semimajorAxis := some ((rAp + rPe) / num 2) }
      smi := { semiminorAxis := some (sqrt (rAp * rPe)), impactParameter := some (sqrt (-rAp * rPe)) }
      slr := { x.slr with semilatusRectum := some (num 2 * rAp * rPe / (rAp + rPe)) } }
  | _, _, _, _, _, _ => x

/-- physics/kepler_orbit_body.hpp:422-424. -/
def categories (x : ConicElements) : ℕ :=
  has x.ecc.eccentricity + has x.sma.semimajorAxis + has x.smi.semiminorAxis + has x.slr.semilatusRectum + has x.periapsisDistance + has x.apoapsisDistance

/-- physics/kepler_orbit_body.hpp:408-560 (`CompleteConicParameters`): `none` is a `CHECK` failure. -/
noncomputable def complete (μ : Fl) (x : ConicElements) : Option ConicElements :=
  match x.completeByCategory μ with
  | none => none
  | some y => if y.categories = 2 then y.combine.completeByCategory μ else none

end ConicElements

/-- physics/kepler_orbit.hpp:61-66: the elements that determine the orientation of the conic. -/
@[ext]
structure Orientation where
  inclination : Fl
  longitudeOfAscendingNode : Fl
  argumentOfPeriapsis : Option Fl
  longitudeOfPeriapsis : Option Fl

/-- physics/kepler_orbit_body.hpp:562-580 (`CompleteOrientationParameters`): `none` is a `CHECK` failure. -/
def Orientation.complete (x : Orientation) : Option Orientation :=
  match x.argumentOfPeriapsis, x.longitudeOfPeriapsis with
  | some ω, none => some { x with longitudeOfPeriapsis := some (x.longitudeOfAscendingNode + ω) }
  | none, some ϖ => some { x with argumentOfPeriapsis := some (ϖ - x.longitudeOfAscendingNode) }
  | _, _ => none

end Principia.Physics.Kepler
