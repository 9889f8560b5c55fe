import Verif.Physics.KeplerModel

/-!
The meaning of the Keplerian elements of a conic, for C55: a conic is given by its gravitational parameter, its semimajor axis and its eccentricity, and each element
has a value on it.
-/

set_option linter.unusedSimpArgs false
set_option linter.unusedVariables false
set_option linter.unusedSectionVars false

namespace Principia.Physics.Kepler

open Real Fl

/-- A conic around a primary. -/
structure Conic where
  μ : ℝ
  /-- The semimajor axis, negative for a hyperbola. -/
  a : ℝ
  /-- The eccentricity. -/
  e : ℝ

namespace Conic

/-- An ellipse, possibly a circle. -/
structure IsEllipse (c : Conic) : Prop where
  μ : 0 < c.μ
  a : 0 < c.a
  e₀ : 0 ≤ c.e
  e₁ : c.e < 1

/-- A hyperbola. -/
structure IsHyperbola (c : Conic) : Prop where
  μ : 0 < c.μ
  a : c.a < 0
  e : 1 < c.e

/-- The value of an element that only exists for ellipses. -/
noncomputable def ellipse (c : Conic) (x : ℝ) : Fl := open Classical in if c.e < 1 then num x else nan

/-- The value of an element that only exists for hyperbolae. -/
noncomputable def hyperbola (c : Conic) (x : ℝ) : Fl := open Classical in if c.e < 1 then nan else num x

/-- The elements of the conic. -/
noncomputable def elements (c : Conic) : ConicElements where
  ecc := {
    eccentricity := some (num c.e)
    asymptoticTrueAnomaly := some (c.hyperbola (arccos (-(1 / c.e))))
    turningAngle := some (c.hyperbola (2 * arcsin (1 / c.e))) }
  sma := {
    semimajorAxis := some (num c.a)
    specificEnergy := some (num (-c.μ / (2 * c.a)))
    characteristicEnergy := some (num (-c.μ / c.a))
    meanMotion := some (c.ellipse √(c.μ / c.a ^ 3))
    period := some (c.ellipse (2 * π / √(c.μ / c.a ^ 3)))
    hyperbolicMeanMotion := some (c.hyperbola √(c.μ / (-c.a) ^ 3))
    hyperbolicExcessVelocity := some (c.hyperbola √(c.μ / -c.a)) }
  smi := {
    semiminorAxis := some (c.ellipse (c.a * √(1 - c.e ^ 2)))
    impactParameter := some (c.hyperbola (-c.a * √(c.e ^ 2 - 1))) }
  slr := {
    semilatusRectum := some (num (c.a * (1 - c.e ^ 2)))
    specificAngularMomentum := some (num √(c.μ * (c.a * (1 - c.e ^ 2)))) }
  periapsisDistance := some (num (c.a * (1 - c.e)))
  apoapsisDistance := some (num (c.a * (1 + c.e)))

end Conic

/-- The sixteen elements that determine the shape and size of a conic. -/
inductive Element where
  | eccentricity | asymptoticTrueAnomaly | turningAngle
  | semimajorAxis | specificEnergy | characteristicEnergy | meanMotion | period | hyperbolicMeanMotion | hyperbolicExcessVelocity
  | semiminorAxis | impactParameter
  | semilatusRectum | specificAngularMomentum
  | periapsisDistance
  | apoapsisDistance
  deriving DecidableEq

/-- The numbered categories of the header. -/
def Element.category : Element → ℕ
  | .eccentricity | .asymptoticTrueAnomaly | .turningAngle => 1
  | .semimajorAxis | .specificEnergy | .characteristicEnergy | .meanMotion | .period | .hyperbolicMeanMotion | .hyperbolicExcessVelocity => 2
  | .semiminorAxis | .impactParameter => 3
  | .semilatusRectum | .specificAngularMomentum => 4
  | .periapsisDistance => 5
  | .apoapsisDistance => 6

/-- The value of an element, if there is one. -/
def ConicElements.get (x : ConicElements) : Element → Option Fl
  | .eccentricity => x.ecc.eccentricity
  | .asymptoticTrueAnomaly => x.ecc.asymptoticTrueAnomaly
  | .turningAngle => x.ecc.turningAngle
  | .semimajorAxis => x.sma.semimajorAxis
  | .specificEnergy => x.sma.specificEnergy
  | .characteristicEnergy => x.sma.characteristicEnergy
  | .meanMotion => x.sma.meanMotion
  | .period => x.sma.period
  | .hyperbolicMeanMotion => x.sma.hyperbolicMeanMotion
  | .hyperbolicExcessVelocity => x.sma.hyperbolicExcessVelocity
  | .semiminorAxis => x.smi.semiminorAxis
  | .impactParameter => x.smi.impactParameter
  | .semilatusRectum => x.slr.semilatusRectum
  | .specificAngularMomentum => x.slr.specificAngularMomentum
  | .periapsisDistance => x.periapsisDistance
  | .apoapsisDistance => x.apoapsisDistance

/-- A category is specified by a single element, or completely. -/
inductive CategorySpecified (x : ConicElements) (k : ℕ) : Prop where
  | one (f : Element) (category : f.category = k) (only : ∀ g, g.category = k → ((x.get g).isSome ↔ g = f))
  | all (every : ∀ g, g.category = k → (x.get g).isSome)

/-- No element of the category is given. -/
def CategoryEmpty (x : ConicElements) (k : ℕ) : Prop := ∀ g : Element, g.category = k → x.get g = none

/-- The conic is minimally specified: two categories are specified, the others are empty. -/
def MinimallySpecified (x : ConicElements) : Prop :=
  ∃ j k, j ∈ Finset.Icc 1 6 ∧ k ∈ Finset.Icc 1 6 ∧ j ≠ k ∧ CategorySpecified x j ∧ CategorySpecified x k ∧
    ∀ l ∈ Finset.Icc 1 6, l ≠ j → l ≠ k → CategoryEmpty x l

/-- The given elements are those of the conic, and a NaN is only given together with the rest of its category. -/
def Describes (x : ConicElements) (c : Conic) : Prop :=
  ∀ f v, x.get f = some v → c.elements.get f = some v ∧ (v = nan → ∀ g : Element, g.category = f.category → (x.get g).isSome)

end Principia.Physics.Kepler
