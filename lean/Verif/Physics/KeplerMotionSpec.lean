import Verif.Physics.KeplerMotionModel
import Verif.Physics.KeplerSpec
import Verif.Geometry.Calculus
import Mathlib.Analysis.Calculus.Deriv.Basic
import Mathlib.Topology.ContinuousOn
import Mathlib.Order.Interval.Set.UnorderedInterval

/-!
The specification of Keplerian motion, for C56: Newton's equations, the integrals of the motion, and the frame of the orbit.
-/

set_option linter.unusedSimpArgs false
set_option linter.unusedVariables false
set_option linter.unusedSectionVars false

namespace Principia.Physics.Kepler

open Geometry

/-- What is expected of the root finder: it finds an exact root of a continuous function between two bounds at which the function does not have the same strict sign.
The bounds may be in any order. -/
def IsRootFinder (brent : RootFinder) : Prop :=
  ∀ (f : ℝ → ℝ) (a b : ℝ), Continuous f → f a * f b ≤ 0 → ∃ x ∈ Set.uIcc a b, f x = 0 ∧ brent f a b = some x

/-- The displacement `q` and velocity `v` obey Newton's law of gravitation: the velocity is the derivative of the displacement, and the acceleration is directed to the
primary and inversely proportional to the square of the distance. -/
structure Newton (μ : ℝ) (q v : ℝ → R3 ℝ) : Prop where
  velocity : ∀ t, HasDeriv q (v t) t
  acceleration : ∀ t, HasDeriv v (-(μ / (q t).norm ^ 3) • q t) t
  distance : ∀ t, 0 < (q t).norm

/-- The plane of the orbit, defined by the classical orientation elements: the inclination, the longitude of the ascending node, and the argument of the periapsis. -/
structure Plane where
  i : ℝ
  Ω : ℝ
  ω : ℝ

namespace Plane

open Real

/-- The direction of the ascending node. -/
noncomputable def node (p : Plane) : R3 ℝ := ⟨cos p.Ω, sin p.Ω, 0⟩

/-- The direction of the angular momentum. -/
noncomputable def normal (p : Plane) : R3 ℝ := ⟨sin p.Ω * sin p.i, -cos p.Ω * sin p.i, cos p.i⟩

/-- The direction at a given angle from the ascending node, in the direction of the motion. -/
noncomputable def direction (p : Plane) (u : ℝ) : R3 ℝ := cos u • p.node + sin u • p.normal.cross p.node

/-- The direction at a given true anomaly. -/
noncomputable def atTrueAnomaly (p : Plane) (ν : ℝ) : R3 ℝ := p.direction (p.ω + ν)

/-- The direction of the periapsis. -/
noncomputable def periapsis (p : Plane) : R3 ℝ := p.direction p.ω

end Plane

/-- The state vectors are those of a body on a given conic in a given plane: the energy, the angular momentum and the direction and magnitude of the eccentricity
vector are those of the conic. -/
structure OnConic (c : Conic) (p : Plane) (q v : R3 ℝ) : Prop where
  energy : v.normSq / 2 - c.μ / q.norm = -c.μ / (2 * c.a)
  angularMomentum : q.cross v = √(c.μ * (c.a * (1 - c.e ^ 2))) • p.normal
  eccentricity : (v.cross (q.cross v)).div c.μ - q.div q.norm = c.e • p.periapsis

/-- The orientation elements given to the constructor are those of the plane, and the periapsis is given either by its argument or by its longitude. -/
structure Orientation.Describes (x : Orientation) (p : Plane) : Prop where
  inclination : x.inclination = .num p.i
  node : x.longitudeOfAscendingNode = .num p.Ω
  exactlyOne : x.argumentOfPeriapsis.isSome ≠ x.longitudeOfPeriapsis.isSome
  argument : ∀ v, x.argumentOfPeriapsis = some v → v = .num p.ω
  longitude : ∀ v, x.longitudeOfPeriapsis = some v → v = .num (p.Ω + p.ω)

end Principia.Physics.Kepler
