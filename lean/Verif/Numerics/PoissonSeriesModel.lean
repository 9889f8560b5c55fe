import Mathlib.Algebra.Polynomial.Eval.Defs
import Mathlib.Algebra.Polynomial.Derivative
import Mathlib.Analysis.SpecialFunctions.Trigonometric.Basic

/-!
A model of numerics/poisson_series_body.hpp: the Poisson series.

Simplifications: exact real arithmetic; the values, the instants and the angular frequencies are real numbers.  A polynomial in the monomial basis is an element of `ℝ[X]`, in the variable t - origin (its representation as an array
of coefficients is the subject of C38, in PolynomialModel.lean).  All the polynomials of a series have the same origin, which is checked by the code when it builds a series; so the origin is stored only in the series.  The
degrees are not part of the types: where they matter they are parameters.  `Norm`, `InnerProduct` and the serialization are not modelled.
-/

set_option linter.unusedVariables false

namespace Principia.Numerics.Poisson

open Polynomial

noncomputable section

/-- numerics/poisson_series.hpp:74-80: an element of `PolynomialsByAngularFrequency`. -/
@[ext]
structure Term where
  ω : ℝ
  sin : ℝ[X]
  cos : ℝ[X]

/-- numerics/poisson_series.hpp:151-155: the member variables. -/
structure Series where
  origin : ℝ
  aperiodic : ℝ[X]
  periodic : List Term

/-- numerics/poisson_series_body.hpp:271-281 (`operator()`): the terms of the sum. -/
def Term.at (x : Term) (Δt : ℝ) : ℝ := x.sin.eval Δt * Real.sin (x.ω * Δt) + x.cos.eval Δt * Real.cos (x.ω * Δt)

/-- numerics/poisson_series_body.hpp:271-281 (`operator()`). -/
def Series.at (s : Series) (t : ℝ) : ℝ :=
  let Δt := t - s.origin
  s.periodic.foldl (fun result x => result + x.at Δt) (s.aperiodic.eval Δt)

open Classical in
/-- numerics/poisson_series_body.hpp:450-487: the loop of the constructor.  `previous` is `previous_abs_ω`; `kept` has the elements of `periodic_` before the iterator, the last first; the list has the elements from the
iterator on.  `zeroAllowed` is the condition on the degrees.  The outcome is `none` if the check on the degrees fails, or if the iterator is decremented at the beginning of the vector. -/
def group (zeroAllowed : Bool) : Option ℝ → List Term → ℝ[X] → List Term → Option (ℝ[X] × List Term)
  | _, kept, aperiodic, [] => some (aperiodic, kept.reverse)
  | previous, kept, aperiodic, x :: rest =>
    if x.ω < 0 then
      if previous = some (-x.ω) then
        match kept with
        | [] => none
        | y :: kept => group zeroAllowed (some |x.ω|) (⟨y.ω, y.sin - x.sin, y.cos + x.cos⟩ :: kept) aperiodic rest
      else group zeroAllowed (some |x.ω|) (⟨-x.ω, -x.sin, x.cos⟩ :: kept) aperiodic rest
    else if x.ω > 0 then
      if previous = some x.ω then
        match kept with
        | [] => none
        | y :: kept => group zeroAllowed (some |x.ω|) (⟨y.ω, y.sin + x.sin, y.cos + x.cos⟩ :: kept) aperiodic rest
      else group zeroAllowed (some |x.ω|) (x :: kept) aperiodic rest
    else if zeroAllowed then group zeroAllowed (some |x.ω|) kept (aperiodic + x.cos) rest
    else none

/-- numerics/poisson_series_body.hpp:425-488: the constructor.  `sort` is `std::sort` with the comparison by absolute value of the frequency. -/
def construct (sort : List Term → List Term) (zeroAllowed : Bool) (origin : ℝ) (aperiodic : ℝ[X]) (periodic : List Term) : Option Series :=
  (group zeroAllowed none [] aperiodic (sort periodic)).map fun (aperiodic, periodic) => ⟨origin, aperiodic, periodic⟩

/-- numerics/poisson_series_body.hpp:261-266 (`max_ω`). -/
def Series.maxω (s : Series) : ℝ := (s.periodic.getLast?.map Term.ω).getD 0

/-- numerics/poisson_series_body.hpp:283-306 (`AtOrigin`). -/
def Series.atOrigin (s : Series) (origin : ℝ) : Series :=
  let shift := origin - s.origin
  ⟨origin, s.aperiodic.comp (X + C shift), s.periodic.map fun x =>
    let sinAtOrigin := x.sin.comp (X + C shift)
    let cosAtOrigin := x.cos.comp (X + C shift)
    ⟨x.ω, sinAtOrigin * C (Real.cos (x.ω * shift)) - cosAtOrigin * C (Real.sin (x.ω * shift)), sinAtOrigin * C (Real.sin (x.ω * shift)) + cosAtOrigin * C (Real.cos (x.ω * shift))⟩⟩

/-- numerics/polynomial_in_monomial_basis_body.hpp (`Primitive`): the primitive whose constant term is zero. -/
def polynomialPrimitive (p : ℝ[X]) : ℝ[X] := p.sum fun n a => monomial (n + 1) (a / (n + 1))

/-- numerics/poisson_series_body.hpp:72-108 (`AngularFrequencyPrimitive`), where `degree` is the degree of the polynomials. -/
def angularFrequencyPrimitive (ω : ℝ) : ℕ → ℝ[X] × ℝ[X] → ℝ[X] × ℝ[X]
  | 0, (sin, cos) => (C ω⁻¹ * cos, C ω⁻¹ * -sin)
  | degree + 1, (sin, cos) =>
    let secondPart := angularFrequencyPrimitive ω degree (C ω⁻¹ * -derivative cos, C ω⁻¹ * derivative sin)
    (C ω⁻¹ * cos + secondPart.1, C ω⁻¹ * -sin + secondPart.2)

/-- numerics/poisson_series_body.hpp:308-327 (`Primitive`), for a series whose degrees are such that zero frequencies are allowed or not. -/
def Series.primitive (sort : List Term → List Term) (zeroAllowed : Bool) (periodicDegree : ℕ) (s : Series) : Option Series :=
  construct sort zeroAllowed s.origin (polynomialPrimitive s.aperiodic) (s.periodic.map fun x =>
    let polynomials := angularFrequencyPrimitive x.ω periodicDegree (x.sin, x.cos)
    ⟨x.ω, polynomials.1, polynomials.2⟩)

/-- numerics/poisson_series_body.hpp:44-70 (`AngularFrequencyIntegrate`), where `degree` is the degree of the polynomials, and Δt1 and Δt2 are the times since their origin. -/
def angularFrequencyIntegrate (ω : ℝ) (Δt1 Δt2 sinωt1 cosωt1 sinωt2 cosωt2 : ℝ) : ℕ → ℝ[X] → ℝ[X] → ℝ
  | 0, p, q => (q.eval Δt2 * sinωt2 - p.eval Δt2 * cosωt2 - q.eval Δt1 * sinωt1 + p.eval Δt1 * cosωt1) / ω
  | degree + 1, p, q =>
    (q.eval Δt2 * sinωt2 - p.eval Δt2 * cosωt2 - q.eval Δt1 * sinωt1 + p.eval Δt1 * cosωt1 +
      angularFrequencyIntegrate ω Δt1 Δt2 sinωt1 cosωt1 sinωt2 cosωt2 degree (-derivative q) (derivative p)) / ω

/-- numerics/poisson_series_body.hpp:329-352 (`Integrate`). -/
def Series.integrate (periodicDegree : ℕ) (s : Series) (t1 t2 : ℝ) : ℝ :=
  s.periodic.foldl (fun result x =>
      result + angularFrequencyIntegrate x.ω (t1 - s.origin) (t2 - s.origin) (Real.sin (x.ω * (t1 - s.origin))) (Real.cos (x.ω * (t1 - s.origin)))
        (Real.sin (x.ω * (t2 - s.origin))) (Real.cos (x.ω * (t2 - s.origin))) periodicDegree x.sin x.cos)
    ((polynomialPrimitive s.aperiodic).eval (t2 - s.origin) - (polynomialPrimitive s.aperiodic).eval (t1 - s.origin))

open Classical in
/-- numerics/poisson_series_body.hpp:501-539 (`Split`): the slow and the fast series. -/
def Series.split (s : Series) (ωCutoff : ℝ) : Series × Series :=
  let slow := s.periodic.filter fun x => decide (x.ω ≤ ωCutoff)
  let fast := s.periodic.filter fun x => !decide (x.ω ≤ ωCutoff)
  if slow.isEmpty then (⟨s.origin, 0, slow⟩, ⟨s.origin, s.aperiodic, fast⟩)
  else (⟨s.origin, s.aperiodic, slow⟩, ⟨s.origin, 0, fast⟩)

/-- numerics/poisson_series_body.hpp:550-569 (unary `operator-`). -/
def Series.neg (s : Series) : Series := ⟨s.origin, -s.aperiodic, s.periodic.map fun x => ⟨x.ω, -x.sin, -x.cos⟩⟩

open Classical in
/-- numerics/poisson_series_body.hpp:592-628: the merge of the addition.  A vector which is exhausted has an infinite frequency. -/
def mergeAdd : List Term → List Term → List Term
  | [], right => right
  | left, [] => left
  | l :: left, r :: right =>
    if l.ω < r.ω then l :: mergeAdd left (r :: right)
    else if r.ω < l.ω then r :: mergeAdd (l :: left) right
    else ⟨l.ω, l.sin + r.sin, l.cos + r.cos⟩ :: mergeAdd left right
  termination_by left right => left.length + right.length

/-- numerics/poisson_series_body.hpp:571-634 (binary `operator+`).  The polynomials must have the same origin (numerics/polynomial_in_monomial_basis_body.hpp:589). -/
def Series.add (left right : Series) : Option Series :=
  open Classical in
  if left.origin = right.origin then some ⟨left.origin, left.aperiodic + right.aperiodic, mergeAdd left.periodic right.periodic⟩ else none

open Classical in
/-- numerics/poisson_series_body.hpp:656-692: the merge of the subtraction. -/
def mergeSub : List Term → List Term → List Term
  | [], right => right.map fun x => ⟨x.ω, -x.sin, -x.cos⟩
  | left, [] => left
  | l :: left, r :: right =>
    if l.ω < r.ω then l :: mergeSub left (r :: right)
    else if r.ω < l.ω then ⟨r.ω, -r.sin, -r.cos⟩ :: mergeSub (l :: left) right
    else ⟨l.ω, l.sin - r.sin, l.cos - r.cos⟩ :: mergeSub left right
  termination_by left right => left.length + right.length

/-- numerics/poisson_series_body.hpp:636-698 (binary `operator-`). -/
def Series.sub (left right : Series) : Option Series :=
  open Classical in
  if left.origin = right.origin then some ⟨left.origin, left.aperiodic - right.aperiodic, mergeSub left.periodic right.periodic⟩ else none

/-- numerics/poisson_series_body.hpp:700-721 (`operator*` with a scalar on the left), which normalizes the result again. -/
def Series.smul (sort : List Term → List Term) (zeroAllowed : Bool) (c : ℝ) (s : Series) : Option Series :=
  construct sort zeroAllowed s.origin (C c * s.aperiodic) (s.periodic.map fun x => ⟨x.ω, C c * x.sin, C c * x.cos⟩)

/-- numerics/poisson_series_body.hpp:723-744 (`operator*` with a scalar on the right), which doesn't. -/
def Series.mulRight (s : Series) (c : ℝ) : Series := ⟨s.origin, s.aperiodic * C c, s.periodic.map fun x => ⟨x.ω, x.sin * C c, x.cos * C c⟩⟩

/-- numerics/poisson_series_body.hpp:746-767 (`operator/`). -/
def Series.div (s : Series) (c : ℝ) : Series := ⟨s.origin, C c⁻¹ * s.aperiodic, s.periodic.map fun x => ⟨x.ω, C c⁻¹ * x.sin, C c⁻¹ * x.cos⟩⟩

/-- numerics/poisson_series_body.hpp:148-185: the terms of the product. -/
def products (left right : Series) : List Term :=
  (left.periodic.map fun x => ⟨x.ω, x.sin * right.aperiodic, x.cos * right.aperiodic⟩) ++
  (right.periodic.map fun x => ⟨x.ω, left.aperiodic * x.sin, left.aperiodic * x.cos⟩) ++
  left.periodic.flatMap fun l => right.periodic.flatMap fun r =>
    let cosCos := l.cos * r.cos
    let cosSin := l.cos * r.sin
    let sinCos := l.sin * r.cos
    let sinSin := l.sin * r.sin
    [⟨l.ω - r.ω, C (1 / 2) * (-cosSin + sinCos), C (1 / 2) * (sinSin + cosCos)⟩, ⟨l.ω + r.ω, C (1 / 2) * (cosSin + sinCos), C (1 / 2) * (-sinSin + cosCos)⟩]

/-- numerics/poisson_series_body.hpp:110-191 (`Multiply`) and 769-791 (`operator*`).  The degree of the aperiodic polynomial of the result is at least that of its periodic polynomials. -/
def Series.mul (sort : List Term → List Term) (left right : Series) : Option Series :=
  open Classical in
  if left.origin = right.origin then construct sort true left.origin (left.aperiodic * right.aperiodic) (products left right) else none

end

end Principia.Numerics.Poisson
