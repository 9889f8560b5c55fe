import Verif.Numerics.ChebyshevModel
import Mathlib.Analysis.SpecialFunctions.Trigonometric.Basic

/-!
A model of the approximation of functions by polynomials in the Чебышёв basis of numerics/approximation_body.hpp and numerics/чебышёв_lobatto_body.hpp.

Simplifications: exact real arithmetic.  The arrays are modelled by functions of the index.  The recursion that subdivides the interval is bounded by a fuel, since it only ends because
the machine numbers are finite, or because the function is regular (the theorems say that some fuel suffices for a continuous function).  `none` is a failed check, or the exhaustion of the fuel.
The callback `stop` has a state, which is what the lambdas of the callers capture by reference.
-/

set_option linter.unusedSimpArgs false
set_option linter.unusedVariables false
set_option linter.unusedSectionVars false

namespace Principia.Numerics.Chebyshev

noncomputable section

/-- numerics/чебышёв_lobatto_body.hpp:25-44 (`ЧебышёвLobattoPoint`). -/
def lobattoPoint (N k : ℕ) : ℝ := Real.cos (Real.pi * k / N)

/-- numerics/approximation_body.hpp:31-46 (`ЧебышёвInterpolationMatrix`). -/
def interpolationMatrix (N j k : ℕ) : ℝ :=
  let pj : ℝ := if j = 0 ∨ j = N then 2 else 1
  let pk : ℝ := if k = 0 ∨ k = N then 2 else 1
  2 * Real.cos (Real.pi * j * k / N) / (pj * pk * N)

/-- `PolynomialInЧебышёвBasis<Value, Argument>`: a polynomial of any degree. -/
abbrev Interpolant := Σ degree, Poly ℝ degree

/-- numerics/approximation_body.hpp:64-78: the evaluations of the function, some of which are reused. -/
def evaluations (f : ℝ → ℝ) (a b : ℝ) (N : ℕ) (previousF : ℕ → ℝ) (k : ℕ) : ℝ :=
  if k % 2 = 0 then previousF (k / 2) else f (0.5 * (b - a) * lobattoPoint N k + (a + b) / 2)

/-- numerics/approximation_body.hpp:80-83: the coefficients. -/
def interpolationCoefficients (N : ℕ) (f : ℕ → ℝ) (j : ℕ) : ℝ := ∑ k ∈ Finset.range (N + 1), interpolationMatrix N j k * f k

/-- numerics/approximation_body.hpp:85-93: the estimate of the error. -/
def errorEstimate (N : ℕ) (previousA a : ℕ → ℝ) : ℝ :=
  ∑ j ∈ Finset.range (N / 2 + 1), |previousA j - a j| + ∑ j ∈ Finset.Ico (N / 2 + 1) (N + 1), |a j|

/-- numerics/approximation_body.hpp:48-117 (`ЧебышёвPolynomialInterpolantImplementation`), with `N = 2 ^ (m + 1)`.  The result is the interpolant and the estimate of the error. -/
def interpolantImplementation (f : ℝ → ℝ) (a b maxError : ℝ) (maxDegree : ℕ) (m : ℕ) (previousF previousA : ℕ → ℝ) : Option (Interpolant × ℝ) :=
  if 2 ^ (m + 1) ≤ maxDegree ∧
      errorEstimate (2 ^ (m + 1)) previousA (interpolationCoefficients (2 ^ (m + 1)) (evaluations f a b (2 ^ (m + 1)) previousF)) > maxError then
    interpolantImplementation f a b maxError maxDegree (m + 1) (evaluations f a b (2 ^ (m + 1)) previousF)
      (interpolationCoefficients (2 ^ (m + 1)) (evaluations f a b (2 ^ (m + 1)) previousF))
  else
    (construct (degree := 2 ^ (m + 1) / 2) (fun j => previousA j) a b).map fun p =>
      (⟨2 ^ (m + 1) / 2, p⟩, errorEstimate (2 ^ (m + 1)) previousA (interpolationCoefficients (2 ^ (m + 1)) (evaluations f a b (2 ^ (m + 1)) previousF)))
termination_by maxDegree + 1 - 2 ^ (m + 1)
decreasing_by
  rename_i h
  have h1 := h.1
  have h2 : 2 ^ (m + 1 + 1) = 2 * 2 ^ (m + 1) := by rw [pow_succ]; ring
  have h3 : 0 < 2 ^ (m + 1) := Nat.pow_pos two_pos
  omega

/-- numerics/approximation_body.hpp:190-209 (`ЧебышёвPolynomialInterpolant`). -/
def interpolant (f : ℝ → ℝ) (lowerBound upperBound maxError : ℝ) (maxDegree : ℕ) : Option (Interpolant × ℝ) :=
  let a := lowerBound
  let b := upperBound
  let fA := f a
  let fB := f b
  interpolantImplementation f a b maxError maxDegree 0 (fun k => if k = 0 then fB else fA)
    (fun j => if j = 0 then 0.5 * (fB + fA) else 0.5 * (fB - fA))

variable {σ : Type}

/-- numerics/approximation_body.hpp:134-137: whether the interval is split in two. -/
def splits (maxError : ℝ) (subdivide : Interpolant → ℝ → Option Bool) (lowerBound upperBound : ℝ) (fullInterpolant : Interpolant) (fullErrorEstimate : ℝ) : Option Bool :=
  let midpoint := (lowerBound + upperBound) / 2
  if fullErrorEstimate ≤ maxError ∨ midpoint = lowerBound ∨ midpoint = upperBound then some false else subdivide fullInterpolant fullErrorEstimate

/-- numerics/approximation_body.hpp:119-188 (`StreamingAdaptiveЧебышёвPolynomialInterpolantImplementation`).  The result is the state of the callback, whether the production of interpolants should
stop, and the estimate of the error. -/
def streaming (f : ℝ → ℝ) (maxError : ℝ) (maxDegree : ℕ) (subdivide : Interpolant → ℝ → Option Bool) (stop : σ → Interpolant → Option (σ × Bool)) :
    ℕ → ℝ → ℝ → σ → Option (σ × Bool × ℝ)
  | 0, _, _, _ => none
  | fuel + 1, lowerBound, upperBound, s =>
    if ¬0 < maxError then none
    else do
      let midpoint := (lowerBound + upperBound) / 2
      let (fullInterpolant, fullErrorEstimate) ← interpolant f lowerBound upperBound maxError maxDegree
      let split ← splits maxError subdivide lowerBound upperBound fullInterpolant fullErrorEstimate
      if split = false then
        let (s, b) ← stop s fullInterpolant
        return (s, b, fullErrorEstimate)
      else
        let (s, lowerInterpolantsStop, lowerErrorEstimate) ← streaming f maxError maxDegree subdivide stop fuel lowerBound midpoint s
        if lowerInterpolantsStop then return (s, true, lowerErrorEstimate)
        else
          let (s, upperInterpolantsStop, upperErrorEstimate) ← streaming f maxError maxDegree subdivide stop fuel midpoint upperBound s
          return (s, upperInterpolantsStop, max lowerErrorEstimate upperErrorEstimate)

/-- numerics/approximation_body.hpp:211-242 (`AdaptiveЧебышёвPolynomialInterpolant`). -/
def adaptive (f : ℝ → ℝ) (lowerBound upperBound maxError : ℝ) (maxDegree : ℕ) (subdivide : Interpolant → ℝ → Option Bool) (fuel : ℕ) : Option (List Interpolant × ℝ) := do
  let (l, _, e) ← streaming f maxError maxDegree subdivide (fun l p => some (l ++ [p], false)) fuel lowerBound upperBound []
  return (l, e)

end

end Principia.Numerics.Chebyshev
