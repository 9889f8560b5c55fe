import Mathlib.Data.Real.Basic

/-!
# Model of `numerics/piecewise_poisson_series_body.hpp`

Simplifications: exact real arithmetic.  A Poisson series is the function that it evaluates (the series themselves are the subject of C85).  A failed check is `none`.
For the Fourier transform, the points of the quadrature are given, in the order of their evaluation, each with the index of its interval; only the values of the function that enter the integral are modelled, not the weights.
The cache is a member of the structure: it is not shared by the copies.
-/

namespace Principia.Numerics.Piecewise

noncomputable section

/-- numerics/piecewise_poisson_series.hpp:131-142: the member variables. -/
structure Piecewise where
  bounds : List ℝ
  series : List (ℝ → ℝ)
  addend : Option (ℝ → ℝ) := none
  cache : Option (List ℝ) := none

open Classical in
/-- numerics/piecewise_poisson_series_body.hpp:30-38: the constructor. -/
def construct (min max : ℝ) (f : ℝ → ℝ) : Option Piecewise := if min < max then some { bounds := [min, max], series := [f] } else none

open Classical in
/-- numerics/piecewise_poisson_series_body.hpp:74-84 `Append`. -/
def Piecewise.append (p : Piecewise) (min max : ℝ) (f : ℝ → ℝ) : Option Piecewise :=
  if min < max then
    if p.bounds.getLast? = some min then some { p with bounds := p.bounds ++ [max], series := p.series ++ [f] } else none
  else none

/-- numerics/piecewise_poisson_series_body.hpp:261-267 `EvaluateAddend`. -/
def Piecewise.evaluateAddend (p : Piecewise) (t : ℝ) : ℝ :=
  match p.addend with
  | some f => f t
  | none => 0

open Classical in
/-- `std::upper_bound`: the number of elements before the first that is larger than t. -/
def upperBound (bounds : List ℝ) (t : ℝ) : ℕ := (bounds.takeWhile fun b => decide (b ≤ t)).length

open Classical in
/-- numerics/piecewise_poisson_series_body.hpp:115-137 `operator()`. -/
def Piecewise.at (p : Piecewise) (t : ℝ) : Option ℝ :=
  let addend := p.evaluateAddend t
  if p.bounds.getLast? = some t then p.series.getLast?.map fun f => f t + addend
  else
    let it := upperBound p.bounds t
    if it = 0 then none
    else if it = p.bounds.length then none
    else p.series[it - 1]?.map fun f => f t + addend

/-- numerics/piecewise_poisson_series_body.hpp:40-55 `operator+=`. -/
def Piecewise.increment (p : Piecewise) (right : ℝ → ℝ) : Piecewise :=
  match p.addend with
  | some addend => { p with addend := some fun t => addend t + right t }
  | none => { p with addend := some right }

/-- numerics/piecewise_poisson_series_body.hpp:57-72 `operator-=`. -/
def Piecewise.decrement (p : Piecewise) (right : ℝ → ℝ) : Piecewise :=
  match p.addend with
  | some addend => { p with addend := some fun t => addend t - right t }
  | none => { p with addend := some fun t => -right t }

/-- numerics/piecewise_poisson_series_body.hpp:277-294, unary `operator-`. -/
def Piecewise.neg (right : Piecewise) : Piecewise :=
  { bounds := right.bounds, series := right.series.map fun f t => -f t, addend := right.addend.map fun f t => -f t }

/-- numerics/piecewise_poisson_series_body.hpp:296-316, `operator*` by a scalar. -/
def Piecewise.smul (left : ℝ) (right : Piecewise) : Piecewise :=
  { bounds := right.bounds, series := right.series.map fun f t => left * f t, addend := right.addend.map fun f t => left * f t }

/-- numerics/piecewise_poisson_series_body.hpp:341-360, `operator/` by a scalar. -/
def Piecewise.div (left : Piecewise) (right : ℝ) : Piecewise :=
  { bounds := left.bounds, series := left.series.map fun f t => f t / right, addend := left.addend.map fun f t => f t / right }

/-- numerics/piecewise_poisson_series_body.hpp:407-434, `operator-` of a Poisson series and a piecewise one. -/
def seriesSub (left : ℝ → ℝ) (right : Piecewise) : Piecewise :=
  { bounds := right.bounds, series := right.series.map fun f t => -f t,
    addend := match right.addend with
      | some addend => some fun t => left t - addend t
      | none => some left }

/-- numerics/piecewise_poisson_series_body.hpp:464-499, `operator*` of a Poisson series and a piecewise one. -/
def seriesMul (left : ℝ → ℝ) (right : Piecewise) : Piecewise :=
  { bounds := right.bounds, series := right.series.map fun f t => left t * f t, addend := right.addend.map fun f t => left t * f t }

/-- numerics/piecewise_poisson_series_body.hpp:160-170: the value of the function at a point of the quadrature over an interval. -/
def Piecewise.sample (p : Piecewise) (point : ℕ × ℝ) : ℝ := (p.series.getD point.1 fun _ => 0) point.2 + p.evaluateAddend point.2

/-- numerics/piecewise_poisson_series_body.hpp:158-175: the loop of `FourierTransform`.  The values that enter the integral, and the new cache. -/
def Piecewise.fourierLoop (p : Piecewise) : List (ℕ × ℝ) → ℕ → List ℝ → List ℝ × List ℝ
  | [], _, cache => ([], cache)
  | point :: rest, cacheIndex, cache =>
    let cache := if cache.length ≤ cacheIndex then cache ++ [p.sample point] else cache
    let result := p.fourierLoop rest (cacheIndex + 1) cache
    (cache.getD cacheIndex 0 :: result.1, result.2)

/-- numerics/piecewise_poisson_series_body.hpp:139-179 `FourierTransform`: the values that enter the integral, and the function with its new cache. -/
def Piecewise.fourier (p : Piecewise) (points : List (ℕ × ℝ)) : List ℝ × Piecewise :=
  let result := p.fourierLoop points 0 (p.cache.getD [])
  (result.1, { p with cache := some result.2 })

end

end Principia.Numerics.Piecewise
