import Verif.Numerics.FourierModel
import Mathlib.Analysis.Normed.Module.Basic

/-!
A model of the Clenshaw-Curtis and midpoint quadratures of numerics/quadrature_body.hpp.

Simplifications: exact real arithmetic; the argument is a real number and the value is an element of a normed vector space.  The number of points, which is statically known to be
`2 ^ l + 1`, is given by `l`.  The function to integrate is pure; the arguments at which it is evaluated are recorded in `Cache.calls`, which does not exist in the code.
The reservations of memory are not modelled.  `none` is a failed check, an access out of bounds, or the fatal error for too many refinements.
-/

set_option linter.unusedSimpArgs false
set_option linter.unusedVariables false
set_option linter.unusedSectionVars false

namespace Principia.Numerics.Quadrature

noncomputable section

variable {V : Type} [NormedAddCommGroup V] [NormedSpace ℝ V]

/-- numerics/quadrature_body.hpp:272 and 290: the vector `f_cos_N⁻¹π_bit_reversed`, and the arguments given to the function. -/
structure Cache (V : Type) where
  values : List V
  calls : List ℝ

/-- numerics/quadrature_body.hpp:127, 128 and 142-143: evaluating the function and appending the result to the vector. -/
def Cache.push (c : Cache V) (f : ℝ → V) (x : ℝ) : Cache V := ⟨c.values ++ [f x], c.calls ++ [x]⟩

/-- numerics/чебышёв_lobatto_body.hpp:23-44 (`ЧебышёвLobattoPoint`). -/
def lobattoPoint (N k : ℕ) : ℝ := Real.cos (Real.pi * k / N)

/-- numerics/quadrature_body.hpp:138-144: the loop, with `evaluations` replaced by the number of iterations that remain. -/
def fillLoop (f : ℝ → V) (lower halfWidth : ℝ) (N bits : ℕ) : ℕ → ℕ → Cache V → Option (Cache V)
  | 0, _, c => some c
  | k + 1, reverse, c => do
    let s := 2 * reverse + 1
    let c := c.push f (lower + halfWidth * (1 + lobattoPoint N s))
    let reverse ← Bits.bitReversedIncrement reverse bits
    fillLoop f lower halfWidth N bits k reverse c

/-- numerics/quadrature_body.hpp:99-146 (`FillClenshawCurtisCache`), for `2 ^ l + 1` points. -/
def fill (f : ℝ → V) (lower upper : ℝ) : ℕ → Cache V → Option (Cache V)
  | 0, c =>
    if 2 ^ 0 + 1 ≤ c.values.length then some c
    else if c.values.length ≠ 0 then none
    else some ((c.push f lower).push f upper)
  | l + 1, c =>
    if 2 ^ (l + 1) + 1 ≤ c.values.length then some c
    else do
      let halfWidth := (upper - lower) / 2
      let c ← fill f lower upper l c
      fillLoop f lower halfWidth (2 ^ (l + 1)) (l + 1 - 1) (2 ^ (l + 1) / 2) 0 c

/-- numerics/quadrature_body.hpp:220-227: the loop, with one more argument for the number of iterations that remain. -/
def copyLoop (cache : List V) (N bits : ℕ) : ℕ → ℕ → ℕ → (ℕ → V) → Option (ℕ → V)
  | 0, _, _, a => some a
  | k + 1, bitReversedS, s, a => do
    let v ← cache[bitReversedS]?
    let a := Function.update a s v
    let a := if 0 < s then Function.update a (2 * N - s) (a s) else a
    let s ← Bits.bitReversedIncrement s bits
    copyLoop cache N bits k (bitReversedS + 1) s a

/-- numerics/quadrature_body.hpp:238-242: the term for `n` of the sum. -/
def term (N : ℕ) (a : ℕ → Geometry.Cx V) (n : ℕ) : V :=
  let g : ℝ := if n = 0 ∨ n = N then 1 else 2
  (1 - (n : ℝ) * n)⁻¹ • (g • (a n).re)

/-- numerics/quadrature_body.hpp:190-246 (`ClenshawCurtisImplementation`), for `2 ^ l + 1` points. -/
def implementation (f : ℝ → V) (lower upper : ℝ) (l : ℕ) (c : Cache V) : Option (V × Cache V) := do
  let N := 2 ^ l
  let halfWidth := (upper - lower) / 2
  let c ← fill f lower upper l c
  let a ← copyLoop c.values N l N 1 0 fun _ => 0
  let v ← c.values[0]?
  let a := Function.update a N v
  let fft ← Fourier.construct (l + 1) ((List.range (2 * N)).map a) (Real.pi / N)
  let sum := (List.range (N / 2 + 1)).foldl (fun sum k => sum + term N fft.transform (2 * k)) 0
  let sum := (N : ℝ)⁻¹ • sum
  pure (halfWidth • sum, c)

/-- numerics/quadrature_body.hpp:284-294 (`ClenshawCurtis`). -/
def clenshawCurtis (f : ℝ → V) (lower upper : ℝ) (l : ℕ) : Option (V × Cache V) := implementation f lower upper l ⟨[], []⟩

open Classical in
/-- numerics/quadrature_body.hpp:148-188 (`AutomaticClenshawCurtisImplementation`), for `2 ^ l + 1` points. -/
def automaticImplementation (f : ℝ → V) (lower upper : ℝ) (maxRelativeError : Option ℝ) (maxPoints : Option ℤ) (l : ℕ) (previous : V) (c : Cache V) : Option (V × Cache V) := do
  let (estimate, c) ← implementation f lower upper l c
  let error := ‖previous - estimate‖
  if (∀ e ∈ maxRelativeError, e * ‖estimate‖ < error) ∧ (∀ m ∈ maxPoints, ((2 ^ l + 1 : ℕ) : ℤ) < m) then
    if h : 2 ^ 24 < 2 ^ l + 1 then none
    else automaticImplementation f lower upper maxRelativeError maxPoints (l + 1) estimate c
  else pure (estimate, c)
termination_by 24 - l
decreasing_by
  have : l < 24 := by
    by_contra h'
    have := Nat.pow_le_pow_right (n := 2) (by norm_num) (Nat.le_of_not_lt h')
    omega
  omega

/-- numerics/quadrature_body.hpp:262-282 (`AutomaticClenshawCurtis`), for `2 ^ l + 1` initial points. -/
def automaticClenshawCurtis (f : ℝ → V) (lower upper : ℝ) (maxRelativeError : Option ℝ) (maxPoints : Option ℤ) (l : ℕ) : Option (V × Cache V) := do
  let (estimate, c) ← implementation f lower upper l ⟨[], []⟩
  automaticImplementation f lower upper maxRelativeError maxPoints (l + 1) estimate c

/-- numerics/quadrature_body.hpp:308-320 (`Midpoint`); for a nonpositive number of intervals the loop is empty. -/
def midpoint (f : ℝ → V) (lower upper : ℝ) (intervals : ℤ) : V :=
  let h := (upper - lower) / intervals
  (List.range intervals.toNat).foldl (fun result (i : ℕ) => result + h • f (lower + ((i : ℝ) + 1 / 2) * h)) 0

end

end Principia.Numerics.Quadrature
