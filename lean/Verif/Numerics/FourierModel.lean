import Verif.Geometry.ComplexificationModel
import Verif.Base.BitsModel
import Verif.Base.SortedMap
import Mathlib.Analysis.SpecialFunctions.Trigonometric.Basic

/-!
A model of the fast Fourier transform of numerics/fast_fourier_transform_body.hpp.

Simplifications: exact real arithmetic.  The array and the iterators to it are modelled by a function of the index, so the bounds of the accesses are not checked by the model, but
the theorems say which elements are read and written.  The size is given by its logarithm, since it is statically known to be a power of two.  `none` is a failed check, or the
use of a past-the-end iterator.
-/

set_option linter.unusedSimpArgs false
set_option linter.unusedVariables false
set_option linter.unusedSectionVars false

namespace Principia.Numerics.Fourier

open Geometry

noncomputable section

variable {V : Type} [AddCommGroup V] [Module ℝ V]

/-- numerics/fast_fourier_transform_body.hpp:66-68 (the body of the loop): `i` is the index of `*it` and `j` that of `*(it + N / 2)`. -/
def butterfly (a : ℕ → Cx V) (i j : ℕ) (e : Cx ℝ) : ℕ → Cx V :=
  let t := (a j).mulRight e
  let a := Function.update a j (a i - t)
  Function.update a i (a i + t)

/-- numerics/fast_fourier_transform_body.hpp:79-81 and 87-91: the same with a factor of 1. -/
def butterfly1 (a : ℕ → Cx V) (i j : ℕ) : ℕ → Cx V :=
  let t := a j
  let a := Function.update a j (a i - t)
  Function.update a i (a i + t)

/-- numerics/fast_fourier_transform_body.hpp:92-97: the same, and the second element is multiplied by -i. -/
def butterflyI (a : ℕ → Cx V) (i j : ℕ) : ℕ → Cx V :=
  let t := a j
  let a := Function.update a j ⟨(a i).im - t.im, t.re - (a i).re⟩
  Function.update a i (a i + t)

/-- numerics/fast_fourier_transform_body.hpp:56-70: the loop, after the recursive calls; `N` is the size of the chunk. -/
def combine (N : ℕ) (begin : ℕ) (a : ℕ → Cx V) : ℕ → Cx V :=
  let θ := Real.pi / N
  let sinθ := Real.sin θ
  let cos2θMinus1 := -2 * sinθ * sinθ
  let sin2θ := Real.sin (2 * θ)
  let eMinus1 : Cx ℝ := ⟨cos2θMinus1, -sin2θ⟩
  ((List.range (N / 2)).foldl
    (fun (s : (ℕ → Cx V) × Cx ℝ) k => (butterfly s.1 (begin + k) (begin + k + N / 2) s.2, s.2 + s.2.mul eMinus1))
    (a, ⟨1, 0⟩)).1

/-- numerics/fast_fourier_transform_body.hpp:49-109 (`DanielsonLánczos::Transform`), for a chunk of size `2 ^ n`. -/
def transform : ℕ → ℕ → (ℕ → Cx V) → ℕ → Cx V
  | 0, _, a => a
  | 1, begin, a => butterfly1 a begin (begin + 1)
  | 2, begin, a =>
    let a := butterfly1 a begin (begin + 1)
    let a := butterflyI a (begin + 2) (begin + 3)
    let a := butterfly1 a begin (begin + 2)
    butterfly1 a (begin + 1) (begin + 3)
  | n + 3, begin, a =>
    let N := 2 ^ (n + 3)
    let a := transform (n + 2) begin a
    let a := transform (n + 2) (begin + N / 2) a
    combine N begin a

/-- numerics/fast_fourier_transform_body.hpp:130-139: the loop that puts the elements at their bit-reversed indices. -/
def reindex (log2Size : ℕ) : List V → ℕ → (ℕ → Cx V) → Option (ℕ → Cx V)
  | [], _, a => some a
  | v :: l, bitReversedIndex, a => do
    let a := Function.update a bitReversedIndex (Cx.ofReal v)
    let bitReversedIndex ← Bits.bitReversedIncrement bitReversedIndex log2Size
    reindex log2Size l bitReversedIndex a

/-- numerics/fast_fourier_transform.hpp:81-86: `FastFourierTransform`. -/
structure FastFourierTransform (V : Type) where
  Δω : ℝ
  transform : ℕ → Cx V

/-- numerics/fast_fourier_transform_body.hpp:119-144 (the constructor). -/
def construct (log2Size : ℕ) (values : List V) (Δt : ℝ) : Option (FastFourierTransform V) :=
  if 2 ^ log2Size ≠ values.length then none
  else if Δt = 0 then none
  else (reindex log2Size values 0 fun _ => 0).map fun a => ⟨2 * Real.pi / ((2 ^ log2Size : ℕ) * Δt), transform log2Size 0 a⟩

/-- numerics/fast_fourier_transform_body.hpp:202-208 (`frequency`). -/
def FastFourierTransform.frequency (f : FastFourierTransform V) (s : ℕ) : ℝ := s * f.Δω

end

noncomputable section

variable {V : Type} [NormedAddCommGroup V] [InnerProductSpace ℝ V]

/-- numerics/fast_fourier_transform_body.hpp:152-162 (`PowerSpectrum`). -/
def FastFourierTransform.powerSpectrum (log2Size : ℕ) (f : FastFourierTransform V) : List (ℝ × ℝ) :=
  (List.range (2 ^ log2Size)).foldl (fun spectrum (k : ℕ) => SortedMap.emplace spectrum ((k : ℝ) * f.Δω) (f.transform k).normSq) []

open Classical in
/-- numerics/fast_fourier_transform_body.hpp:170-183: the loop that finds the maximum: `max` is its index in the spectrum, with the power. -/
def findMax (spectrum : List (ℝ × ℝ)) (minω maxω : ℝ) (count : ℕ) : Option (Option (ℕ × ℝ)) :=
  (List.range count).foldlM
    (fun max i => (spectrum[i]?).map fun x =>
      if minω ≤ x.1 ∧ x.1 ≤ maxω ∧ (max = none ∨ ∃ m, max = some m ∧ x.2 > m.2) then some (i, x.2) else max)
    none

/-- numerics/fast_fourier_transform_body.hpp:164-193 (`Mode`): the bounds of the interval. -/
def FastFourierTransform.mode (log2Size : ℕ) (f : FastFourierTransform V) (minω maxω : ℝ) : Option (ℝ × ℝ) :=
  if ¬minω ≤ maxω then none
  else do
    let spectrum := f.powerSpectrum log2Size
    let max ← findMax spectrum minω maxω (2 ^ log2Size / 2 + 1)
    let (m, _) ← max
    let first ← spectrum[if m = 0 then m else m - 1]?
    let last ← spectrum[m + 1]?
    return (Min.min first.1 last.1, Max.max first.1 last.1)

end

end Principia.Numerics.Fourier
