import Verif.Numerics.MatrixSpec
import Mathlib.LinearAlgebra.Span.Defs
import Mathlib.LinearAlgebra.Matrix.IsDiag

/-!
The lattices and their reduced bases, independently of the algorithms.
-/

set_option linter.unusedVariables false

namespace Principia.Numerics.Lattices

open Principia.Numerics.Matrices

variable {K : Type} [Field K] [LinearOrder K]

/-- The lattice generated by the columns of a matrix: their combinations with integer coefficients. -/
def lattice {m n : ℕ} (B : Matrix (Fin m) (Fin n) K) : Submodule ℤ (Fin m → K) := Submodule.span ℤ (Set.range fun j : Fin n => fun i => B i j)

/-- The square of the norm of a vector. -/
def norm2 {m : ℕ} (x : Fin m → K) : K := dotProduct x x

/-- A basis, in columns, is reduced with the parameters `δ` and `η`: it has an orthogonalization `B = Q M`, where the columns of `Q` are orthogonal and `M` is upper triangular with a
unit diagonal, such that the elements of `M` above the diagonal are at most `η` in absolute value, and consecutive columns of `Q` obey Lovász's condition with the factor `δ`. -/
def ReducedWith (δ η : K) {m n : ℕ} (B : Matrix (Fin m) (Fin n) K) : Prop :=
  ∃ (Q : Matrix (Fin m) (Fin n) K) (M : Matrix (Fin n) (Fin n) K), Q * M = B ∧ (Q.transpose * Q).IsDiag ∧ (∀ i j, j < i → M i j = 0) ∧ (∀ j, M j j = 1) ∧ (∀ i j, i < j → |M i j| ≤ η) ∧
    ∀ i j : Fin n, (i : ℕ) + 1 = j → (δ - M i j ^ 2) * norm2 (fun l => Q l i) ≤ norm2 (fun l => Q l j)

/-- A basis is reduced in the sense of Lenstra, Lenstra and Lovász. -/
def Reduced {m n : ℕ} (B : Matrix (Fin m) (Fin n) K) : Prop := ReducedWith (3 / 4) (1 / 2) B

/-- The columns of a matrix are linearly independent. -/
def Independent {m n : ℕ} (B : Matrix (Fin m) (Fin n) K) : Prop := ∀ x, Matrix.mulVec B x = 0 → x = 0

/-- The rational numbers that are represented without error by a binary floating-point number with a significand of `p` bits and any exponent. -/
def Representable (p : ℕ) (x : ℚ) : Prop := ∃ (m : ℤ) (e : ℤ), |m| < 2 ^ p ∧ x = m * 2 ^ e

/-- A rounding of the rational numbers to the integers that goes through a floating-point number: the number is first replaced by one of the nearest floating-point numbers, and then by
one of the integers nearest to it. -/
def RoundsThroughFloat (p : ℕ) (round : ℚ → ℤ) : Prop :=
  ∀ x, ∃ y, Representable p y ∧ (∀ z, Representable p z → |x - y| ≤ |x - z|) ∧ ∀ k : ℤ, |y - round x| ≤ |y - k|

/-- The elements of a matrix are integers. -/
def Integral {m n : ℕ} (B : Matrix (Fin m) (Fin n) K) : Prop := ∀ i j, ∃ z : ℤ, B i j = z

end Principia.Numerics.Lattices
