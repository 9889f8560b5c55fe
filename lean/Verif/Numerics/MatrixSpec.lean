import Verif.Numerics.MatrixModel
import Mathlib.Data.Matrix.Diagonal

/-!
The matrices and vectors, in the sense of Mathlib, that the arrays of the code represent.
-/

set_option linter.unusedVariables false

namespace Principia.Numerics.Matrices

variable {K : Type}

/-- The matrix with `m` rows and `n` columns. -/
def matrix (m n : ℕ) (A : Mat K) : Matrix (Fin m) (Fin n) K := Matrix.of fun i j => A i j

/-- The vector with `n` elements. -/
def vector (n : ℕ) (b : Vec K) : Fin n → K := fun i => b i

variable [Zero K]

/-- The upper triangular matrix with the given elements on and above the diagonal. -/
def upper (n : ℕ) (A : Mat K) : Matrix (Fin n) (Fin n) K := Matrix.of fun i j => if i ≤ j then A i j else 0

/-- The lower triangular matrix with the given elements on and below the diagonal. -/
def lower (n : ℕ) (A : Mat K) : Matrix (Fin n) (Fin n) K := Matrix.of fun i j => if j ≤ i then A i j else 0

/-- `A` is the upper half of the symmetric matrix `S`. -/
def UpperHalf {n : ℕ} (A : Mat K) (S : Matrix (Fin n) (Fin n) K) : Prop := S.transpose = S ∧ ∀ i j : Fin n, i ≤ j → A i j = S i j

/-- A matrix is positive definite. -/
def PositiveDefinite {K : Type} [Field K] [LinearOrder K] {n : ℕ} (S : Matrix (Fin n) (Fin n) K) : Prop :=
  ∀ x : Fin n → K, x ≠ 0 → 0 < dotProduct x (Matrix.mulVec S x)

end Principia.Numerics.Matrices
