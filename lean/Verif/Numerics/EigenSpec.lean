import Mathlib.Data.Matrix.Mul
import Mathlib.Data.Real.Basic
import Mathlib.Data.Fintype.Basic

/-!
The definitions needed to state the properties of the computation of eigenvalues.
-/

namespace Principia.Numerics.Matrices

/-- A real number is an eigenvalue of a matrix. -/
def IsEigenvalue {n : ℕ} (S : Matrix (Fin n) (Fin n) ℝ) (μ : ℝ) : Prop := ∃ x : Fin n → ℝ, x ≠ 0 ∧ S.mulVec x = μ • x

/-- The square of the norm of a vector. -/
def normSquare {n : ℕ} (x : Fin n → ℝ) : ℝ := ∑ i, x i ^ 2

end Principia.Numerics.Matrices
