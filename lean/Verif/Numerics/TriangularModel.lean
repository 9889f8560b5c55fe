import Mathlib.Algebra.Order.Round
import Mathlib.Data.Real.Sqrt

/-!
# Model of the triangular matrices of `numerics/unbounded_arrays_body.hpp`

Simplifications: the indices are natural numbers, without overflow; a `DCHECK` failure is `none`.  The three classes `UnboundedLowerTriangularMatrix`, `UnboundedUpperTriangularMatrix` and `UnboundedStrictlyUpperTriangularMatrix`
are three kinds of one structure.  The elements that the code leaves uninitialized, and the transposition of the initializer lists, are not modelled.  The square root is exact.
-/

namespace Principia.Numerics.Triangular

inductive Kind
  | lower
  | upper
  | strictlyUpper

/-- The size of `data_`: numerics/unbounded_arrays_body.hpp:342, 628 and 454. -/
def size : Kind → ℕ → ℕ
  | .lower, rows => rows * (rows + 1) / 2
  | .upper, columns => columns * (columns + 1) / 2
  | .strictlyUpper, columns => columns * (columns - 1) / 2

/-- numerics/unbounded_arrays.hpp: the member variables, `rows_` or `columns_` and `data_`. -/
structure Matrix (α : Type) where
  n : ℕ
  data : List α

variable {α : Type}

/-- The checks and the index of `operator()`: numerics/unbounded_arrays_body.hpp:382-398, 670-686 and 500-516. -/
def index (k : Kind) (n row column : ℕ) : Option ℕ :=
  match k with
  | .lower => if column ≤ row ∧ row < n then some (row * (row + 1) / 2 + column) else none
  | .upper => if row ≤ column ∧ column < n then some (column * (column + 1) / 2 + row) else none
  | .strictlyUpper => if row < column ∧ column < n then some (column * (column - 1) / 2 + row) else none

/-- numerics/unbounded_arrays_body.hpp:391-398, 679-686 and 509-516 `operator()`. -/
def Matrix.get (k : Kind) (m : Matrix α) (row column : ℕ) : Option α := (index k m.n row column).bind fun i => m.data[i]?

/-- An assignment through the reference returned by `operator()`, numerics/unbounded_arrays_body.hpp:382-389, 670-677 and 500-507. -/
def Matrix.set (k : Kind) (m : Matrix α) (row column : ℕ) (x : α) : Option (Matrix α) := (index k m.n row column).bind fun i => if i < m.data.length then some ⟨m.n, m.data.set i x⟩ else none

/-- `std::vector::resize`. -/
def resize (data : List α) (length : ℕ) (x : α) : List α := data.take length ++ List.replicate (length - data.length) x

/-- The constructors from a number of rows or columns, numerics/unbounded_arrays_body.hpp:338-342, 624-628 and 450-454. -/
def Matrix.construct (k : Kind) (zero : α) (n : ℕ) : Matrix α := ⟨n, List.replicate (size k n) zero⟩

/-- numerics/unbounded_arrays_body.hpp:409-414, 699-704 and 529-534 `Extend`. -/
def Matrix.extend (k : Kind) (zero : α) (m : Matrix α) (extra : ℕ) : Matrix α :=
  let n := m.n + extra
  ⟨n, resize m.data (size k n) zero⟩

/-- numerics/unbounded_arrays_body.hpp:432-438, 729-735 and 559-565 `EraseToEnd`. -/
def Matrix.eraseToEnd (k : Kind) (m : Matrix α) (begin : ℕ) : Matrix α := ⟨begin, m.data.take (size k begin)⟩

noncomputable section

/-- `std::llround`: ties are rounded away from zero. -/
def llround (x : ℝ) : ℤ := if 0 ≤ x then ⌊x + 1 / 2⌋ else ⌈x - 1 / 2⌉

/-- The number of rows or columns deduced from the size of an initializer list, numerics/unbounded_arrays_body.hpp:354, 640 and 468, and also 428, 718 and 548. -/
def deduce : Kind → ℕ → ℤ
  | .lower, dataSize => llround ((-1 + √(8 * dataSize)) * 0.5)
  | .upper, dataSize => llround ((-1 + √(8 * dataSize)) * 0.5)
  | .strictlyUpper, dataSize => llround ((1 + √(8 * dataSize)) * 0.5)

end

end Principia.Numerics.Triangular
