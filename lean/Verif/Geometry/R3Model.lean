import Mathlib.Algebra.Field.Basic
import Mathlib.Analysis.SpecialFunctions.Sqrt
import Mathlib.Analysis.SpecialFunctions.Trigonometric.Arctan
import Mathlib.Analysis.SpecialFunctions.Complex.Arg

/-!
A model of the triples of geometry/r3_element_body.hpp and of the 3×3 matrices of geometry/r3x3_matrix_body.hpp.

Simplifications: doubles are modelled by the elements of a field, which are the real numbers where square roots and trigonometric functions are used.
Units and frames are not modelled.  The SIMD variants are taken to do the same thing as the scalar ones, and the fused operations are not modelled.
-/

set_option linter.unusedSimpArgs false
set_option linter.unusedVariables false
set_option linter.unusedSectionVars false

namespace Principia.Geometry

/-- geometry/r3_element.hpp: `R3Element`. -/
@[ext]
structure R3 (K : Type) where
  x : K
  y : K
  z : K
  deriving DecidableEq

namespace R3

variable {K : Type}

/-- geometry/r3_element_body.hpp:69-97 (`operator[]`): an index other than 0, 1, 2 aborts.  Only the valid indices are modelled. -/
def get (v : R3 K) : Fin 3 → K
  | 0 => v.x
  | 1 => v.y
  | 2 => v.z

/-- geometry/r3_element_body.hpp:69-81 (the mutable `operator[]`). -/
def set (v : R3 K) : Fin 3 → K → R3 K
  | 0, a => { v with x := a }
  | 1, a => { v with y := a }
  | 2, a => { v with z := a }

section Ring

variable [CommRing K]

/-- geometry/r3_element_body.hpp: the default constructor. -/
instance : Zero (R3 K) := ⟨⟨0, 0, 0⟩⟩

/-- geometry/r3_element_body.hpp:265-268 (unary `operator-`). -/
instance : Neg (R3 K) := ⟨fun right => ⟨-right.x, -right.y, -right.z⟩⟩

/-- geometry/r3_element_body.hpp:99-113, 270-283 (`operator+=`, `operator+`). -/
instance : Add (R3 K) := ⟨fun left right => ⟨left.x + right.x, left.y + right.y, left.z + right.z⟩⟩

/-- geometry/r3_element_body.hpp:115-129, 285-298 (`operator-=`, `operator-`). -/
instance : Sub (R3 K) := ⟨fun left right => ⟨left.x - right.x, left.y - right.y, left.z - right.z⟩⟩

/-- geometry/r3_element_body.hpp:131-146, 300-337 (`operator*=`, `operator*`, with the scalar on either side). -/
instance : SMul K (R3 K) := ⟨fun a v => ⟨a * v.x, a * v.y, a * v.z⟩⟩

/-- geometry/r3_element_body.hpp:584-592 (`Cross`). -/
def cross (left right : R3 K) : R3 K :=
  ⟨left.y * right.z - left.z * right.y, left.z * right.x - left.x * right.z, left.x * right.y - left.y * right.x⟩

/-- geometry/r3_element_body.hpp:594-599 (`Dot`). -/
def dot (left right : R3 K) : K :=
  left.x * right.x + left.y * right.y + left.z * right.z

/-- geometry/r3_element_body.hpp:170-173 (`Norm²`). -/
def normSq (v : R3 K) : K :=
  v.x * v.x + v.y * v.y + v.z * v.z

/-- geometry/r3_element_body.hpp:611-617 (`BasisVector`): an argument other than 0, 1, 2 fails a debug check. -/
def basisVector (i : Fin 3) : R3 K :=
  ⟨if i = 0 then 1 else 0, if i = 1 then 1 else 0, if i = 2 then 1 else 0⟩

@[simp] theorem zero_x : (0 : R3 K).x = 0 := rfl
@[simp] theorem zero_y : (0 : R3 K).y = 0 := rfl
@[simp] theorem zero_z : (0 : R3 K).z = 0 := rfl
@[simp] theorem neg_x (v : R3 K) : (-v).x = -v.x := rfl
@[simp] theorem neg_y (v : R3 K) : (-v).y = -v.y := rfl
@[simp] theorem neg_z (v : R3 K) : (-v).z = -v.z := rfl
@[simp] theorem add_x (v w : R3 K) : (v + w).x = v.x + w.x := rfl
@[simp] theorem add_y (v w : R3 K) : (v + w).y = v.y + w.y := rfl
@[simp] theorem add_z (v w : R3 K) : (v + w).z = v.z + w.z := rfl
@[simp] theorem sub_x (v w : R3 K) : (v - w).x = v.x - w.x := rfl
@[simp] theorem sub_y (v w : R3 K) : (v - w).y = v.y - w.y := rfl
@[simp] theorem sub_z (v w : R3 K) : (v - w).z = v.z - w.z := rfl
@[simp] theorem smul_x (a : K) (v : R3 K) : (a • v).x = a * v.x := rfl
@[simp] theorem smul_y (a : K) (v : R3 K) : (a • v).y = a * v.y := rfl
@[simp] theorem smul_z (a : K) (v : R3 K) : (a • v).z = a * v.z := rfl

end Ring

/-- geometry/r3_element_body.hpp:339-356 (`operator/`). -/
def div [Field K] (v : R3 K) (a : K) : R3 K :=
  ⟨v.x / a, v.y / a, v.z / a⟩

/-- geometry/r3_element_body.hpp:165-168 (`Norm`). -/
noncomputable def norm (v : R3 ℝ) : ℝ :=
  √v.normSq

/-- geometry/r3_element_body.hpp:538-545 (`Normalize`): of the zero vector it fails a check, or yields NaNs if checks are disabled. -/
noncomputable def normalize (v : R3 ℝ) : Option (R3 ℝ) :=
  if v.norm = 0 then none else some (v.div v.norm)

/-- geometry/r3_element_body.hpp:547-556 (`NormalizeOrZero`). -/
noncomputable def normalizeOrZero (v : R3 ℝ) : R3 ℝ :=
  if v.norm = 0 then 0 else v.div v.norm

/-- geometry/r3_element_body.hpp:184-190 (`OrthogonalizationAgainst`). -/
noncomputable def orthogonalizationAgainst (v w : R3 ℝ) : Option (R3 ℝ) :=
  (normalize w).map fun n => v - v.dot n • n

/-- geometry/r3_element_body.hpp:601-609 (`AngleBetween`), with the two-argument arctangent, which is the argument of a complex number. -/
noncomputable def angleBetween (left right : R3 ℝ) : ℝ :=
  2 * Complex.arg ⟨(right.norm • left + left.norm • right).norm, (right.norm • left - left.norm • right).norm⟩

end R3

/-- geometry/r3x3_matrix.hpp: `R3x3Matrix`, stored by rows. -/
@[ext]
structure M3 (K : Type) where
  rowX : R3 K
  rowY : R3 K
  rowZ : R3 K
  deriving DecidableEq

namespace M3

variable {K : Type}

/-- geometry/r3x3_matrix_body.hpp:153-166 and `rows_[i]`. -/
def row (m : M3 K) : Fin 3 → R3 K
  | 0 => m.rowX
  | 1 => m.rowY
  | 2 => m.rowZ

/-- Assignment to `rows_[i]`. -/
def setRow (m : M3 K) : Fin 3 → R3 K → M3 K
  | 0, r => { m with rowX := r }
  | 1, r => { m with rowY := r }
  | 2, r => { m with rowZ := r }

/-- geometry/r3x3_matrix_body.hpp:29-42 (`operator()`). -/
def at' (m : M3 K) (r c : Fin 3) : K :=
  (m.row r).get c

/-- geometry/r3x3_matrix_body.hpp:44-56 (the mutable `operator()`). -/
def set (m : M3 K) (r c : Fin 3) (a : K) : M3 K :=
  m.setRow r ((m.row r).set c a)

/-- geometry/r3x3_matrix_body.hpp:123-128 (`Transpose`). -/
def transpose (m : M3 K) : M3 K :=
  ⟨⟨m.rowX.x, m.rowY.x, m.rowZ.x⟩, ⟨m.rowX.y, m.rowY.y, m.rowZ.y⟩, ⟨m.rowX.z, m.rowY.z, m.rowZ.z⟩⟩

section Ring

variable [CommRing K]

/-- geometry/r3x3_matrix_body.hpp:86-94 (`DiagonalMatrix`). -/
def diagonal (d : R3 K) : M3 K :=
  ⟨⟨d.x, 0, 0⟩, ⟨0, d.y, 0⟩, ⟨0, 0, d.z⟩⟩

/-- geometry/r3x3_matrix_body.hpp:244-250 (`Identity`). -/
def identity : M3 K :=
  ⟨⟨1, 0, 0⟩, ⟨0, 1, 0⟩, ⟨0, 0, 1⟩⟩

/-- geometry/r3x3_matrix_body.hpp:108-111 (`Trace`). -/
def trace (m : M3 K) : K :=
  m.rowX.x + m.rowY.y + m.rowZ.z

/-- geometry/r3x3_matrix_body.hpp:113-121 (`Determinant`). -/
def det (m : M3 K) : K :=
  m.rowX.x * m.rowY.y * m.rowZ.z + m.rowX.y * m.rowY.z * m.rowZ.x + m.rowX.z * m.rowY.x * m.rowZ.y - m.rowX.z * m.rowY.y * m.rowZ.x -
    m.rowX.y * m.rowY.x * m.rowZ.z - m.rowX.x * m.rowY.z * m.rowZ.y

/-- geometry/r3x3_matrix_body.hpp:276-282 (unary `operator-`). -/
instance : Neg (M3 K) := ⟨fun m => ⟨-m.rowX, -m.rowY, -m.rowZ⟩⟩

/-- geometry/r3x3_matrix_body.hpp:284-293 (`operator+`). -/
instance : Add (M3 K) := ⟨fun l r => ⟨l.rowX + r.rowX, l.rowY + r.rowY, l.rowZ + r.rowZ⟩⟩

/-- geometry/r3x3_matrix_body.hpp:295-304 (`operator-`). -/
instance : Sub (M3 K) := ⟨fun l r => ⟨l.rowX - r.rowX, l.rowY - r.rowY, l.rowZ - r.rowZ⟩⟩

/-- geometry/r3x3_matrix_body.hpp:352-376 (the products of a matrix and a scalar). -/
instance : SMul K (M3 K) := ⟨fun a m => ⟨a • m.rowX, a • m.rowY, a • m.rowZ⟩⟩

/-- geometry/r3x3_matrix_body.hpp:306-324 (the product of two matrices). -/
def mul (left right : M3 K) : M3 K :=
  let tRight := right.transpose
  ⟨⟨left.rowX.dot tRight.rowX, left.rowX.dot tRight.rowY, left.rowX.dot tRight.rowZ⟩,
    ⟨left.rowY.dot tRight.rowX, left.rowY.dot tRight.rowY, left.rowY.dot tRight.rowZ⟩,
    ⟨left.rowZ.dot tRight.rowX, left.rowZ.dot tRight.rowY, left.rowZ.dot tRight.rowZ⟩⟩

/-- geometry/r3x3_matrix_body.hpp:326-336 (the product of a matrix and a vector). -/
def mulVec (left : M3 K) (right : R3 K) : R3 K :=
  ⟨left.rowX.dot right, left.rowY.dot right, left.rowZ.dot right⟩

/-- geometry/r3x3_matrix_body.hpp:338-349 (the product of a vector and a matrix). -/
def vecMul (left : R3 K) (right : M3 K) : R3 K :=
  let tRight := right.transpose
  ⟨left.dot tRight.rowX, left.dot tRight.rowY, left.dot tRight.rowZ⟩

/-- geometry/r3x3_matrix_body.hpp:391-398 (`KroneckerProduct`). -/
def kronecker (left right : R3 K) : M3 K :=
  ⟨left.x • right, left.y • right, left.z • right⟩

@[simp] theorem neg_rowX (m : M3 K) : (-m).rowX = -m.rowX := rfl
@[simp] theorem neg_rowY (m : M3 K) : (-m).rowY = -m.rowY := rfl
@[simp] theorem neg_rowZ (m : M3 K) : (-m).rowZ = -m.rowZ := rfl
@[simp] theorem add_rowX (m n : M3 K) : (m + n).rowX = m.rowX + n.rowX := rfl
@[simp] theorem add_rowY (m n : M3 K) : (m + n).rowY = m.rowY + n.rowY := rfl
@[simp] theorem add_rowZ (m n : M3 K) : (m + n).rowZ = m.rowZ + n.rowZ := rfl
@[simp] theorem sub_rowX (m n : M3 K) : (m - n).rowX = m.rowX - n.rowX := rfl
@[simp] theorem sub_rowY (m n : M3 K) : (m - n).rowY = m.rowY - n.rowY := rfl
@[simp] theorem sub_rowZ (m n : M3 K) : (m - n).rowZ = m.rowZ - n.rowZ := rfl
@[simp] theorem smul_rowX (a : K) (m : M3 K) : (a • m).rowX = a • m.rowX := rfl
@[simp] theorem smul_rowY (a : K) (m : M3 K) : (a • m).rowY = a • m.rowY := rfl
@[simp] theorem smul_rowZ (a : K) (m : M3 K) : (a • m).rowZ = a • m.rowZ := rfl

end Ring

end M3

end Principia.Geometry
