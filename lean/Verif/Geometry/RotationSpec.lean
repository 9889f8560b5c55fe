import Verif.Geometry.RotationModel
import Mathlib.Algebra.Quaternion
import Mathlib.LinearAlgebra.CrossProduct
import Mathlib.LinearAlgebra.Matrix.Determinant.Basic
import Mathlib.LinearAlgebra.Matrix.Trace

/-!
What rotations are, independently of how the library represents them: the vocabulary is that of Mathlib's vectors, matrices and quaternions, and of
Rodrigues' formula.
-/

namespace Principia.Geometry

/-- The coordinates of a triple, as a Mathlib vector. -/
def R3.vec {K : Type} (v : R3 K) : Fin 3 → K := ![v.x, v.y, v.z]

/-- The elements of a matrix, as a Mathlib matrix. -/
def M3.mat {K : Type} (m : M3 K) : Matrix (Fin 3) (Fin 3) K :=
  !![m.rowX.x, m.rowX.y, m.rowX.z; m.rowY.x, m.rowY.y, m.rowY.z; m.rowZ.x, m.rowZ.y, m.rowZ.z]

/-- A quaternion, as one of Mathlib's. -/
def Quat.hamilton (q : Quat ℝ) : Quaternion ℝ := ⟨q.re, q.im.x, q.im.y, q.im.z⟩

/-- The purely imaginary quaternion with the given coordinates. -/
def R3.hamilton (v : R3 ℝ) : Quaternion ℝ := ⟨0, v.x, v.y, v.z⟩

@[simp] theorem Quat.hamilton_re (q : Quat ℝ) : q.hamilton.re = q.re := rfl
@[simp] theorem Quat.hamilton_imI (q : Quat ℝ) : q.hamilton.imI = q.im.x := rfl
@[simp] theorem Quat.hamilton_imJ (q : Quat ℝ) : q.hamilton.imJ = q.im.y := rfl
@[simp] theorem Quat.hamilton_imK (q : Quat ℝ) : q.hamilton.imK = q.im.z := rfl
@[simp] theorem R3.hamilton_re (v : R3 ℝ) : v.hamilton.re = 0 := rfl
@[simp] theorem R3.hamilton_imI (v : R3 ℝ) : v.hamilton.imI = v.x := rfl
@[simp] theorem R3.hamilton_imJ (v : R3 ℝ) : v.hamilton.imJ = v.y := rfl
@[simp] theorem R3.hamilton_imK (v : R3 ℝ) : v.hamilton.imK = v.z := rfl

/-- A rotation is represented by a quaternion of norm 1. -/
def Rotation.IsUnit {K : Type} [CommRing K] (r : Rotation K) : Prop := r.quaternion.normSq = 1

/-- A direct orthonormal basis. -/
def DirectOrthonormal (x y z : R3 ℝ) : Prop :=
  x.dot x = 1 ∧ y.dot y = 1 ∧ z.dot z = 1 ∧ x.dot y = 0 ∧ y.dot z = 0 ∧ z.dot x = 0 ∧ (x.cross y).dot z = 1

/-- Rodrigues' formula: the result of turning `v` by the angle `θ` around the unit vector `n`. -/
noncomputable def rodrigues (θ : ℝ) (n v : R3 ℝ) : R3 ℝ :=
  Real.cos θ • v + Real.sin θ • n.cross v + ((1 - Real.cos θ) * n.dot v) • n

/-- The value of a symmetric bilinear form on two vectors. -/
def M3.form {K : Type} [CommRing K] (m : M3 K) (v w : R3 K) : K := v.dot (m.mulVec w)

/-- The matrix is symmetric. -/
def M3.Symmetric {K : Type} (m : M3 K) : Prop := m.transpose = m

end Principia.Geometry
