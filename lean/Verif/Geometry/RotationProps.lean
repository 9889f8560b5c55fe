import Verif.Geometry.RotationSpec
import Mathlib.Tactic.LinearCombination
import Mathlib.Tactic.FieldSimp
import Mathlib.Tactic.FinCases
import Mathlib.Tactic.Positivity
import Mathlib.Tactic.NormNum

/-!
C36: rotations.
-/

set_option linter.unusedSimpArgs false
set_option linter.unusedVariables false
set_option linter.unusedSectionVars false

namespace Principia.Geometry

/-! ### The elementary operations are the mathematical ones -/

/-- Dot products, cross products, matrix products, traces and determinants are the usual ones. -/
theorem C36_triples {K : Type} [CommRing K] (v w : R3 K) (a : K) (m n : M3 K) :
    v.dot w = v.vec ⬝ᵥ w.vec ∧ (v.cross w).vec = crossProduct v.vec w.vec ∧ (v + w).vec = v.vec + w.vec ∧ (v - w).vec = v.vec - w.vec ∧
      (-v).vec = -v.vec ∧ (a • v).vec = a • v.vec ∧ v.normSq = v.vec ⬝ᵥ v.vec ∧ (m.mulVec v).vec = m.mat.mulVec v.vec ∧
      (M3.vecMul v m).vec = Matrix.vecMul v.vec m.mat ∧ (m.mul n).mat = m.mat * n.mat ∧ m.transpose.mat = m.mat.transpose ∧ m.trace = m.mat.trace ∧
      m.det = m.mat.det ∧ (M3.kronecker v w).mat = Matrix.vecMulVec v.vec w.vec ∧ (M3.identity : M3 K).mat = 1 := by
  refine ⟨?_, ?_, ?_, ?_, ?_, ?_, ?_, ?_, ?_, ?_, ?_, ?_, ?_, ?_, ?_⟩
  · simp [R3.dot, R3.vec, Matrix.vec3_dotProduct, add_assoc]
  · simp [R3.cross, R3.vec, cross_apply]
  · ext i; fin_cases i <;> simp [R3.vec]
  · ext i; fin_cases i <;> simp [R3.vec]
  · ext i; fin_cases i <;> simp [R3.vec]
  · ext i; fin_cases i <;> simp [R3.vec]
  · simp [R3.normSq, R3.vec, Matrix.vec3_dotProduct, add_assoc]
  · ext i; fin_cases i <;> simp [R3.vec, M3.mulVec, M3.mat, Matrix.mulVec, R3.dot, Matrix.vec3_dotProduct, add_assoc]
  · ext i; fin_cases i <;> simp [R3.vec, M3.vecMul, M3.mat, Matrix.vecMul, R3.dot, M3.transpose, dotProduct, Fin.sum_univ_three]
  · ext i j; fin_cases i <;> fin_cases j <;> simp [M3.mul, M3.mat, M3.transpose, R3.dot, Matrix.mul_apply, Fin.sum_univ_three]
  · ext i j; fin_cases i <;> fin_cases j <;> simp [M3.mat, M3.transpose]
  · simp [M3.trace, M3.mat, Matrix.trace, Fin.sum_univ_three]
  · simp only [M3.det, M3.mat, Matrix.det_fin_three, Matrix.of_apply, Matrix.cons_val]; ring
  · ext i j; fin_cases i <;> fin_cases j <;> simp [M3.mat, M3.kronecker, Matrix.vecMulVec, R3.vec]
  · ext i j; fin_cases i <;> fin_cases j <;> simp [M3.mat, M3.identity]

/-- Quaternions are added, multiplied, conjugated and inverted as quaternions are, and their norm is the usual one. -/
theorem C36_quaternions (p q : Quat ℝ) :
    (p + q).hamilton = p.hamilton + q.hamilton ∧ (p - q).hamilton = p.hamilton - q.hamilton ∧ (p * q).hamilton = p.hamilton * q.hamilton ∧
      p.conjugate.hamilton = star p.hamilton ∧ p.normSq = Quaternion.normSq p.hamilton ∧ p.inverse.hamilton = p.hamilton⁻¹ ∧
      (p.div q).hamilton = p.hamilton / q.hamilton := by
  have hmul : ∀ p q : Quat ℝ, (p * q).hamilton = p.hamilton * q.hamilton := by
    intro p q
    ext <;> simp [R3.dot, R3.cross] <;> ring
  have hstar : ∀ p : Quat ℝ, p.conjugate.hamilton = star p.hamilton := by
    intro p; ext <;> simp [Quat.conjugate]
  have hnorm : ∀ p : Quat ℝ, p.normSq = Quaternion.normSq p.hamilton := by
    intro p; simp [Quaternion.normSq_def', Quat.normSq, R3.normSq]; ring
  have hinv : ∀ p : Quat ℝ, p.inverse.hamilton = p.hamilton⁻¹ := by
    intro p
    have h : p.re * p.re + p.im.dot p.im = Quaternion.normSq p.hamilton := by
      rw [← hnorm]; simp [Quat.normSq, R3.normSq, R3.dot]
    show p.inverse.hamilton = (Quaternion.normSq p.hamilton)⁻¹ • star p.hamilton
    unfold Quat.inverse
    rw [h]
    ext <;> simp [Quat.divScalar, Quat.conjugate, R3.div] <;> ring
  refine ⟨?_, ?_, hmul p q, hstar p, hnorm p, hinv p, ?_⟩
  · ext <;> simp
  · ext <;> simp
  · rw [Quat.div, hmul, hinv, div_eq_mul_inv]

namespace Rotation

/-! ### Applying, composing and inverting -/

/-- A rotation maps `v` to `q v q*`. -/
theorem C36_hamilton (r : Rotation ℝ) (hr : r.IsUnit) (v : R3 ℝ) :
    (r.apply v).hamilton = r.quaternion.hamilton * v.hamilton * star r.quaternion.hamilton := by
  obtain ⟨⟨a, b, c, d⟩⟩ := r
  obtain ⟨x, y, z⟩ := v
  simp only [IsUnit, Quat.normSq, R3.normSq] at hr
  ext <;> simp [apply, R3.cross]
  · ring
  · linear_combination (-x) * hr
  · linear_combination (-y) * hr
  · linear_combination (-z) * hr

section

variable {K : Type} [CommRing K]

/-- Rotations are linear. -/
theorem C36_linear (r : Rotation K) (v w : R3 K) (a : K) : r.apply (v + w) = r.apply v + r.apply w ∧ r.apply (a • v) = a • r.apply v := by
  constructor <;> ext <;> simp [apply, R3.cross] <;> ring

/-- Rotations preserve inner products. -/
theorem C36_isometry (r : Rotation K) (hr : r.IsUnit) (v w : R3 K) : (r.apply v).dot (r.apply w) = v.dot w := by
  obtain ⟨⟨a, b, c, d⟩⟩ := r
  simp only [IsUnit, Quat.normSq, R3.normSq] at hr
  simp only [apply, R3.cross, R3.dot, R3.add_x, R3.add_y, R3.add_z, R3.smul_x, R3.smul_y, R3.smul_z]
  linear_combination (4 * ((c * v.z - d * v.y) * (c * w.z - d * w.y) + (d * v.x - b * v.z) * (d * w.x - b * w.z) + (b * v.y - c * v.x) * (b * w.y - c * w.x))) * hr

/-- Rotations preserve the cross product, which is the wedge product of vectors and the commutator of bivectors. -/
theorem C36_cross (r : Rotation K) (hr : r.IsUnit) (v w : R3 K) : (r.apply v).cross (r.apply w) = r.apply (v.cross w) := by
  have hr' := hr
  simp only [IsUnit, Quat.normSq, R3.normSq] at hr'
  ext
  · linear_combination (norm := skip) (r.apply (v.cross w) - (r.apply v).cross w - v.cross (r.apply w) + v.cross w).x * hr'
    simp only [apply, R3.cross, R3.sub_x, R3.sub_y, R3.sub_z, R3.add_x, R3.add_y, R3.add_z, R3.smul_x, R3.smul_y, R3.smul_z]
    ring
  · linear_combination (norm := skip) (r.apply (v.cross w) - (r.apply v).cross w - v.cross (r.apply w) + v.cross w).y * hr'
    simp only [apply, R3.cross, R3.sub_x, R3.sub_y, R3.sub_z, R3.add_x, R3.add_y, R3.add_z, R3.smul_x, R3.smul_y, R3.smul_z]
    ring
  · linear_combination (norm := skip) (r.apply (v.cross w) - (r.apply v).cross w - v.cross (r.apply w) + v.cross w).z * hr'
    simp only [apply, R3.cross, R3.sub_x, R3.sub_y, R3.sub_z, R3.add_x, R3.add_y, R3.add_z, R3.smul_x, R3.smul_y, R3.smul_z]
    ring

/-- Rotations preserve the orientation: the volume of three vectors does not change. -/
theorem C36_orientation (r : Rotation K) (hr : r.IsUnit) (u v w : R3 K) :
    M3.det ⟨r.apply u, r.apply v, r.apply w⟩ = r.applyTrivector (M3.det ⟨u, v, w⟩) := by
  have h : ∀ u v w : R3 K, M3.det ⟨u, v, w⟩ = (u.cross v).dot w := by
    intro u v w; simp [M3.det, R3.cross, R3.dot]; ring
  rw [h, C36_cross r hr, C36_isometry r hr, applyTrivector, h]

/-- The composition of rotations acts as their composition. -/
theorem C36_compose (r s : Rotation K) (hr : r.IsUnit) (hs : s.IsUnit) (v : R3 K) :
    (r.mul s).IsUnit ∧ (r.mul s).apply v = r.apply (s.apply v) := by
  have hr' := hr
  have hs' := hs
  simp only [IsUnit, Quat.normSq, R3.normSq] at hr' hs'
  constructor
  · simp only [IsUnit, mul, Quat.normSq, R3.normSq, Quat.mul_re, Quat.mul_im, R3.dot, R3.cross, R3.add_x, R3.add_y, R3.add_z, R3.smul_x, R3.smul_y, R3.smul_z]
    linear_combination (s.quaternion.re * s.quaternion.re + (s.quaternion.im.x * s.quaternion.im.x + s.quaternion.im.y * s.quaternion.im.y + s.quaternion.im.z * s.quaternion.im.z)) * hr' + hs'
  · ext
    · linear_combination (norm := skip) (s.apply v - v).x * hr' + (r.apply v - v).x * hs'
      simp only [mul, Quat.mul_re, Quat.mul_im, apply, R3.dot, R3.cross, R3.sub_x, R3.sub_y, R3.sub_z, R3.add_x, R3.add_y, R3.add_z, R3.smul_x, R3.smul_y, R3.smul_z]
      ring
    · linear_combination (norm := skip) (s.apply v - v).y * hr' + (r.apply v - v).y * hs'
      simp only [mul, Quat.mul_re, Quat.mul_im, apply, R3.dot, R3.cross, R3.sub_x, R3.sub_y, R3.sub_z, R3.add_x, R3.add_y, R3.add_z, R3.smul_x, R3.smul_y, R3.smul_z]
      ring
    · linear_combination (norm := skip) (s.apply v - v).z * hr' + (r.apply v - v).z * hs'
      simp only [mul, Quat.mul_re, Quat.mul_im, apply, R3.dot, R3.cross, R3.sub_x, R3.sub_y, R3.sub_z, R3.add_x, R3.add_y, R3.add_z, R3.smul_x, R3.smul_y, R3.smul_z]
      ring

/-- The inverse undoes the rotation, and the identity does nothing. -/
theorem C36_inverse (r : Rotation K) (hr : r.IsUnit) (v : R3 K) :
    r.inverse.IsUnit ∧ r.inverse.apply (r.apply v) = v ∧ r.apply (r.inverse.apply v) = v ∧ (identity : Rotation K).IsUnit ∧
      (identity : Rotation K).apply v = v := by
  have hi : r.inverse.IsUnit := by
    simpa [IsUnit, inverse, Quat.conjugate, Quat.normSq, R3.normSq] using hr
  have him : ∀ (a : K) (v : R3 K), Rotation.apply ⟨Quat.ofReal a⟩ v = v := by
    intro a v; ext <;> simp [apply, Quat.ofReal, R3.cross]
  have hl : r.inverse.mul r = ⟨Quat.ofReal 1⟩ := by
    rw [← hr]
    ext <;> simp [mul, inverse, Quat.conjugate, Quat.ofReal, Quat.normSq, R3.normSq, R3.dot, R3.cross] <;> ring
  have hR : r.mul r.inverse = ⟨Quat.ofReal 1⟩ := by
    rw [← hr]
    ext <;> simp [mul, inverse, Quat.conjugate, Quat.ofReal, Quat.normSq, R3.normSq, R3.dot, R3.cross] <;> ring
  refine ⟨hi, ?_, ?_, ?_, him 1 v⟩
  · rw [← (C36_compose r.inverse r hi hr v).2, hl, him]
  · rw [← (C36_compose r r.inverse hr hi v).2, hR, him]
  · simp [IsUnit, identity, Quat.ofReal, Quat.normSq, R3.normSq]

end

/-- A rotation whose quaternion has rational components: it is the rotation around (1, 2, 2) such that the cosine of half of the angle is 4/5. -/
example : (⟨⟨4 / 5, 1 / 5, 2 / 5, 2 / 5⟩⟩ : Rotation ℚ).IsUnit ∧
    Rotation.apply (⟨⟨4 / 5, 1 / 5, 2 / 5, 2 / 5⟩⟩ : Rotation ℚ) ⟨1, 0, 0⟩ = ⟨9 / 25, 4 / 5, -12 / 25⟩ := by
  constructor
  · simp only [IsUnit, Quat.normSq, R3.normSq]; norm_num
  · ext <;> simp [apply, R3.cross] <;> norm_num

end Rotation

end Principia.Geometry
