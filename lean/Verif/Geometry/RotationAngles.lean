import Verif.Geometry.RotationProps
import Mathlib.Tactic.Linarith

/-!
C36: the constructors of rotations from matrices, axes and angles.
-/

set_option linter.unusedSimpArgs false
set_option linter.unusedVariables false
set_option linter.unusedSectionVars false

namespace Principia.Geometry

namespace Rotation

/-! ### Matrices -/

/-- The entries of the products of the components of the quaternion of a rotation matrix, times 4. -/
structure Products (m : M3 ℝ) (q : Quat ℝ) : Prop where
  ww : 4 * (q.re * q.re) = 1 + m.rowX.x + m.rowY.y + m.rowZ.z
  xx : 4 * (q.im.x * q.im.x) = 1 + m.rowX.x - m.rowY.y - m.rowZ.z
  yy : 4 * (q.im.y * q.im.y) = 1 - m.rowX.x + m.rowY.y - m.rowZ.z
  zz : 4 * (q.im.z * q.im.z) = 1 - m.rowX.x - m.rowY.y + m.rowZ.z
  wx : 4 * (q.re * q.im.x) = m.rowZ.y - m.rowY.z
  wy : 4 * (q.re * q.im.y) = m.rowX.z - m.rowZ.x
  wz : 4 * (q.re * q.im.z) = m.rowY.x - m.rowX.y
  xy : 4 * (q.im.x * q.im.y) = m.rowX.y + m.rowY.x
  xz : 4 * (q.im.x * q.im.z) = m.rowZ.x + m.rowX.z
  yz : 4 * (q.im.y * q.im.z) = m.rowY.z + m.rowZ.y

theorem Products.unit {m : M3 ℝ} {q : Quat ℝ} (h : Products m q) : q.normSq = 1 := by
  simp only [Quat.normSq, R3.normSq]
  linear_combination (1 / 4) * (h.ww + h.xx + h.yy + h.zz)

theorem Products.apply {m : M3 ℝ} {q : Quat ℝ} (h : Products m q) (v : R3 ℝ) : Rotation.apply ⟨q⟩ v = m.mulVec v := by
  ext
  · simp only [Rotation.apply, M3.mulVec, R3.dot, R3.cross, R3.add_x, R3.add_y, R3.add_z, R3.smul_x, R3.smul_y, R3.smul_z]
    linear_combination (-v.x / 2) * h.yy - (v.x / 2) * h.zz + (v.y / 2) * h.xy + (v.z / 2) * h.xz + (v.z / 2) * h.wy - (v.y / 2) * h.wz
  · simp only [Rotation.apply, M3.mulVec, R3.dot, R3.cross, R3.add_x, R3.add_y, R3.add_z, R3.smul_x, R3.smul_y, R3.smul_z]
    linear_combination (-v.y / 2) * h.xx - (v.y / 2) * h.zz + (v.x / 2) * h.xy + (v.z / 2) * h.yz + (v.x / 2) * h.wz - (v.z / 2) * h.wx
  · simp only [Rotation.apply, M3.mulVec, R3.dot, R3.cross, R3.add_x, R3.add_y, R3.add_z, R3.smul_x, R3.smul_y, R3.smul_z]
    linear_combination (-v.z / 2) * h.xx - (v.z / 2) * h.yy + (v.x / 2) * h.xz + (v.y / 2) * h.yz + (v.y / 2) * h.wx - (v.x / 2) * h.wy

/-- The rows of a rotation matrix: each is the cross product of the others. -/
theorem _root_.Principia.Geometry.DirectOrthonormal.cross {x y z : R3 ℝ} (h : DirectOrthonormal x y z) : x.cross y = z ∧ y.cross z = x ∧ z.cross x = y := by
  obtain ⟨hx, hy, hz, hxy, hyz, hzx, hd⟩ := h
  have key : ∀ u v w : R3 ℝ, u.dot u = 1 → v.dot v = 1 → w.dot w = 1 → u.dot v = 0 → (u.cross v).dot w = 1 → u.cross v = w := by
    intro u v w hu hv hw huv hd
    have hn : (u.cross v - w).dot (u.cross v - w) = 0 := by
      simp only [R3.dot, R3.cross, R3.sub_x, R3.sub_y, R3.sub_z] at *
      linear_combination (v.x * v.x + v.y * v.y + v.z * v.z) * hu + hv - (u.x * v.x + u.y * v.y + u.z * v.z) * huv + hw - 2 * hd
    have hs : (u.cross v - w).x = 0 ∧ (u.cross v - w).y = 0 ∧ (u.cross v - w).z = 0 := by
      generalize (u.cross v - w) = d at hn
      simp only [R3.dot] at hn
      refine ⟨?_, ?_, ?_⟩ <;> nlinarith [mul_self_nonneg d.x, mul_self_nonneg d.y, mul_self_nonneg d.z]
    obtain ⟨h1, h2, h3⟩ := hs
    ext
    · simpa [sub_eq_zero] using h1
    · simpa [sub_eq_zero] using h2
    · simpa [sub_eq_zero] using h3
  refine ⟨key _ _ _ hx hy hz hxy hd, key _ _ _ hy hz hx hyz ?_, key _ _ _ hz hx hy hzx ?_⟩
  · simp only [R3.dot, R3.cross] at *; linear_combination hd
  · simp only [R3.dot, R3.cross] at *; linear_combination hd

/-- The columns of a rotation matrix are orthonormal too. -/
theorem _root_.Principia.Geometry.DirectOrthonormal.transpose {x y z : R3 ℝ} (h : DirectOrthonormal x y z) :
    DirectOrthonormal ⟨x.x, y.x, z.x⟩ ⟨x.y, y.y, z.y⟩ ⟨x.z, y.z, z.z⟩ := by
  obtain ⟨hc1, hc2, hc3⟩ := h.cross
  obtain ⟨hx, hy, hz, hxy, hyz, hzx, hd⟩ := h
  have a1 := congrArg R3.x hc1; have a2 := congrArg R3.y hc1; have a3 := congrArg R3.z hc1
  have b1 := congrArg R3.x hc2; have b2 := congrArg R3.y hc2; have b3 := congrArg R3.z hc2
  have c1 := congrArg R3.x hc3; have c2 := congrArg R3.y hc3; have c3 := congrArg R3.z hc3
  simp only [R3.cross] at a1 a2 a3 b1 b2 b3 c1 c2 c3
  simp only [R3.dot, R3.cross] at hd
  simp only [DirectOrthonormal, R3.dot, R3.cross]
  refine ⟨?_, ?_, ?_, ?_, ?_, ?_, ?_⟩
  · linear_combination hd - x.x * b1 - y.x * c1 - z.x * a1
  · linear_combination hd - x.y * b2 - y.y * c2 - z.y * a2
  · linear_combination hd - x.z * b3 - y.z * c3 - z.z * a3
  · linear_combination - x.y * b1 - y.y * c1 - z.y * a1
  · linear_combination - x.z * b2 - y.z * c2 - z.z * a2
  · linear_combination - x.x * b3 - y.x * c3 - z.x * a3
  · linear_combination hd

theorem four_rr {r α : ℝ} (hα : r * r = α) : 4 * (1 / 2 * r * (1 / 2 * r)) = α := by
  linear_combination hα

theorem four_rp {r p : ℝ} (hr : r ≠ 0) : 4 * (1 / 2 * r * (p * (1 / 2 / r))) = p := by
  field_simp; ring

theorem four_pr {r p : ℝ} (hr : r ≠ 0) : 4 * (p * (1 / 2 / r) * (1 / 2 * r)) = p := by
  field_simp; ring

theorem four_pq {r α p q X : ℝ} (hr : r ≠ 0) (hα : r * r = α) (hX : α * X = p * q) : 4 * (p * (1 / 2 / r) * (q * (1 / 2 / r))) = X := by
  subst hα
  field_simp
  linear_combination -4 * hX

section Branches

variable {m00 m01 m02 m10 m11 m12 m20 m21 m22 : ℝ}

theorem toQuaternion_w (h : m00 + m11 + m22 > 0) : toQuaternion ⟨⟨m00, m01, m02⟩, ⟨m10, m11, m12⟩, ⟨m20, m21, m22⟩⟩ =
    ⟨1 / 2 * √(1 + (m00 + m11 + m22)), (m21 - m12) * (1 / 2 / √(1 + (m00 + m11 + m22))), (m02 - m20) * (1 / 2 / √(1 + (m00 + m11 + m22))),
      (m10 - m01) * (1 / 2 / √(1 + (m00 + m11 + m22)))⟩ :=
  if_pos h

theorem toQuaternion_x (h1 : ¬m00 + m11 + m22 > 0) (h2 : m00 > max m11 m22) :
    toQuaternion ⟨⟨m00, m01, m02⟩, ⟨m10, m11, m12⟩, ⟨m20, m21, m22⟩⟩ =
    ⟨(m21 - m12) * (1 / 2 / √(1 + m00 - m11 - m22)), 1 / 2 * √(1 + m00 - m11 - m22), (m01 + m10) * (1 / 2 / √(1 + m00 - m11 - m22)),
      (m20 + m02) * (1 / 2 / √(1 + m00 - m11 - m22))⟩ :=
  (if_neg h1).trans (if_pos h2)

theorem toQuaternion_y (h1 : ¬m00 + m11 + m22 > 0) (h2 : ¬m00 > max m11 m22) (h3 : m11 > m22) :
    toQuaternion ⟨⟨m00, m01, m02⟩, ⟨m10, m11, m12⟩, ⟨m20, m21, m22⟩⟩ =
    ⟨(m02 - m20) * (1 / 2 / √(1 - m00 + m11 - m22)), (m01 + m10) * (1 / 2 / √(1 - m00 + m11 - m22)), 1 / 2 * √(1 - m00 + m11 - m22),
      (m12 + m21) * (1 / 2 / √(1 - m00 + m11 - m22))⟩ :=
  (if_neg h1).trans ((if_neg h2).trans (if_pos h3))

theorem toQuaternion_z (h1 : ¬m00 + m11 + m22 > 0) (h2 : ¬m00 > max m11 m22) (h3 : ¬m11 > m22) :
    toQuaternion ⟨⟨m00, m01, m02⟩, ⟨m10, m11, m12⟩, ⟨m20, m21, m22⟩⟩ =
    ⟨(m10 - m01) * (1 / 2 / √(1 - m00 - m11 + m22)), (m02 + m20) * (1 / 2 / √(1 - m00 - m11 + m22)), (m12 + m21) * (1 / 2 / √(1 - m00 - m11 + m22)),
      1 / 2 * √(1 - m00 - m11 + m22)⟩ :=
  (if_neg h1).trans ((if_neg h2).trans (if_neg h3))

end Branches

/-- The products of the components, for the quaternion computed by the code. -/
theorem toQuaternion_products {x y z : R3 ℝ} (h : DirectOrthonormal x y z) : Products ⟨x, y, z⟩ (toQuaternion ⟨x, y, z⟩) := by
  obtain ⟨tx, ty, tz, txy, tyz, tzx, -⟩ := h.transpose
  obtain ⟨hc1, hc2, hc3⟩ := h.cross
  obtain ⟨hx, hy, hz, hxy, hyz, hzx, hd⟩ := h
  have a1 := congrArg R3.x hc1; have a2 := congrArg R3.y hc1; have a3 := congrArg R3.z hc1
  have b1 := congrArg R3.x hc2; have b2 := congrArg R3.y hc2; have b3 := congrArg R3.z hc2
  have c1 := congrArg R3.x hc3; have c2 := congrArg R3.y hc3; have c3 := congrArg R3.z hc3
  simp only [R3.cross] at a1 a2 a3 b1 b2 b3 c1 c2 c3
  simp only [R3.dot] at tx ty tz txy tyz tzx hx hy hz hxy hyz hzx
  clear hc1 hc2 hc3 hd
  obtain ⟨m00, m01, m02⟩ := x
  obtain ⟨m10, m11, m12⟩ := y
  obtain ⟨m20, m21, m22⟩ := z
  simp only at *
  -- The symmetric matrix of the products has rank 1.
  have ab : (1 + (m00 + m11 + m22)) * (1 + m00 - m11 - m22) = (m21 - m12) * (m21 - m12) := by linear_combination tx - hy - hz - 2 * b1
  have ac : (1 + (m00 + m11 + m22)) * (1 - m00 + m11 - m22) = (m02 - m20) * (m02 - m20) := by linear_combination ty - hx - hz - 2 * c2
  have ad : (1 + (m00 + m11 + m22)) * (1 - m00 - m11 + m22) = (m10 - m01) * (m10 - m01) := by linear_combination tz - hx - hy - 2 * a3
  have bc : (1 + m00 - m11 - m22) * (1 - m00 + m11 - m22) = (m01 + m10) * (m01 + m10) := by linear_combination tz - hx - hy + 2 * a3
  have bd : (1 + m00 - m11 - m22) * (1 - m00 - m11 + m22) = (m20 + m02) * (m20 + m02) := by linear_combination ty - hx - hz + 2 * c2
  have cd : (1 - m00 + m11 - m22) * (1 - m00 - m11 + m22) = (m12 + m21) * (m12 + m21) := by linear_combination tx - hy - hz + 2 * b1
  have aP : (1 + (m00 + m11 + m22)) * (m01 + m10) = (m21 - m12) * (m02 - m20) := by linear_combination txy + hxy - c1 - b2
  have aQ : (1 + (m00 + m11 + m22)) * (m20 + m02) = (m21 - m12) * (m10 - m01) := by linear_combination tzx + hzx - b3 - a1
  have aS : (1 + (m00 + m11 + m22)) * (m12 + m21) = (m02 - m20) * (m10 - m01) := by linear_combination tyz + hyz - a2 - c3
  have bq : (1 + m00 - m11 - m22) * (m02 - m20) = (m21 - m12) * (m01 + m10) := by linear_combination tzx - hzx - b3 + a1
  have bs : (1 + m00 - m11 - m22) * (m10 - m01) = (m21 - m12) * (m20 + m02) := by linear_combination hxy - txy - c1 + b2
  have bS : (1 + m00 - m11 - m22) * (m12 + m21) = (m01 + m10) * (m20 + m02) := by linear_combination -tyz - hyz - c3 - a2
  have cp : (1 - m00 + m11 - m22) * (m21 - m12) = (m02 - m20) * (m01 + m10) := by linear_combination hyz - tyz - a2 + c3
  have cs : (1 - m00 + m11 - m22) * (m10 - m01) = (m02 - m20) * (m12 + m21) := by linear_combination txy - hxy - c1 + b2
  have cQ : (1 - m00 + m11 - m22) * (m20 + m02) = (m01 + m10) * (m12 + m21) := by linear_combination -tzx - hzx - a1 - b3
  have dp : (1 - m00 - m11 + m22) * (m21 - m12) = (m10 - m01) * (m20 + m02) := by linear_combination tyz - hyz - a2 + c3
  have dq : (1 - m00 - m11 + m22) * (m02 - m20) = (m10 - m01) * (m12 + m21) := by linear_combination hzx - tzx - b3 + a1
  have dP : (1 - m00 - m11 + m22) * (m01 + m10) = (m20 + m02) * (m12 + m21) := by linear_combination -txy - hxy - c1 - b2
  clear tx ty tz txy tyz tzx hx hy hz hxy hyz hzx a1 a2 a3 b1 b2 b3 c1 c2 c3
  have hsqrt : ∀ α : ℝ, 0 < α → √α ≠ 0 ∧ √α * √α = α := fun α hα =>
    ⟨(Real.sqrt_pos.2 hα).ne', Real.mul_self_sqrt hα.le⟩
  by_cases h1 : m00 + m11 + m22 > 0
  · rw [toQuaternion_w h1]
    obtain ⟨hr, hrr⟩ := hsqrt (1 + (m00 + m11 + m22)) (by linarith)
    constructor
    · simp only; rw [four_rr hrr]; ring
    · simp only; rw [four_pq hr hrr ab]
    · simp only; rw [four_pq hr hrr ac]
    · simp only; rw [four_pq hr hrr ad]
    · exact four_rp hr
    · exact four_rp hr
    · exact four_rp hr
    · exact four_pq hr hrr aP
    · exact four_pq hr hrr aQ
    · exact four_pq hr hrr aS
  · by_cases h2 : m00 > max m11 m22
    · rw [toQuaternion_x h1 h2]
      obtain ⟨h21, h22⟩ := max_lt_iff.1 h2
      obtain ⟨hr, hrr⟩ := hsqrt (1 + m00 - m11 - m22) (by linarith)
      constructor
      · exact four_pq hr hrr (by linear_combination ab)
      · exact four_rr hrr
      · exact four_pq hr hrr bc
      · exact four_pq hr hrr bd
      · exact four_pr hr
      · exact four_pq hr hrr bq
      · exact four_pq hr hrr bs
      · exact four_rp hr
      · exact four_rp hr
      · exact four_pq hr hrr bS
    · have h2' : m00 ≤ max m11 m22 := not_lt.1 h2
      by_cases h3 : m11 > m22
      · rw [toQuaternion_y h1 h2 h3]
        rw [max_eq_left h3.le] at h2'
        obtain ⟨hr, hrr⟩ := hsqrt (1 - m00 + m11 - m22) (by linarith)
        constructor
        · exact four_pq hr hrr (by linear_combination ac)
        · exact four_pq hr hrr (by linear_combination bc)
        · exact four_rr hrr
        · exact four_pq hr hrr cd
        · exact four_pq hr hrr cp
        · exact four_pr hr
        · exact four_pq hr hrr cs
        · exact four_pr hr
        · exact four_pq hr hrr cQ
        · exact four_rp hr
      · rw [toQuaternion_z h1 h2 h3]
        have h3' : m11 ≤ m22 := not_lt.1 h3
        rw [max_eq_right h3'] at h2'
        obtain ⟨hr, hrr⟩ := hsqrt (1 - m00 - m11 + m22) (by linarith)
        constructor
        · exact four_pq hr hrr (by linear_combination ad)
        · exact four_pq hr hrr (by linear_combination bd)
        · exact four_pq hr hrr (by linear_combination cd)
        · exact four_rr hrr
        · exact four_pq hr hrr (by linear_combination dp)
        · exact four_pq hr hrr dq
        · exact four_pr hr
        · exact four_pq hr hrr (by linear_combination dP)
        · rw [show m20 + m02 = m02 + m20 from add_comm _ _]; exact four_pr hr
        · exact four_pr hr

/-- A rotation made from the axes of the frame to which it goes, expressed in the frame from which it comes, computes the coordinates of vectors with
respect to these axes. -/
theorem C36_to_frame_axes {x y z : R3 ℝ} (h : DirectOrthonormal x y z) (v : R3 ℝ) :
    (ofToFrameAxes x y z).IsUnit ∧ (ofToFrameAxes x y z).apply v = ⟨x.dot v, y.dot v, z.dot v⟩ :=
  ⟨(toQuaternion_products h).unit, (toQuaternion_products h).apply v⟩

/-- A rotation made from the axes of the frame from which it comes, expressed in the frame to which it goes, combines these axes. -/
theorem C36_from_frame_axes {x y z : R3 ℝ} (h : DirectOrthonormal x y z) (v : R3 ℝ) :
    (ofFromFrameAxes x y z).IsUnit ∧ (ofFromFrameAxes x y z).apply v = v.x • x + v.y • y + v.z • z := by
  have hp := toQuaternion_products h.transpose
  refine ⟨hp.unit, ?_⟩
  refine (hp.apply v).trans ?_
  ext <;> simp [M3.mulVec, R3.dot] <;> ring

/-- A direct basis, by a third of a turn followed by a change of sign of two axes. -/
example : DirectOrthonormal ⟨0, -1, 0⟩ ⟨0, 0, -1⟩ ⟨1, 0, 0⟩ := by
  simp [DirectOrthonormal, R3.dot, R3.cross]

/-- Every rotation arises from its matrix, up to the sign of the quaternion, which is irrelevant. -/
theorem C36_matrix_surjective (r : Rotation ℝ) (hr : r.IsUnit) :
    DirectOrthonormal (r.apply ⟨1, 0, 0⟩) (r.apply ⟨0, 1, 0⟩) (r.apply ⟨0, 0, 1⟩) ∧
      ∀ v, (ofFromFrameAxes (r.apply ⟨1, 0, 0⟩) (r.apply ⟨0, 1, 0⟩) (r.apply ⟨0, 0, 1⟩)).apply v = r.apply v := by
  have h : DirectOrthonormal (r.apply ⟨1, 0, 0⟩) (r.apply ⟨0, 1, 0⟩) (r.apply ⟨0, 0, 1⟩) := by
    simp only [DirectOrthonormal, C36_cross r hr, C36_isometry r hr]
    simp [R3.dot, R3.cross]
  refine ⟨h, fun v => ?_⟩
  rw [(C36_from_frame_axes h v).2, ← (C36_linear r ⟨1, 0, 0⟩ 0 v.x).2, ← (C36_linear r ⟨0, 1, 0⟩ 0 v.y).2, ← (C36_linear r ⟨0, 0, 1⟩ 0 v.z).2,
    ← (C36_linear r _ _ 0).1, ← (C36_linear r _ _ 0).1]
  congr 1
  ext <;> simp

/-! ### Axes and angles -/

theorem normSq_nonneg (v : R3 ℝ) : 0 ≤ v.normSq := by
  simp only [R3.normSq]
  nlinarith [mul_self_nonneg v.x, mul_self_nonneg v.y, mul_self_nonneg v.z]

theorem norm_mul_self (v : R3 ℝ) : v.norm * v.norm = v.normSq := Real.mul_self_sqrt (normSq_nonneg v)

theorem norm_eq_zero {v : R3 ℝ} : v.norm = 0 ↔ v = 0 := by
  rw [R3.norm, Real.sqrt_eq_zero (normSq_nonneg v)]
  constructor
  · intro h
    simp only [R3.normSq] at h
    ext <;> simp <;> nlinarith [mul_self_nonneg v.x, mul_self_nonneg v.y, mul_self_nonneg v.z]
  · rintro rfl; simp [R3.normSq]

/-- Normalizing a vector other than 0 yields the unit vector of the same direction. -/
theorem C36_normalize (v : R3 ℝ) : (v = 0 ∧ v.normalize = none) ∨
    (v ≠ 0 ∧ ∃ n, v.normalize = some n ∧ n.dot n = 1 ∧ v = v.norm • n ∧ 0 < v.norm) := by
  by_cases h : v = 0
  · left; exact ⟨h, by rw [R3.normalize, if_pos (norm_eq_zero.2 h)]⟩
  · right
    have hn : v.norm ≠ 0 := fun h' => h (norm_eq_zero.1 h')
    refine ⟨h, v.div v.norm, by rw [R3.normalize, if_neg hn], ?_, ?_, lt_of_le_of_ne (Real.sqrt_nonneg _) (Ne.symm hn)⟩
    · have hs := norm_mul_self v
      simp only [R3.normSq] at hs
      simp only [R3.dot, R3.div]
      field_simp
      linear_combination -hs
    · ext <;> simp [R3.div] <;> field_simp

theorem angleAxis_unit (θ : ℝ) {n : R3 ℝ} (hn : n.dot n = 1) : (angleAxis θ n).normSq = 1 := by
  simp only [angleAxis, Quat.normSq, R3.normSq, R3.smul_x, R3.smul_y, R3.smul_z]
  simp only [R3.dot] at hn
  have h := Real.sin_sq_add_cos_sq (1 / 2 * θ)
  linear_combination h + Real.sin (1 / 2 * θ) ^ 2 * hn

theorem angleAxis_rodrigues (θ : ℝ) {n : R3 ℝ} (hn : n.dot n = 1) (v : R3 ℝ) : Rotation.apply ⟨angleAxis θ n⟩ v = rodrigues θ n v := by
  have hc : Real.cos θ = 1 - 2 * Real.sin (1 / 2 * θ) ^ 2 := by
    have := Real.cos_sq' (1 / 2 * θ)
    rw [show θ = 2 * (1 / 2 * θ) by ring, Real.cos_two_mul]
    rw [show 1 / 2 * (2 * (1 / 2 * θ)) = 1 / 2 * θ by ring]
    linear_combination 2 * this
  have hs : Real.sin θ = 2 * Real.sin (1 / 2 * θ) * Real.cos (1 / 2 * θ) := by
    rw [← Real.sin_two_mul]; congr 1; ring
  simp only [R3.dot] at hn
  rw [rodrigues, hc, hs]
  ext <;> simp only [Rotation.apply, angleAxis, R3.dot, R3.cross, R3.add_x, R3.add_y, R3.add_z, R3.smul_x, R3.smul_y, R3.smul_z]
  · linear_combination (-2 * Real.sin (1 / 2 * θ) ^ 2 * v.x) * hn
  · linear_combination (-2 * Real.sin (1 / 2 * θ) ^ 2 * v.y) * hn
  · linear_combination (-2 * Real.sin (1 / 2 * θ) ^ 2 * v.z) * hn

/-- A rotation made from an angle and an axis, which need not have norm 1, turns vectors around that axis by that angle; without an axis there is no
rotation. -/
theorem C36_angle_axis (θ : ℝ) (axis : R3 ℝ) :
    (axis = 0 ∧ ofAngleAxis θ axis = none) ∨
      ∃ n r, n.dot n = 1 ∧ axis = axis.norm • n ∧ 0 < axis.norm ∧ ofAngleAxis θ axis = some r ∧ r.IsUnit ∧ ∀ v, r.apply v = rodrigues θ n v := by
  rcases C36_normalize axis with ⟨h, h'⟩ | ⟨h, n, h', hn, ha, hp⟩
  · left; exact ⟨h, by rw [ofAngleAxis, h']; rfl⟩
  · right; exact ⟨n, ⟨angleAxis θ n⟩, hn, ha, hp, by rw [ofAngleAxis, h']; rfl, angleAxis_unit θ hn, angleAxis_rodrigues θ hn⟩

/-- The changes of coordinates between two frames, one of which is defined by turning the other: a vector that turns with the axes has the same
coordinates in the turned frame as it had, before turning, in the other. -/
theorem C36_defines_frame (θ : ℝ) (axis : R3 ℝ) :
    (axis = 0 ∧ definesToFrame θ axis = none ∧ definesFromFrame θ axis = none) ∨
      ∃ n r s, n.dot n = 1 ∧ axis = axis.norm • n ∧ 0 < axis.norm ∧ definesToFrame θ axis = some r ∧ definesFromFrame θ axis = some s ∧
        r.IsUnit ∧ s.IsUnit ∧ ∀ v, r.apply (rodrigues θ n v) = v ∧ s.apply v = rodrigues θ n v := by
  rcases C36_normalize axis with ⟨h, h'⟩ | ⟨h, n, h', hn, ha, hp⟩
  · left; exact ⟨h, by rw [definesToFrame, h']; rfl, by rw [definesFromFrame, h']; rfl⟩
  · right
    refine ⟨n, ⟨angleAxis (-θ) n⟩, ⟨angleAxis θ n⟩, hn, ha, hp, by rw [definesToFrame, h']; rfl, by rw [definesFromFrame, h']; rfl, angleAxis_unit _ hn,
      angleAxis_unit θ hn, fun v => ⟨?_, angleAxis_rodrigues θ hn v⟩⟩
    have hi : (⟨angleAxis (-θ) n⟩ : Rotation ℝ) = inverse ⟨angleAxis θ n⟩ := by
      have : 1 / 2 * -θ = -(1 / 2 * θ) := by ring
      ext <;> simp [angleAxis, inverse, Quat.conjugate, this]
    rw [hi, ← angleAxis_rodrigues θ hn]
    exact (C36_inverse ⟨angleAxis θ n⟩ (angleAxis_unit θ hn) v).2.1

/-- Rotations made from three angles: a frame turns first around one of its axes, then around one of the axes of the resulting frame, and then around one
of the axes of the frame resulting from that.  The coordinates in the final frame are turned into coordinates in the original one by the rotation around
the third axis, followed by that around the second axis, and by that around the first axis.  This holds for all the conventions. -/
theorem C36_euler (α β γ : ℝ) (a b c : Fin 3) (v : R3 ℝ) :
    (anglesDefineFromFrame α β γ (axisConvention a b c)).IsUnit ∧
      (anglesDefineFromFrame α β γ (axisConvention a b c)).apply v =
        rodrigues α (R3.basisVector a) (rodrigues β (R3.basisVector b) (rodrigues γ (R3.basisVector c) v)) ∧
      (anglesDefineToFrame α β γ (axisConvention a b c)).IsUnit ∧
      (anglesDefineToFrame α β γ (axisConvention a b c)).apply
        (rodrigues α (R3.basisVector a) (rodrigues β (R3.basisVector b) (rodrigues γ (R3.basisVector c) v))) = v := by
  have hd : ∀ a b c : Fin 3, binaryCodedTernaryDigit 2 (axisConvention a b c) = a ∧ binaryCodedTernaryDigit 1 (axisConvention a b c) = b ∧
      binaryCodedTernaryDigit 0 (axisConvention a b c) = c := by
    decide +kernel
  have hb : ∀ i : Fin 3, basisVector i = R3.basisVector i := by
    intro i; fin_cases i <;> rfl
  have h1 : ∀ i : Fin 3, (R3.basisVector i : R3 ℝ).dot (R3.basisVector i) = 1 := by
    intro i; fin_cases i <;> simp [R3.basisVector, R3.dot]
  obtain ⟨h2, h3, h4⟩ := hd a b c
  have he : anglesDefineFromFrame α β γ (axisConvention a b c) =
      (mul (mul ⟨angleAxis α (R3.basisVector a)⟩ ⟨angleAxis β (R3.basisVector b)⟩) ⟨angleAxis γ (R3.basisVector c)⟩) := by
    rw [anglesDefineFromFrame, h2, h3, h4, hb, hb, hb]; rfl
  have ua := angleAxis_unit α (h1 a)
  have ub := angleAxis_unit β (h1 b)
  have uc := angleAxis_unit γ (h1 c)
  have uab := fun v => C36_compose ⟨angleAxis α (R3.basisVector a)⟩ ⟨angleAxis β (R3.basisVector b)⟩ ua ub v
  have uabc := fun v => C36_compose _ ⟨angleAxis γ (R3.basisVector c)⟩ (uab 0).1 uc v
  have hu : (anglesDefineFromFrame α β γ (axisConvention a b c)).IsUnit := by rw [he]; exact (uabc 0).1
  have hv : (anglesDefineFromFrame α β γ (axisConvention a b c)).apply v =
      rodrigues α (R3.basisVector a) (rodrigues β (R3.basisVector b) (rodrigues γ (R3.basisVector c) v)) := by
    rw [he, (uabc v).2, (uab _).2, angleAxis_rodrigues α (h1 a), angleAxis_rodrigues β (h1 b), angleAxis_rodrigues γ (h1 c)]
  have hi := C36_inverse _ hu v
  refine ⟨hu, hv, hi.1, ?_⟩
  rw [← hv]
  exact hi.2.1

/-- The conventions are distinguished by their codes. -/
theorem C36_conventions (a b c a' b' c' : Fin 3) : axisConvention a b c = axisConvention a' b' c' ↔ a = a' ∧ b = b' ∧ c = c' := by
  revert a b c a' b' c'; decide +kernel

/-- The axis and the angle of a rotation, which is between -π and π, are those with which it can be made, unless it is the identity, which has no axis. -/
theorem C36_rotation_angle (r : Rotation ℝ) (hr : r.IsUnit) :
    -Real.pi ≤ r.rotationAngle ∧ r.rotationAngle ≤ Real.pi ∧
      ((r.rotationAxis = none ∧ r.rotationAngle = 0 ∧ ∀ v, r.apply v = v) ∨
        ∃ n, r.rotationAxis = some n ∧ n.dot n = 1 ∧ ∀ v, r.apply v = rodrigues r.rotationAngle n v) := by
  have hneg : ∀ (q : Quat ℝ) v, Rotation.apply ⟨-q⟩ v = Rotation.apply ⟨q⟩ v := by
    intro q v; ext <;> simp [apply, R3.cross] <;> ring
  have hone : r.quaternion.re * r.quaternion.re + r.quaternion.im.norm * r.quaternion.im.norm = 1 := by
    rw [norm_mul_self]; exact hr
  obtain ⟨⟨w, i⟩⟩ := r
  simp only at hone
  have hpi := Real.pi_pos
  by_cases hw : w = 0
  · subst hw
    have hangle : rotationAngle ⟨⟨0, i⟩⟩ = Real.pi := by
      rw [rotationAngle, if_pos rfl]; ring
    rw [hangle]
    refine ⟨by linarith, le_refl _, Or.inr ?_⟩
    rcases C36_normalize i with ⟨rfl, -⟩ | ⟨-, n, hn, hnn, hin, hpos⟩
    · simp [R3.norm, R3.normSq] at hone
    · have h1 : i.norm = 1 := by nlinarith
      refine ⟨n, hn, hnn, fun v => ?_⟩
      rw [← angleAxis_rodrigues _ hnn]
      congr 1
      rw [angleAxis, show 1 / 2 * Real.pi = Real.pi / 2 by ring, Real.cos_pi_div_two, Real.sin_pi_div_two, hin, h1]
  · have hangle : rotationAngle ⟨⟨w, i⟩⟩ = 2 * Real.arctan (i.norm / w) := by
      rw [rotationAngle, if_neg hw]
    rw [hangle]
    refine ⟨by linarith [Real.neg_pi_div_two_lt_arctan (i.norm / w)], by linarith [Real.arctan_lt_pi_div_two (i.norm / w)], ?_⟩
    rcases C36_normalize i with ⟨rfl, h'⟩ | ⟨-, n, hn, hnn, hin, hpos⟩
    · left
      refine ⟨h', by simp [R3.norm, R3.normSq], fun v => ?_⟩
      ext <;> simp [apply, R3.cross]
    · right
      refine ⟨n, hn, hnn, fun v => ?_⟩
      rw [← angleAxis_rodrigues _ hnn]
      have hsq : √(1 + (i.norm / w) ^ 2) = 1 / |w| := by
        rw [show 1 + (i.norm / w) ^ 2 = (1 / |w|) ^ 2 by
          rw [div_pow, div_pow, sq_abs]; field_simp; linear_combination hone]
        exact Real.sqrt_sq (by positivity)
      have hcos : Real.cos (Real.arctan (i.norm / w)) = |w| := by
        rw [Real.cos_arctan, hsq]; simp
      have hsin : Real.sin (Real.arctan (i.norm / w)) = i.norm / w * |w| := by
        rw [Real.sin_arctan, hsq]; simp
      rw [angleAxis, show 1 / 2 * (2 * Real.arctan (i.norm / w)) = Real.arctan (i.norm / w) by ring, hcos, hsin]
      rcases lt_or_gt_of_ne hw with h | h
      · rw [abs_of_neg h, show i.norm / w * -w = -i.norm by field_simp, ← hneg]
        congr 1
        conv_lhs => rw [hin]
        ext <;> simp
      · rw [abs_of_pos h, show i.norm / w * w = i.norm by field_simp]
        congr 1
        conv_lhs => rw [hin]

/-- A quarter of a turn around an axis, with the quaternion whose real part is negative. -/
example : (⟨⟨-√2 / 2, 0, 0, -√2 / 2⟩⟩ : Rotation ℝ).IsUnit := by
  simp only [IsUnit, Quat.normSq, R3.normSq]
  have := Real.mul_self_sqrt (show (0 : ℝ) ≤ 2 by norm_num)
  linear_combination (1 / 2) * this

/-! ### Exponentials -/

theorem rodrigues_neg (θ : ℝ) (n v : R3 ℝ) : rodrigues (-θ) (-n) v = rodrigues θ n v := by
  ext <;> simp [rodrigues, R3.cross, R3.dot] <;> ring

theorem rodrigues_add (s t : ℝ) {n : R3 ℝ} (hn : n.dot n = 1) (v : R3 ℝ) : rodrigues (s + t) n v = rodrigues s n (rodrigues t n v) := by
  simp only [R3.dot] at hn
  have key : ∀ cs ss ct st : ℝ,
      (cs * ct - ss * st) • v + (ss * ct + cs * st) • n.cross v + ((1 - (cs * ct - ss * st)) * n.dot v) • n =
        cs • (ct • v + st • n.cross v + ((1 - ct) * n.dot v) • n) + ss • n.cross (ct • v + st • n.cross v + ((1 - ct) * n.dot v) • n) +
          ((1 - cs) * n.dot (ct • v + st • n.cross v + ((1 - ct) * n.dot v) • n)) • n := by
    intro cs ss ct st
    ext <;> simp only [R3.dot, R3.cross, R3.add_x, R3.add_y, R3.add_z, R3.smul_x, R3.smul_y, R3.smul_z]
    · linear_combination (ss * st * v.x - (1 - cs) * (1 - ct) * (n.x * v.x + n.y * v.y + n.z * v.z) * n.x) * hn
    · linear_combination (ss * st * v.y - (1 - cs) * (1 - ct) * (n.x * v.x + n.y * v.y + n.z * v.z) * n.y) * hn
    · linear_combination (ss * st * v.z - (1 - cs) * (1 - ct) * (n.x * v.x + n.y * v.y + n.z * v.z) * n.z) * hn
  rw [rodrigues, Real.cos_add, Real.sin_add, key]
  rfl

theorem norm_smul (t : ℝ) (v : R3 ℝ) : (t • v).norm = |t| * v.norm := by
  rw [R3.norm, R3.norm, show (t • v).normSq = t ^ 2 * v.normSq by simp [R3.normSq]; ring, Real.sqrt_mul (sq_nonneg t), Real.sqrt_sq_eq_abs]

/-- The exponential of a multiple of a bivector: it always exists, and it turns around that bivector. -/
theorem exp_smul (ω n : R3 ℝ) (hn : n.dot n = 1) (hω : ω = ω.norm • n) (t : ℝ) :
    ∃ r, exp (t • ω) = some r ∧ r.IsUnit ∧ ∀ v, r.apply v = rodrigues (t * ω.norm) n v := by
  by_cases h0 : (t • ω).norm = 0
  · refine ⟨identity, by rw [exp, if_pos h0], ?_, fun v => ?_⟩
    · simp [IsUnit, identity, Quat.ofReal, Quat.normSq, R3.normSq]
    · rw [norm_smul] at h0
      have : t * ω.norm = 0 := by
        rcases mul_eq_zero.1 h0 with h | h
        · rw [abs_eq_zero.1 h, zero_mul]
        · rw [h, mul_zero]
      rw [this]
      ext <;> simp [apply, identity, Quat.ofReal, R3.cross, rodrigues]
  · rcases C36_normalize (t • ω) with ⟨h, -⟩ | ⟨h, n', hn', hnn', heq, hpos⟩
    · exact absurd (norm_eq_zero.2 h) h0
    refine ⟨⟨angleAxis (t • ω).norm n'⟩, by rw [exp, if_neg h0, ofAngleAxis, hn']; rfl, angleAxis_unit _ hnn', fun v => ?_⟩
    rw [angleAxis_rodrigues _ hnn', norm_smul]
    have hp : 0 < ω.norm := by
      rcases (Real.sqrt_nonneg _ : 0 ≤ ω.norm).lt_or_eq with h | h
      · exact h
      · exact absurd (by rw [norm_smul, R3.norm, ← h, mul_zero]) h0
    have ht : t ≠ 0 := by rintro rfl; rw [norm_smul, abs_zero, zero_mul] at h0; exact h0 rfl
    rw [norm_smul] at heq
    generalize ω.norm = a at *
    subst hω
    have hx := congrArg R3.x heq
    have hy := congrArg R3.y heq
    have hz := congrArg R3.z heq
    simp only [R3.smul_x, R3.smul_y, R3.smul_z] at hx hy hz
    rcases lt_or_gt_of_ne ht with h | h
    · have : n' = -n := by
        rw [abs_of_neg h] at hx hy hz
        have hta : t * a ≠ 0 := mul_ne_zero ht hp.ne'
        ext <;> simp only [R3.neg_x, R3.neg_y, R3.neg_z]
        · exact mul_left_cancel₀ hta (by linear_combination hx)
        · exact mul_left_cancel₀ hta (by linear_combination hy)
        · exact mul_left_cancel₀ hta (by linear_combination hz)
      rw [this, abs_of_neg h, show -t * a = -(t * a) by ring, rodrigues_neg]
    · have : n' = n := by
        rw [abs_of_pos h] at hx hy hz
        have hta : t * a ≠ 0 := mul_ne_zero ht hp.ne'
        ext
        · exact mul_left_cancel₀ hta (by linear_combination -hx)
        · exact mul_left_cancel₀ hta (by linear_combination -hy)
        · exact mul_left_cancel₀ hta (by linear_combination -hz)
      rw [this, abs_of_pos h]

/-- The exponential of a bivector always exists; it is the rotation around that bivector by an angle equal to its norm; the exponentials of the multiples
of a bivector add up. -/
theorem C36_exp (ω : R3 ℝ) :
    (∃ r, exp ω = some r ∧ r.IsUnit ∧ (ω = 0 ∧ r = identity ∨
      ∃ n, n.dot n = 1 ∧ ω = ω.norm • n ∧ 0 < ω.norm ∧ ∀ v, r.apply v = rodrigues ω.norm n v)) ∧
    ∀ s t : ℝ, ∃ rs rt rst, exp (s • ω) = some rs ∧ exp (t • ω) = some rt ∧ exp ((s + t) • ω) = some rst ∧ ∀ v, rst.apply v = rs.apply (rt.apply v) := by
  rcases C36_normalize ω with ⟨rfl, -⟩ | ⟨h, n, hn, hnn, heq, hpos⟩
  · have h0 : exp (0 : R3 ℝ) = some identity := by
      rw [exp, if_pos (norm_eq_zero.2 rfl)]
    have hz : ∀ s : ℝ, s • (0 : R3 ℝ) = 0 := by intro s; ext <;> simp
    refine ⟨⟨identity, h0, by simp [IsUnit, identity, Quat.ofReal, Quat.normSq, R3.normSq], Or.inl ⟨rfl, rfl⟩⟩, fun s t => ?_⟩
    refine ⟨identity, identity, identity, by rw [hz, h0], by rw [hz, h0], by rw [hz, h0], fun v => ?_⟩
    ext <;> simp [apply, identity, Quat.ofReal, R3.cross]
  · have h1 : (1 : ℝ) • ω = ω := by ext <;> simp
    refine ⟨?_, fun s t => ?_⟩
    · obtain ⟨r, hr, hu, ha⟩ := exp_smul ω n hnn heq 1
      rw [h1] at hr
      exact ⟨r, hr, hu, Or.inr ⟨n, hnn, heq, hpos, fun v => by rw [ha, one_mul]⟩⟩
    · obtain ⟨rs, hs, -, has⟩ := exp_smul ω n hnn heq s
      obtain ⟨rt, ht, -, hat⟩ := exp_smul ω n hnn heq t
      obtain ⟨rst, hst, -, hast⟩ := exp_smul ω n hnn heq (s + t)
      exact ⟨rs, rt, rst, hs, ht, hst, fun v => by rw [has, hat, hast, add_mul, rodrigues_add _ _ hnn]⟩

/-! ### Forms -/

/-- The image of a symmetric bilinear form by a rotation is the symmetric bilinear form that takes the same values on the images of vectors. -/
theorem C36_form (r : Rotation ℝ) (hr : r.IsUnit) (m : M3 ℝ) (hm : m.Symmetric) :
    (r.applyForm m).Symmetric ∧ ∀ v w, (r.applyForm m).form (r.apply v) (r.apply w) = m.form v w := by
  refine ⟨by ext <;> simp [applyForm, M3.transpose, add_comm], fun v w => ?_⟩
  have ht : ∀ (m : M3 ℝ) v w, m.transpose.form v w = m.form w v := by
    intro m v w; simp [M3.form, M3.transpose, M3.mulVec, R3.dot]; ring
  have hrow : ∀ (m : M3 ℝ) w, M3.mulVec ⟨r.apply m.rowX, r.apply m.rowY, r.apply m.rowZ⟩ (r.apply w) = m.mulVec w := by
    intro m w; simp only [M3.mulVec, C36_isometry r hr]
  have hcol : ∀ (m : M3 ℝ) w, (M3.transpose ⟨r.apply m.rowX, r.apply m.rowY, r.apply m.rowZ⟩).mulVec w = r.apply (m.transpose.mulVec w) := by
    intro m w
    have : m.transpose.mulVec w = w.x • m.rowX + w.y • m.rowY + w.z • m.rowZ := by
      ext <;> simp [M3.mulVec, M3.transpose, R3.dot] <;> ring
    rw [this, (C36_linear r _ _ 0).1, (C36_linear r _ _ 0).1, (C36_linear r m.rowX 0 _).2, (C36_linear r m.rowY 0 _).2, (C36_linear r m.rowZ 0 _).2]
    ext <;> simp [M3.mulVec, M3.transpose, R3.dot] <;> ring
  have hsym : m.form w v = m.form v w := by rw [← ht, hm]
  have hhalf : ∀ (m n : M3 ℝ) v w, ((1 / 2 : ℝ) • (m + n)).form v w = 1 / 2 * (m.form v w + n.form v w) := by
    intro m n v w; simp [M3.form, M3.mulVec, R3.dot]; ring
  have key : ∀ v w, M3.form (M3.mk (r.apply (M3.transpose ⟨r.apply m.rowX, r.apply m.rowY, r.apply m.rowZ⟩).rowX)
      (r.apply (M3.transpose ⟨r.apply m.rowX, r.apply m.rowY, r.apply m.rowZ⟩).rowY)
      (r.apply (M3.transpose ⟨r.apply m.rowX, r.apply m.rowY, r.apply m.rowZ⟩).rowZ)) (r.apply v) (r.apply w) = m.form v w := by
    intro v w
    rw [M3.form, hrow, hcol, C36_isometry r hr, hm, M3.form]
  unfold applyForm
  extract_lets inter result
  rw [hhalf, ht, key, key, hsym]
  ring

/-- A symmetric form and a rotation by two thirds of a turn around the diagonal. -/
example : (M3.mk ⟨1, 2, 3⟩ ⟨2, 5, 7⟩ ⟨3, 7, 11⟩ : M3 ℝ).Symmetric ∧ (⟨⟨-1 / 2, 1 / 2, 1 / 2, 1 / 2⟩⟩ : Rotation ℝ).IsUnit := by
  constructor
  · simp [M3.Symmetric, M3.transpose]
  · simp only [IsUnit, Quat.normSq, R3.normSq]; norm_num

end Rotation

end Principia.Geometry
