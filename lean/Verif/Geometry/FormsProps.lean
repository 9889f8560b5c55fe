import Verif.Geometry.SolveInertia
import Verif.Geometry.RotationAngles

/-!
C53: symmetric bilinear forms.
-/

set_option linter.unusedSimpArgs false
set_option linter.unusedVariables false
set_option linter.unusedSectionVars false

namespace Principia.Geometry

namespace Form

/-! ## Operations -/

section

variable {K : Type} [Field K]

/-- C53: the value of a form is bilinear, and symmetric if the matrix is. -/
theorem C53_bilinear (F : M3 K) (u v w : R3 K) (a : K) :
    eval F (u + a • v) w = eval F u w + a * eval F v w ∧ eval F w (u + a • v) = eval F w u + a * eval F w v ∧
    (F.Symmetric → eval F u v = eval F v u) := by
  refine ⟨?_, ?_, fun h => ?_⟩
  · simp [eval, M3.mulVec, R3.dot]; ring
  · simp [eval, M3.mulVec, R3.dot]; ring
  · simp [M3.Symmetric, M3.ext_iff, R3.ext_iff, M3.transpose] at h
    obtain ⟨⟨h1, h2⟩, ⟨h3, h4⟩, h5, h6⟩ := h
    simp [eval, M3.mulVec, R3.dot, h1, h2, h4]; ring

/-- C53: the inner product form, the symmetric product and the symmetric square have the values that their names suggest. -/
theorem C53_products (h2 : (2 : K) ≠ 0) (l r v w : R3 K) :
    eval innerProduct v w = v.dot w ∧
    eval (symmetricProduct l r) v w = (l.dot v * r.dot w + r.dot v * l.dot w) / 2 ∧
    symmetricSquare v = symmetricProduct v v ∧ (symmetricProduct l r).Symmetric := by
  refine ⟨?_, ?_, ?_, ?_⟩
  · simp [eval, innerProduct, M3.identity, M3.mulVec, R3.dot]
  · simp [eval, symmetricProduct, M3.kronecker, M3.mulVec, R3.dot]; field_simp; ring
  · ext <;> simp [symmetricProduct, symmetricSquare, M3.kronecker] <;> field_simp <;> ring
  · simp [M3.Symmetric, M3.ext_iff, R3.ext_iff, M3.transpose, symmetricProduct, M3.kronecker, h2]
    refine ⟨⟨?_, ?_⟩, ⟨?_, ?_⟩, ?_, ?_⟩ <;> ring1

/-- C53: the anticommutator of a form extends it to bivectors as a derivation: it maps `v ∧ w` to `F v ∧ w + v ∧ F w`.  Both ways of computing it
agree. -/
theorem C53_anticommutator (F : M3 K) (hF : F.Symmetric) (v w : R3 K) :
    (anticommutator F).mulVec (v.cross w) = (F.mulVec v).cross w + v.cross (F.mulVec w) ∧
    anticommutatorWith F (v.cross w) = (F.mulVec v).cross w + v.cross (F.mulVec w) ∧ (anticommutator F).Symmetric := by
  simp [M3.Symmetric, M3.ext_iff, R3.ext_iff, M3.transpose] at hF
  obtain ⟨⟨h1, h2⟩, ⟨h3, h4⟩, h5, h6⟩ := hF
  refine ⟨?_, ?_, ?_⟩
  · ext <;> simp [anticommutator, M3.trace, M3.identity, M3.mulVec, R3.dot, R3.cross, h1, h2, h4] <;> ring
  · ext <;> simp [anticommutatorWith, M3.trace, M3.mulVec, R3.dot, R3.cross, h1, h2, h4] <;> ring
  · ext <;> simp [M3.transpose, anticommutator, M3.trace, M3.identity, h1, h2, h4]

/-- C53: the anticommutator may be inverted. -/
theorem C53_anticommutator_inverse (h2 : (2 : K) ≠ 0) (F : M3 K) :
    anticommutatorInverse (anticommutator F) = F ∧ anticommutator (anticommutatorInverse F) = F := by
  constructor <;> ext <;> simp [anticommutator, anticommutatorInverse, M3.trace, M3.identity] <;> field_simp <;> ring

/-- C53: the quotient of a vector by a form, if it may be computed, is the vector that the form maps to it, and there is only one. -/
theorem C53_divide [LinearOrder K] (L U : M3 K) (left x : R3 K) (F : M3 K) (h : divide L U left F = .ok x) :
    F.mulVec x = left ∧ ∀ y, F.mulVec y = left → y = x := by
  obtain ⟨hd, hx⟩ := M3.C52_solution _ _ _ _ _ h
  refine ⟨hx, fun y hy => ?_⟩
  rw [← hx] at hy
  simp only [M3.mulVec, R3.dot, R3.mk.injEq] at hy
  obtain ⟨e1, e2, e3⟩ := hy
  unfold M3.det at hd
  ext
  · refine mul_left_cancel₀ hd ?_
    linear_combination (F.rowY.y * F.rowZ.z - F.rowY.z * F.rowZ.y) * e1 + (F.rowX.z * F.rowZ.y - F.rowX.y * F.rowZ.z) * e2 +
      (F.rowX.y * F.rowY.z - F.rowX.z * F.rowY.y) * e3
  · refine mul_left_cancel₀ hd ?_
    linear_combination (F.rowY.z * F.rowZ.x - F.rowY.x * F.rowZ.z) * e1 + (F.rowX.x * F.rowZ.z - F.rowX.z * F.rowZ.x) * e2 +
      (F.rowX.z * F.rowY.x - F.rowX.x * F.rowY.z) * e3
  · refine mul_left_cancel₀ hd ?_
    linear_combination (F.rowY.x * F.rowZ.y - F.rowY.y * F.rowZ.x) * e1 + (F.rowX.y * F.rowZ.x - F.rowX.x * F.rowZ.y) * e2 +
      (F.rowX.x * F.rowY.y - F.rowX.y * F.rowY.x) * e3

/-- A form that is not diagonal. -/
example : (⟨⟨2, 1, 0⟩, ⟨1, 3, 1⟩, ⟨0, 1, 4⟩⟩ : M3 ℚ).Symmetric ∧ divide M3.identity M3.identity (⟨3, 5, 5⟩ : R3 ℚ) ⟨⟨2, 1, 0⟩, ⟨1, 3, 1⟩, ⟨0, 1, 4⟩⟩ = .ok ⟨1, 1, 1⟩ := by
  constructor
  · rfl
  · decide +kernel

end

/-! ## The algebra of matrices -/

section

variable {K : Type} [CommRing K]

theorem mul_assoc' (a b c : M3 K) : (a.mul b).mul c = a.mul (b.mul c) := by
  ext <;> simp [M3.mul, M3.transpose, R3.dot] <;> ring

theorem transpose_mul' (a b : M3 K) : (a.mul b).transpose = b.transpose.mul a.transpose := by
  ext <;> simp [M3.mul, M3.transpose, R3.dot] <;> ring

theorem transpose_transpose' (a : M3 K) : a.transpose.transpose = a := rfl

theorem identity_mul' (a : M3 K) : M3.identity.mul a = a := by
  ext <;> simp [M3.mul, M3.transpose, R3.dot, M3.identity]

theorem mul_identity' (a : M3 K) : a.mul M3.identity = a := by
  ext <;> simp [M3.mul, M3.transpose, R3.dot, M3.identity]

theorem mul_sub' (a b c : M3 K) : a.mul (b - c) = a.mul b - a.mul c := by
  ext <;> simp [M3.mul, M3.transpose, R3.dot] <;> ring

theorem sub_mul' (a b c : M3 K) : (a - b).mul c = a.mul c - b.mul c := by
  ext <;> simp [M3.mul, M3.transpose, R3.dot] <;> ring

theorem det_mul' (a b : M3 K) : (a.mul b).det = a.det * b.det := by
  simp [M3.mul, M3.transpose, R3.dot, M3.det]; ring

theorem det_transpose' (a : M3 K) : a.transpose.det = a.det := by
  simp [M3.transpose, M3.det]; ring

theorem trace_mul_comm' (a b : M3 K) : (a.mul b).trace = (b.mul a).trace := by
  simp [M3.mul, M3.transpose, R3.dot, M3.trace]; ring

/-- The sum of the squares of the elements. -/
def frobeniusSq (m : M3 K) : K := m.rowX.normSq + m.rowY.normSq + m.rowZ.normSq

theorem frobeniusSq_eq (m : M3 K) : frobeniusSq m = (m.transpose.mul m).trace := by
  simp [frobeniusSq, R3.normSq, M3.mul, M3.transpose, R3.dot, M3.trace]; ring

/-- A direct orthogonal matrix. -/
structure Direct (V : M3 K) : Prop where
  left : V.transpose.mul V = M3.identity
  right : V.mul V.transpose = M3.identity
  det : V.det = 1

theorem Direct.mul {V W : M3 K} (hV : Direct V) (hW : Direct W) : Direct (V.mul W) := by
  refine ⟨?_, ?_, by rw [det_mul', hV.det, hW.det, mul_one]⟩
  · rw [transpose_mul', mul_assoc', ← mul_assoc' V.transpose, hV.left, identity_mul', hW.left]
  · rw [transpose_mul', mul_assoc', ← mul_assoc' W, hW.right, identity_mul', hV.right]

theorem Direct.identity : Direct (M3.identity : M3 K) := by
  refine ⟨?_, ?_, ?_⟩
  · rw [mul_identity']; rfl
  · rw [identity_mul']; rfl
  · simp [M3.identity, M3.det]

theorem frobeniusSq_conj {V : M3 K} (hV : Direct V) (m : M3 K) : frobeniusSq ((V.mul m).mul V.transpose) = frobeniusSq m := by
  rw [frobeniusSq_eq, frobeniusSq_eq, transpose_mul', transpose_mul', transpose_transpose']
  have : (V.mul (m.transpose.mul V.transpose)).mul ((V.mul m).mul V.transpose) = (V.mul (m.transpose.mul m)).mul V.transpose := by
    simp only [mul_assoc']
    rw [← mul_assoc' V.transpose, hV.left, identity_mul']
  rw [this, trace_mul_comm', ← mul_assoc', hV.left, identity_mul']

theorem trace_conj {V : M3 K} (hV : Direct V) (m : M3 K) : ((V.mul m).mul V.transpose).trace = m.trace := by
  rw [trace_mul_comm', ← mul_assoc', hV.left, identity_mul']

end

/-! ## The rotations -/

/-- The sum of the squares of the elements above the diagonal. -/
def off (A : M3 ℝ) : ℝ := A.rowX.y ^ 2 + A.rowX.z ^ 2 + A.rowY.z ^ 2

/-- A pair of indices above the diagonal. -/
def IsPair (i : Fin 3 × Fin 3) : Prop := i = (0, 1) ∨ i = (0, 2) ∨ i = (1, 2)

theorem jacobiRotation_direct {i : Fin 3 × Fin 3} (hi : IsPair i) {c s : ℝ} (h : c * c + s * s = 1) : Direct (jacobiRotation i.1 i.2 c s) := by
  rcases hi with rfl | rfl | rfl
  all_goals
    refine ⟨?_, ?_, ?_⟩
    · ext <;> simp [jacobiRotation, M3.set, M3.setRow, M3.row, R3.set, M3.identity, M3.mul, M3.transpose, R3.dot] <;> first | linear_combination h | ring1
    · ext <;> simp [jacobiRotation, M3.set, M3.setRow, M3.row, R3.set, M3.identity, M3.mul, M3.transpose, R3.dot] <;> first | linear_combination h | ring1
    · simp [jacobiRotation, M3.set, M3.setRow, M3.row, R3.set, M3.identity, M3.det]; linear_combination h

theorem tangent_root {τ w : ℝ} (hw : w * w = 1 + τ * τ) (hn : τ + w ≠ 0) : 1 / (τ + w) * (1 / (τ + w)) + 2 * τ * (1 / (τ + w)) - 1 = 0 := by
  have h : 1 / (τ + w) * (τ + w) = 1 := by field_simp
  generalize 1 / (τ + w) = t at h ⊢
  have : t * (t * (1 + τ * τ - w * w)) = 0 := by rw [hw]; ring
  linear_combination this + (t * w + 1 - t * τ) * h

theorem schur_rotation {t w : ℝ} (hw : w * w = 1 + t * t) (hw0 : w ≠ 0) : 1 / w * (1 / w) * (1 + t * t) = 1 := by
  rw [← hw]; field_simp

theorem schur_zero {a d c t τ : ℝ} (ht : t * t + 2 * τ * t - 1 = 0) (hτ : τ * (2 * a) = d) :
    a * (c * c - t * c * (t * c)) + -d * (c * (t * c)) = 0 := by
  linear_combination -(c * c * a) * ht + c * c * t * hτ

theorem schur_spec (A : M3 ℝ) (p q : Fin 3) :
    (schur A p q).1 * (schur A p q).1 + (schur A p q).2 * (schur A p q).2 = 1 ∧
    A.at' p q * ((schur A p q).1 * (schur A p q).1 - (schur A p q).2 * (schur A p q).2) +
      (A.at' p p - A.at' q q) * ((schur A p q).1 * (schur A p q).2) = 0 := by
  unfold schur
  split
  · rename_i hne
    extract_lets τ t c
    have hr : √(1 + τ * τ) * √(1 + τ * τ) = 1 + τ * τ := Real.mul_self_sqrt (by nlinarith [mul_self_nonneg τ])
    have hlt : |τ| < √(1 + τ * τ) := by
      apply Real.lt_sqrt_of_sq_lt
      rw [sq_abs]; nlinarith
    have ht : t * t + 2 * τ * t - 1 = 0 := by
      by_cases h0 : 0 ≤ τ
      · have e : t = 1 / (τ + √(1 + τ * τ)) := if_pos h0
        have hn : τ + √(1 + τ * τ) ≠ 0 := by
          have := abs_nonneg τ; apply ne_of_gt; linarith
        rw [e]; exact tangent_root hr hn
      · have e : t = 1 / (τ - √(1 + τ * τ)) := if_neg h0
        have hn : τ - √(1 + τ * τ) ≠ 0 := by
          have := neg_abs_le τ; apply ne_of_lt; push Not at h0; linarith [abs_nonneg τ]
        rw [e, sub_eq_add_neg]; exact tangent_root (by rw [neg_mul_neg]; exact hr) (by rw [← sub_eq_add_neg]; exact hn)
    have hs : √(1 + t * t) * √(1 + t * t) = 1 + t * t := Real.mul_self_sqrt (by nlinarith [mul_self_nonneg t])
    have hs0 : √(1 + t * t) ≠ 0 := by
      intro h; rw [h] at hs; nlinarith [mul_self_nonneg t]
    have hc : c * c * (1 + t * t) = 1 := schur_rotation hs hs0
    have hτ : τ * (2 * A.at' p q) = A.at' q q - A.at' p p := by
      show (A.at' q q - A.at' p p) / (2 * A.at' p q) * (2 * A.at' p q) = _
      field_simp
    refine ⟨by linear_combination hc, ?_⟩
    have := schur_zero (c := c) ht hτ
    rw [neg_sub] at this
    exact this
  · rename_i h0
    push Not at h0
    simp [h0]

/-- A step zeroes an element above the diagonal. -/
theorem step_off {A : M3 ℝ} (hA : A.Symmetric) {i : Fin 3 × Fin 3} (hi : IsPair i) (J : M3 ℝ)
    (hJ : J = jacobiRotation i.1 i.2 (schur A i.1 i.2).1 (schur A i.1 i.2).2) :
    ((J.transpose.mul A).mul J).Symmetric ∧ ((J.transpose.mul A).mul J).at' i.1 i.2 = 0 ∧
      off ((J.transpose.mul A).mul J) = off A - A.at' i.1 i.2 ^ 2 := by
  obtain ⟨h1, h2⟩ := schur_spec A i.1 i.2
  refine ⟨?_, ?_⟩
  · unfold M3.Symmetric
    rw [transpose_mul', transpose_mul', transpose_transpose', hA, mul_assoc']
  · generalize (schur A i.1 i.2).1 = c at *
    generalize (schur A i.1 i.2).2 = s at *
    obtain ⟨⟨a, f, e⟩, ⟨f', b, d⟩, ⟨e', d', g⟩⟩ := A
    simp [M3.Symmetric, M3.transpose] at hA
    obtain ⟨⟨rfl, rfl⟩, ⟨-, rfl⟩, -⟩ := hA
    subst hJ
    rcases hi with rfl | rfl | rfl
    all_goals
      simp [M3.at', M3.row, R3.get] at h2
      simp [off, jacobiRotation, M3.set, M3.setRow, M3.row, R3.set, R3.get, M3.at', M3.identity, M3.mul, M3.transpose, R3.dot]
    · refine ⟨by linear_combination h2, ?_⟩
      have h3 : (c * a + -(s * f')) * s + (c * f' + -(s * b)) * c = 0 := by linear_combination h2
      rw [h3]
      linear_combination (e' ^ 2 + d' ^ 2) * h1
    · refine ⟨by linear_combination h2, ?_⟩
      have h3 : (c * a + -(s * e')) * s + (c * e' + -(s * g)) * c = 0 := by linear_combination h2
      rw [h3]
      linear_combination (f' ^ 2 + d' ^ 2) * h1
    · refine ⟨by linear_combination h2, ?_⟩
      have h3 : (c * b + -(s * d')) * s + (c * d' + -(s * g)) * c = 0 := by linear_combination h2
      rw [h3]
      linear_combination (f' ^ 2 + e' ^ 2) * h1

end Form

end Principia.Geometry
