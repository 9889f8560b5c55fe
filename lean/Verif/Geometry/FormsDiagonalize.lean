import Verif.Geometry.FormsProps

/-!
C53: the diagonalization of symmetric bilinear forms.
-/

set_option linter.unusedSimpArgs false
set_option linter.unusedVariables false
set_option linter.unusedSectionVars false

namespace Principia.Geometry.Form

/-! ## The loop -/

/-- All the elements above the diagonal are at most `x`. -/
def Small (A : M3 ℝ) (x : ℝ) : Prop := |A.rowX.y| ≤ x ∧ |A.rowX.z| ≤ x ∧ |A.rowY.z| ≤ x

theorem largest_spec (A : M3 ℝ) : ∃ i, (largest A).2 = some i ∧ IsPair i ∧ (largest A).1 = |A.at' i.1 i.2| ∧ Small A (largest A).1 := by
  have h : largest A =
      if |A.rowX.y| ≤ |A.rowX.z| then (if |A.rowX.z| ≤ |A.rowY.z| then (|A.rowY.z|, some (1, 2)) else (|A.rowX.z|, some (0, 2)))
      else (if |A.rowX.y| ≤ |A.rowY.z| then (|A.rowY.z|, some (1, 2)) else (|A.rowX.y|, some (0, 1))) := by
    unfold largest
    simp only [List.foldl, M3.at', M3.row, R3.get, abs_nonneg, if_true]
    by_cases c1 : |A.rowX.y| ≤ |A.rowX.z| <;> simp only [c1, if_true, if_false]
  rw [h]
  by_cases c1 : |A.rowX.y| ≤ |A.rowX.z|
  · by_cases c2 : |A.rowX.z| ≤ |A.rowY.z|
    · rw [if_pos c1, if_pos c2]; exact ⟨(1, 2), rfl, .inr (.inr rfl), rfl, c1.trans c2, c2, le_rfl⟩
    · rw [if_pos c1, if_neg c2]; exact ⟨(0, 2), rfl, .inr (.inl rfl), rfl, c1, le_rfl, (not_le.1 c2).le⟩
  · by_cases c2 : |A.rowX.y| ≤ |A.rowY.z|
    · rw [if_neg c1, if_pos c2]; exact ⟨(1, 2), rfl, .inr (.inr rfl), rfl, c2, (not_le.1 c1).le.trans c2, le_rfl⟩
    · rw [if_neg c1, if_neg c2]; exact ⟨(0, 1), rfl, .inl rfl, rfl, le_rfl, (not_le.1 c1).le, (not_le.1 c2).le⟩

/-- One of the elements above the diagonal vanishes. -/
def HasZero (A : M3 ℝ) : Prop := A.rowX.y = 0 ∨ A.rowX.z = 0 ∨ A.rowY.z = 0

theorem hasZero_of {A : M3 ℝ} {i : Fin 3 × Fin 3} (hi : IsPair i) (h : A.at' i.1 i.2 = 0) : HasZero A := by
  rcases hi with rfl | rfl | rfl
  · exact .inl h
  · exact .inr (.inl h)
  · exact .inr (.inr h)

theorem sq_le_of_abs_le {x m : ℝ} (h : |x| ≤ m) : x ^ 2 ≤ m ^ 2 := sq_le_sq' (by linarith [neg_abs_le x]) (by linarith [le_abs_self x])

theorem off_le {A : M3 ℝ} {m : ℝ} (h : Small A m) : off A ≤ 3 * m ^ 2 := by
  obtain ⟨h1, h2, h3⟩ := h
  unfold off
  linarith [sq_le_of_abs_le h1, sq_le_of_abs_le h2, sq_le_of_abs_le h3]

theorem off_le' {A : M3 ℝ} {m : ℝ} (h : Small A m) (hz : HasZero A) : off A ≤ 2 * m ^ 2 := by
  obtain ⟨h1, h2, h3⟩ := h
  have := sq_le_of_abs_le h1
  have := sq_le_of_abs_le h2
  have := sq_le_of_abs_le h3
  unfold off
  rcases hz with hz | hz | hz <;> rw [hz] <;> linarith

/-- The invariant of the loop: the matrix is conjugated to the original one by a direct orthogonal matrix. -/
structure JInv (F A V : M3 ℝ) : Prop where
  direct : Direct V
  symmetric : A.Symmetric
  eq : A = (V.transpose.mul F).mul V

theorem JInv.conj {F A V : M3 ℝ} (h : JInv F A V) : F = (V.mul A).mul V.transpose := by
  rw [h.eq]
  simp only [mul_assoc']
  rw [h.direct.right, mul_identity', ← mul_assoc', h.direct.right, identity_mul']

theorem JInv.step {F A V : M3 ℝ} (h : JInv F A V) {i : Fin 3 × Fin 3} (hi : IsPair i) (J : M3 ℝ)
    (hJ : J = jacobiRotation i.1 i.2 (schur A i.1 i.2).1 (schur A i.1 i.2).2) : JInv F ((J.transpose.mul A).mul J) (V.mul J) := by
  refine ⟨h.direct.mul (hJ ▸ jacobiRotation_direct hi (schur_spec A i.1 i.2).1), (step_off h.symmetric hi J hJ).1, ?_⟩
  rw [h.eq, transpose_mul']
  simp only [mul_assoc']

/-- What is known after some iterations of the loop. -/
theorem jacobiLoop_zero {F : M3 ℝ} {norm : ℝ} (n : Nat) {A V : M3 ℝ} (h : JInv F A V) (hz : HasZero A) :
    ∃ A' V', jacobiLoop norm n (A, V) = some (A', V') ∧ JInv F A' V' ∧ (Small A' (ε * norm) ∨ off A' * 2 ^ n ≤ off A) := by
  induction n generalizing A V with
  | zero => exact ⟨A, V, rfl, h, .inr (by simp)⟩
  | succ n ih =>
    obtain ⟨i, h1, h2, h3, h4⟩ := largest_spec A
    unfold jacobiLoop
    simp only
    by_cases hs : (largest A).1 ≤ ε * norm
    · rw [if_pos hs]
      exact ⟨A, V, rfl, h, .inl ⟨h4.1.trans hs, h4.2.1.trans hs, h4.2.2.trans hs⟩⟩
    · rw [if_neg hs, h1]
      simp only [Option.bind_some]
      obtain ⟨g1, g2, g3⟩ := step_off h.symmetric h2 _ rfl
      obtain ⟨A', V', e1, e2, e3⟩ := ih (h.step h2 _ rfl) (hasZero_of h2 g2)
      refine ⟨A', V', e1, e2, e3.imp id fun e => ?_⟩
      rw [g3] at e
      have := off_le' h4 hz
      rw [h3, sq_abs] at this
      rw [pow_succ]
      linarith

theorem jacobiLoop_spec {F : M3 ℝ} {norm : ℝ} (n : Nat) {A V : M3 ℝ} (h : JInv F A V) :
    ∃ A' V', jacobiLoop norm (n + 1) (A, V) = some (A', V') ∧ JInv F A' V' ∧ (Small A' (ε * norm) ∨ 3 * (off A' * 2 ^ n) ≤ 2 * off A) := by
  obtain ⟨i, h1, h2, h3, h4⟩ := largest_spec A
  unfold jacobiLoop
  simp only
  by_cases hs : (largest A).1 ≤ ε * norm
  · rw [if_pos hs]
    exact ⟨A, V, rfl, h, .inl ⟨h4.1.trans hs, h4.2.1.trans hs, h4.2.2.trans hs⟩⟩
  · rw [if_neg hs, h1]
    simp only [Option.bind_some]
    obtain ⟨g1, g2, g3⟩ := step_off h.symmetric h2 _ rfl
    obtain ⟨A', V', e1, e2, e3⟩ := jacobiLoop_zero (norm := norm) n (h.step h2 _ rfl) (hasZero_of h2 g2)
    refine ⟨A', V', e1, e2, e3.imp id fun e => ?_⟩
    rw [g3] at e
    have := off_le h4
    rw [h3, sq_abs] at this
    linarith

/-! ## The sort -/

/-- The diagonal of a matrix. -/
def diag (A : M3 ℝ) : R3 ℝ := ⟨A.rowX.x, A.rowY.y, A.rowZ.z⟩

/-- The invariant of the sort: `v` is orthogonal with the parity given by `odd`, and it yields the same form. -/
structure SInv (A V : M3 ℝ) (s : SortState) : Prop where
  left : s.v.transpose.mul s.v = M3.identity
  right : s.v.mul s.v.transpose = M3.identity
  det : s.v.det = if s.odd then -1 else 1
  form : (s.v.transpose.mul (M3.diagonal (diag s.A))).mul s.v = (V.mul (M3.diagonal (diag A))).mul V.transpose
  trace : s.A.trace = A.trace

/-- The matrix that swaps two coordinates. -/
def swapMatrix (i j : Fin 3) : M3 ℝ := M3.identity.swapRows i j

theorem swapMatrix_spec {i : Fin 3 × Fin 3} (hi : IsPair i) :
    (swapMatrix i.1 i.2).transpose.mul (swapMatrix i.1 i.2) = M3.identity ∧
    (swapMatrix i.1 i.2).mul (swapMatrix i.1 i.2).transpose = M3.identity ∧ (swapMatrix i.1 i.2).det = -1 ∧
    (∀ m : M3 ℝ, m.swapRows i.1 i.2 = (swapMatrix i.1 i.2).mul m) ∧
    (∀ A : M3 ℝ, ((swapMatrix i.1 i.2).transpose.mul
      (M3.diagonal (diag ((A.set i.1 i.1 (A.at' i.2 i.2)).set i.2 i.2 (A.at' i.1 i.1))))).mul (swapMatrix i.1 i.2) = M3.diagonal (diag A)) := by
  rcases hi with rfl | rfl | rfl
  all_goals
    refine ⟨?_, ?_, ?_, fun m => ?_, fun A => ?_⟩
    · ext <;> simp [swapMatrix, M3.swapRows, M3.setRow, M3.row, M3.identity, M3.mul, M3.transpose, R3.dot]
    · ext <;> simp [swapMatrix, M3.swapRows, M3.setRow, M3.row, M3.identity, M3.mul, M3.transpose, R3.dot]
    · simp [swapMatrix, M3.swapRows, M3.setRow, M3.row, M3.identity, M3.det]
    · ext <;> simp [swapMatrix, M3.swapRows, M3.setRow, M3.row, M3.identity, M3.mul, M3.transpose, R3.dot]
    · ext <;> simp [swapMatrix, M3.swapRows, M3.setRow, M3.row, M3.identity, M3.mul, M3.transpose, R3.dot, M3.diagonal, diag, M3.set, M3.at', R3.set,
        R3.get]

theorem SInv.swap {A V : M3 ℝ} {s : SortState} (h : SInv A V s) {i : Fin 3 × Fin 3} (hi : IsPair i) : SInv A V (swapIfNeeded i.1 i.2 s) := by
  unfold swapIfNeeded
  split
  · obtain ⟨p1, p2, p3, p4, p5⟩ := swapMatrix_spec hi
    refine ⟨?_, ?_, ?_, ?_, ?_⟩
    · rw [p4, transpose_mul', mul_assoc', ← mul_assoc' (swapMatrix i.1 i.2).transpose, p1, identity_mul', h.left]
    · rw [p4, transpose_mul', mul_assoc', ← mul_assoc' s.v, h.right, identity_mul', p2]
    · rw [p4, det_mul', p3, h.det]; cases s.odd <;> simp
    · rw [p4, transpose_mul', ← h.form, ← p5 s.A]
      simp only [mul_assoc']
    · rw [← h.trace]
      rcases hi with rfl | rfl | rfl <;> simp [M3.trace, M3.set, M3.setRow, M3.row, R3.set, M3.at', R3.get] <;> ring
  · exact h

theorem sort_inv (A V : M3 ℝ) (hV : Direct V) : SInv A V (swapIfNeeded 0 1 (swapIfNeeded 1 2 (swapIfNeeded 0 1 ⟨false, A, V.transpose⟩))) := by
  have h0 : SInv A V ⟨false, A, V.transpose⟩ := by
    refine ⟨?_, ?_, ?_, ?_, rfl⟩
    · rw [transpose_transpose']; exact hV.right
    · rw [transpose_transpose']; exact hV.left
    · rw [det_transpose', hV.det]; rfl
    · rw [transpose_transpose']
  exact ((h0.swap (i := (0, 1)) (.inl rfl)).swap (i := (1, 2)) (.inr (.inr rfl))).swap (i := (0, 1)) (.inl rfl)

theorem swapIfNeeded_01 (s : SortState) : diag (swapIfNeeded 0 1 s).A =
    ⟨min s.A.rowX.x s.A.rowY.y, max s.A.rowX.x s.A.rowY.y, s.A.rowZ.z⟩ := by
  unfold swapIfNeeded
  by_cases h : s.A.rowY.y < s.A.rowX.x
  · rw [if_pos (show s.A.at' 1 1 < s.A.at' 0 0 from h), min_eq_right h.le, max_eq_left h.le]; rfl
  · rw [if_neg (show ¬ s.A.at' 1 1 < s.A.at' 0 0 from h), min_eq_left (not_lt.1 h), max_eq_right (not_lt.1 h)]; rfl

theorem swapIfNeeded_12 (s : SortState) : diag (swapIfNeeded 1 2 s).A =
    ⟨s.A.rowX.x, min s.A.rowY.y s.A.rowZ.z, max s.A.rowY.y s.A.rowZ.z⟩ := by
  unfold swapIfNeeded
  by_cases h : s.A.rowZ.z < s.A.rowY.y
  · rw [if_pos (show s.A.at' 2 2 < s.A.at' 1 1 from h), min_eq_right h.le, max_eq_left h.le]; rfl
  · rw [if_neg (show ¬ s.A.at' 2 2 < s.A.at' 1 1 from h), min_eq_left (not_lt.1 h), max_eq_right (not_lt.1 h)]; rfl

theorem sort_sorted (A V : M3 ℝ) :
    (sort A V).A.rowX.x ≤ (sort A V).A.rowY.y ∧ (sort A V).A.rowY.y ≤ (sort A V).A.rowZ.z := by
  have h : (sort A V).A = (swapIfNeeded 0 1 (swapIfNeeded 1 2 (swapIfNeeded 0 1 ⟨false, A, V.transpose⟩))).A := by
    unfold sort
    simp only
    split <;> rfl
  rw [h]
  have h1 := swapIfNeeded_01 ⟨false, A, V.transpose⟩
  generalize swapIfNeeded 0 1 ⟨false, A, V.transpose⟩ = s at *
  have h2 := swapIfNeeded_12 s
  generalize swapIfNeeded 1 2 s = s' at *
  have h3 := swapIfNeeded_01 s'
  generalize swapIfNeeded 0 1 s' = s'' at *
  simp only [diag, R3.mk.injEq] at h1 h2 h3
  obtain ⟨a1, a2, a3⟩ := h1
  obtain ⟨b1, b2, b3⟩ := h2
  obtain ⟨c1, c2, c3⟩ := h3
  have hxy : s.A.rowX.x ≤ s.A.rowY.y := by rw [a1, a2]; exact min_le_max
  rw [c1, c2, c3]
  refine ⟨min_le_max, max_le ?_ ?_⟩
  · rw [b1, b3]; exact hxy.trans (le_max_left _ _)
  · rw [b2, b3]; exact min_le_max

/-- The result of the sort is a direct orthonormal basis. -/
theorem sort_spec (A V : M3 ℝ) (hV : Direct V) : DirectOrthonormal ((sort A V).v.row 0) ((sort A V).v.row 1) ((sort A V).v.row 2) ∧
    ((sort A V).v.transpose.mul (M3.diagonal (diag (sort A V).A))).mul (sort A V).v = (V.mul (M3.diagonal (diag A))).mul V.transpose ∧
    (sort A V).A.trace = A.trace := by
  have h := sort_inv A V hV
  unfold sort
  simp only
  generalize swapIfNeeded 0 1 (swapIfNeeded 1 2 (swapIfNeeded 0 1 ⟨false, A, V.transpose⟩)) = s at h ⊢
  obtain ⟨odd, B, ⟨x, y, z⟩⟩ := s
  obtain ⟨h1, h2, h3, h4, h5⟩ := h
  simp only [M3.mul, M3.transpose, M3.identity, M3.mk.injEq, R3.mk.injEq] at h2
  obtain ⟨⟨a1, a2, a3⟩, ⟨b1, b2, b3⟩, c1, c2, c3⟩ := h2
  have hd : (M3.mk x y z).det = (x.cross y).dot z := by simp [M3.det, R3.cross, R3.dot]; ring
  rw [hd] at h3
  cases odd with
  | false =>
    simp only [Bool.false_eq_true, if_false] at h3 ⊢
    exact ⟨⟨a1, b2, c3, a2, b3, c1, h3⟩, h4, h5⟩
  | true =>
    simp only [if_true] at h3 ⊢
    refine ⟨?_, ?_, h5⟩
    · simp only [M3.setRow, M3.row]
      simp only [R3.dot, R3.cross] at a1 a2 b2 b3 c1 c3 h3
      refine ⟨a1, ?_, c3, ?_, ?_, c1, ?_⟩ <;> simp only [R3.dot, R3.cross, R3.smul_x, R3.smul_y, R3.smul_z]
      · linear_combination b2
      · linear_combination -a2
      · linear_combination -b3
      · linear_combination -h3
    · rw [← h4]
      ext <;> simp [M3.mul, M3.transpose, M3.diagonal, diag, M3.setRow, M3.row, R3.dot]

theorem applyForm_diagonal {x y z : R3 ℝ} (h : DirectOrthonormal x y z) (d : R3 ℝ) :
    (Rotation.ofFromFrameAxes x y z).applyForm (M3.diagonal d) = ((M3.mk x y z).transpose.mul (M3.diagonal d)).mul (M3.mk x y z) := by
  have ha := fun v => (Rotation.C36_from_frame_axes h v).2
  unfold Rotation.applyForm
  simp only [ha]
  ext <;> simp [M3.mul, M3.transpose, M3.diagonal, R3.dot] <;> ring

/-! ## The result -/

theorem diagonalize_spec (F : M3 ℝ) (hF : F.Symmetric) :
    ∃ A V d r, jacobiLoop (frobeniusNorm F) maxIterations (F, M3.identity) = some (A, V) ∧ JInv F A V ∧
      diagonalize F = some (M3.diagonal d, r) ∧ r.IsUnit ∧ d.x ≤ d.y ∧ d.y ≤ d.z ∧ (M3.diagonal d).trace = F.trace ∧
      frobeniusSq (r.applyForm (M3.diagonal d) - F) = 2 * off A ∧
      (Small A (ε * frobeniusNorm F) ∨ 3 * (off A * 2 ^ 15) ≤ 2 * off F) := by
  have h0 : JInv F F M3.identity := by
    refine ⟨Direct.identity, hF, ?_⟩
    rw [mul_identity']; exact (identity_mul' F).symm
  obtain ⟨A, V, e1, e2, e3⟩ := jacobiLoop_spec (norm := frobeniusNorm F) 15 h0
  obtain ⟨s1, s2, s3⟩ := sort_spec A V e2.direct
  obtain ⟨o1, o2⟩ := sort_sorted A V
  refine ⟨A, V, diag (sort A V).A, _, e1, e2, ?_, (Rotation.C36_from_frame_axes s1 0).1, o1, o2, ?_, ?_, e3⟩
  · unfold diagonalize
    rw [show maxIterations = 15 + 1 from rfl, e1]
    rfl
  · have : (M3.diagonal (diag (sort A V).A)).trace = (sort A V).A.trace := by simp [M3.trace, M3.diagonal, diag]
    rw [this, s3, e2.conj, trace_conj e2.direct]
  · rw [applyForm_diagonal s1]
    have hv : M3.mk ((sort A V).v.row 0) ((sort A V).v.row 1) ((sort A V).v.row 2) = (sort A V).v := rfl
    rw [hv, s2]
    conv_lhs => rw [e2.conj]
    rw [← sub_mul', ← mul_sub', frobeniusSq_conj e2.direct]
    have hs := e2.symmetric
    simp [M3.Symmetric, M3.ext_iff, R3.ext_iff, M3.transpose] at hs
    obtain ⟨⟨h1, h2⟩, ⟨h3, h4⟩, h5, h6⟩ := hs
    simp [frobeniusSq, R3.normSq, M3.diagonal, diag, off, h1, h2, h4]
    ring

end Principia.Geometry.Form
