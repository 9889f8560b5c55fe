import Verif.Geometry.FormsConvergence

/-!
C53: the diagonalization of positive definite forms.
-/

set_option linter.unusedSimpArgs false
set_option linter.unusedVariables false
set_option linter.unusedSectionVars false

namespace Principia.Geometry.Form

/-- The elements of the diagonal are positive. -/
def PositiveDiagonal (A : M3 ℝ) : Prop := ∀ i, 0 < A.at' i i

theorem swapIfNeeded_positive {i j : Fin 3} {s : SortState} (h : PositiveDiagonal s.A) : PositiveDiagonal (swapIfNeeded i j s).A := by
  unfold swapIfNeeded
  split
  · intro k
    have h0 := h 0
    have h1 := h 1
    have h2 := h 2
    fin_cases i <;> fin_cases j <;> fin_cases k <;> simp_all [M3.at', M3.set, M3.setRow, M3.row, R3.set, R3.get]
  · exact h

theorem sort_positive {A V : M3 ℝ} (h : PositiveDiagonal A) : PositiveDiagonal (sort A V).A := by
  have : (sort A V).A = (swapIfNeeded 0 1 (swapIfNeeded 1 2 (swapIfNeeded 0 1 ⟨false, A, V.transpose⟩))).A := by
    unfold sort
    simp only
    split <;> rfl
  rw [this]
  exact swapIfNeeded_positive (swapIfNeeded_positive (swapIfNeeded_positive h))

/-- C53: the eigenvalues that are found for a positive definite form are positive. -/
theorem C53_diagonalize_positive (F : M3 ℝ) (hF : F.Symmetric) (hp : ∀ v : R3 ℝ, v ≠ 0 → 0 < eval F v v) (d : R3 ℝ) (r : Rotation ℝ)
    (h : diagonalize F = some (M3.diagonal d, r)) : 0 < d.x ∧ 0 < d.y ∧ 0 < d.z := by
  have h0 : JInv F F M3.identity := by
    refine ⟨Direct.identity, hF, ?_⟩
    rw [mul_identity']; exact (identity_mul' F).symm
  obtain ⟨A, V, e1, e2, e3⟩ := jacobiLoop_spec (norm := frobeniusNorm F) 15 h0
  have e1 : jacobiLoop (frobeniusNorm F) maxIterations (F, M3.identity) = some (A, V) := e1
  have hA : PositiveDiagonal A := by
    have hl := e2.direct.left
    rw [e2.eq]
    simp only [M3.ext_iff, R3.ext_iff, M3.mul, M3.transpose, M3.identity, R3.dot] at hl
    intro i
    have hc : ((V.transpose.mul F).mul V).at' i i = eval F (V.transpose.row i) (V.transpose.row i) := by
      fin_cases i <;> simp [M3.mul, M3.transpose, M3.at', M3.row, R3.get, R3.dot, eval, M3.mulVec] <;> ring
    rw [hc]
    refine hp _ fun hz => ?_
    fin_cases i <;> simp [M3.row, M3.transpose, R3.ext_iff] at hz <;> simp [hz] at hl
  have hs := sort_positive (V := V) hA
  rw [diagonalize, e1] at h
  simp only [Option.map_some, Option.some.injEq, Prod.mk.injEq] at h
  have hd := h.1
  simp only [M3.diagonal, M3.mk.injEq, R3.mk.injEq] at hd
  rw [← hd.1.1, ← hd.2.1.2.1, ← hd.2.2.2.2]
  exact ⟨hs 0, hs 1, hs 2⟩

/-- A positive definite form that is not diagonal. -/
example : (⟨⟨2, 1, 0⟩, ⟨1, 2, 0⟩, ⟨0, 0, 1⟩⟩ : M3 ℝ).Symmetric ∧ ∀ v : R3 ℝ, v ≠ 0 → 0 < eval ⟨⟨2, 1, 0⟩, ⟨1, 2, 0⟩, ⟨0, 0, 1⟩⟩ v v := by
  refine ⟨by simp [M3.Symmetric, M3.transpose], fun v hv => ?_⟩
  have h : eval ⟨⟨2, 1, 0⟩, ⟨1, 2, 0⟩, ⟨0, 0, 1⟩⟩ v v = (v.x + v.y) ^ 2 + v.x ^ 2 + v.y ^ 2 + v.z ^ 2 := by
    simp [eval, M3.mulVec, R3.dot]; ring
  rw [h]
  rcases (by positivity : 0 ≤ (v.x + v.y) ^ 2 + v.x ^ 2 + v.y ^ 2 + v.z ^ 2).lt_or_eq with h1 | h1
  · exact h1
  · exfalso
    apply hv
    have hx : v.x ^ 2 = 0 := by nlinarith [sq_nonneg (v.x + v.y), sq_nonneg v.x, sq_nonneg v.y, sq_nonneg v.z]
    have hy : v.y ^ 2 = 0 := by nlinarith [sq_nonneg (v.x + v.y), sq_nonneg v.x, sq_nonneg v.y, sq_nonneg v.z]
    have hz : v.z ^ 2 = 0 := by nlinarith [sq_nonneg (v.x + v.y), sq_nonneg v.x, sq_nonneg v.y, sq_nonneg v.z]
    ext
    · exact pow_eq_zero_iff two_ne_zero |>.1 hx
    · exact pow_eq_zero_iff two_ne_zero |>.1 hy
    · exact pow_eq_zero_iff two_ne_zero |>.1 hz

end Principia.Geometry.Form
