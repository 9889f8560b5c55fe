import Verif.Numerics.EigenModel
import Verif.Numerics.MatrixSpec
import Verif.Numerics.MatrixLemmas
import Mathlib.LinearAlgebra.Matrix.NonsingularInverse
import Mathlib.Tactic.Positivity

/-!
Lemmas on the Householder reflections and the Hessenberg decomposition.
-/

set_option linter.unusedSimpArgs false
set_option linter.unusedVariables false
set_option linter.unusedSectionVars false

namespace Principia.Numerics.Matrices

open Finset

/-- A vector with `m` elements for which the reflection is computed properly: it is neither zero nor a negative multiple of the first vector of the basis. -/
def Regular (m : ℕ) (x : Vec ℝ) : Prop := 0 < x 0 ∨ ∃ i, 1 ≤ i ∧ i < m ∧ x i ≠ 0

theorem normalize_some {m : ℕ} {x y : Vec ℝ} (h : normalize m x = some y) :
    0 < ∑ i ∈ range m, x i ^ 2 ∧ ∀ i, y i = x i / √(∑ i ∈ range m, x i ^ 2) := by
  unfold normalize at h
  dsimp only at h
  rw [sum_zero_eq] at h
  have h0 : 0 ≤ ∑ i ∈ range m, x i ^ 2 := Finset.sum_nonneg fun i _ => sq_nonneg _
  by_cases hn : √(∑ i ∈ range m, x i ^ 2) = 0
  · rw [if_pos hn] at h; simp at h
  · rw [if_neg hn] at h
    simp only [Option.some.injEq] at h
    refine ⟨lt_of_le_of_ne h0 fun e => hn (by rw [← e]; simp), fun i => by rw [← h]⟩

theorem normalize_none {m : ℕ} {x : Vec ℝ} : normalize m x = none ↔ ∀ i < m, x i = 0 := by
  unfold normalize
  dsimp only
  rw [sum_zero_eq]
  have h0 : 0 ≤ ∑ i ∈ range m, x i ^ 2 := Finset.sum_nonneg fun i _ => sq_nonneg _
  have e : √(∑ i ∈ range m, x i ^ 2) = 0 ↔ ∀ i < m, x i = 0 := by
    rw [Real.sqrt_eq_zero h0, Finset.sum_eq_zero_iff_of_nonneg fun i _ => sq_nonneg _]
    simp
  by_cases hn : √(∑ i ∈ range m, x i ^ 2) = 0
  · rw [if_pos hn]; simpa using e.1 hn
  · rw [if_neg hn]
    simp only [reduceCtorEq, false_iff]
    exact fun h => hn (e.2 h)

theorem normalize_unit {m : ℕ} {x y : Vec ℝ} (h : normalize m x = some y) : ∑ i ∈ range m, y i ^ 2 = 1 := by
  obtain ⟨h0, h1⟩ := normalize_some h
  simp only [h1, div_pow, Real.sq_sqrt h0.le]
  rw [← Finset.sum_div, div_self h0.ne']

theorem householder_none {m : ℕ} {x : Vec ℝ} : householder m x = none ↔ ∀ i < m, x i = 0 := by
  unfold householder
  rw [Option.map_eq_none_iff, normalize_none]

theorem sum_tail {m : ℕ} (hm : 1 ≤ m) (f : ℕ → ℝ) : ∑ i ∈ range m, f i = f 0 + ∑ i ∈ Ico 1 m, f i := by
  rw [Finset.range_eq_Ico, Finset.sum_eq_sum_Ico_succ_bot (by omega)]

/-- The reflection is orthogonal, and maps the vector to a positive multiple of the first vector of the basis. -/
theorem householder_spec {m : ℕ} (hm : 1 ≤ m) {x : Vec ℝ} (hx : Regular m x) {P : Reflection} (h : householder m x = some P) :
    P.β * (P.β * ∑ i ∈ range m, P.v i ^ 2 - 2) = 0 ∧
      ∀ i < m, x i - P.β * P.v i * ∑ l ∈ range m, P.v l * x l = if i = 0 then √(∑ i ∈ range m, x i ^ 2) else 0 := by
  unfold householder at h
  obtain ⟨y, hy, hPe⟩ := Option.map_eq_some_iff.1 h
  clear h
  obtain ⟨h0, h1⟩ := normalize_some hy
  have hu := normalize_unit hy
  set N := √(∑ i ∈ range m, x i ^ 2) with hN
  have hNp : 0 < N := Real.sqrt_pos.2 h0
  have hxy : ∀ i, x i = N * y i := fun i => by rw [h1]; field_simp
  rw [sum_tail hm] at hu
  rw [sum_eq 1 m hm] at hPe
  dsimp only at hPe
  set σ := ∑ i ∈ Ico 1 m, y i ^ 2 with hσ
  have hσ0 : 0 ≤ σ := Finset.sum_nonneg fun i _ => sq_nonneg _
  suffices hs : ∀ (P : Reflection), P.β * (P.β * ∑ i ∈ range m, P.v i ^ 2 - 2) = 0 ∧
      (∀ i < m, y i - P.β * P.v i * ∑ l ∈ range m, P.v l * y l = if i = 0 then 1 else 0) → P.β * (P.β * ∑ i ∈ range m, P.v i ^ 2 - 2) = 0 ∧
      ∀ i < m, x i - P.β * P.v i * ∑ l ∈ range m, P.v l * x l = if i = 0 then N else 0 by
    by_cases hz : σ = 0
    · rw [if_pos hz] at hPe
      subst hPe
      refine hs _ ?_
      have htail : ∀ i, 1 ≤ i → i < m → y i = 0 := by
        intro i hi hi'
        have := (Finset.sum_eq_zero_iff_of_nonneg (fun i _ => sq_nonneg (y i))).1 hz i (Finset.mem_Ico.2 ⟨hi, hi'⟩)
        simpa using this
      have hpos : 0 < x 0 := by
        rcases hx with hx | ⟨i, hi, hi', hne⟩
        · exact hx
        · exact absurd (by rw [hxy, htail i hi hi', mul_zero]) hne
      have hypos : 0 < y 0 := by rw [h1]; positivity
      have hy1 : y 0 = 1 := by
        rw [hz, add_zero] at hu
        nlinarith
      rw [if_neg (by linarith)]
      refine ⟨by simp, fun i hi => ?_⟩
      dsimp only
      rw [zero_mul, zero_mul, sub_zero]
      by_cases hi0 : i = 0
      · rw [if_pos hi0, hi0, hy1]
      · rw [if_neg hi0, htail i (by omega) hi]
    · rw [if_neg hz] at hPe
      subst hPe
      refine hs _ ?_
      have hσp : 0 < σ := lt_of_le_of_ne hσ0 (Ne.symm hz)
      have hv : (if y 0 ≤ 0 then y 0 - 1 else -σ / (y 0 + 1)) = y 0 - 1 := by
        by_cases hy0 : y 0 ≤ 0
        · rw [if_pos hy0]
        · rw [if_neg hy0, div_eq_iff (by linarith)]
          nlinarith
      rw [hv]
      have hne : y 0 - 1 ≠ 0 := by
        intro e
        have : y 0 = 1 := by linarith
        rw [this] at hu
        linarith
      have hβ : 2 * (y 0 - 1) ^ 2 / (σ + (y 0 - 1) ^ 2) = -(y 0 - 1) := by
        have : σ + (y 0 - 1) ^ 2 = -2 * (y 0 - 1) := by nlinarith
        rw [this]
        field_simp
        try ring
      rw [hβ]
      dsimp only
      have hv0 : Vec.set y 0 (y 0 - 1) 0 / (y 0 - 1) = 1 := by rw [Vec.set_eq, div_self hne]
      have hvi : ∀ i, 1 ≤ i → Vec.set y 0 (y 0 - 1) i / (y 0 - 1) = y i / (y 0 - 1) := fun i hi => by rw [Vec.set_ne _ _ (by omega)]
      have hnorm : ∑ i ∈ range m, (Vec.set y 0 (y 0 - 1) i / (y 0 - 1)) ^ 2 = 1 + σ / (y 0 - 1) ^ 2 := by
        rw [sum_tail hm, hv0, hσ, Finset.sum_div]
        congr 1
        · norm_num
        · exact Finset.sum_congr rfl fun i hi => by rw [hvi i (Finset.mem_Ico.1 hi).1, div_pow]
      have hdot : ∑ l ∈ range m, Vec.set y 0 (y 0 - 1) l / (y 0 - 1) * y l = -1 := by
        rw [sum_tail hm, hv0, Finset.sum_congr rfl (fun i hi => by
          rw [hvi i (Finset.mem_Ico.1 hi).1, show y i / (y 0 - 1) * y i = y i ^ 2 / (y 0 - 1) by ring] :
          ∀ i ∈ Ico 1 m, Vec.set y 0 (y 0 - 1) i / (y 0 - 1) * y i = y i ^ 2 / (y 0 - 1)), ← Finset.sum_div, ← hσ, one_mul]
        rw [eq_comm, ← sub_eq_zero]
        field_simp
        nlinarith
      rw [hnorm, hdot]
      refine ⟨?_, fun i hi => ?_⟩
      · field_simp
        have : (y 0 - 1) ^ 2 + σ = -2 * (y 0 - 1) := by nlinarith
        rw [this]
        ring
      · by_cases hi0 : i = 0
        · subst hi0
          rw [if_pos rfl, hv0]; ring
        · rw [if_neg hi0, hvi i (by omega)]
          field_simp
          ring
  intro P hP
  refine ⟨hP.1, fun i hi => ?_⟩
  have e : ∑ l ∈ range m, P.v l * x l = N * ∑ l ∈ range m, P.v l * y l := by
    rw [Finset.mul_sum]
    exact Finset.sum_congr rfl fun l _ => by rw [hxy l]; ring
  have := hP.2 i hi
  rw [e, hxy i, show N * y i - P.β * P.v i * (N * ∑ l ∈ range m, P.v l * y l) = N * (y i - P.β * P.v i * ∑ l ∈ range m, P.v l * y l) by ring, this]
  by_cases hi0 : i = 0
  · simp [hi0]
  · simp [hi0]

/-- The last elements of the vector are annihilated, whatever the vector. -/
theorem householder_tail {m : ℕ} (hm : 1 ≤ m) {x : Vec ℝ} {P : Reflection} (h : householder m x = some P) :
    ∀ i, 1 ≤ i → i < m → x i - P.β * P.v i * ∑ l ∈ range m, P.v l * x l = 0 := by
  intro i hi hi'
  by_cases hx : Regular m x
  · rw [(householder_spec hm hx h).2 i hi', if_neg (by omega)]
  · have hz : ∀ i, 1 ≤ i → i < m → x i = 0 := fun i hi hi' => by
      by_contra hne
      exact hx (Or.inr ⟨i, hi, hi', hne⟩)
    unfold householder at h
    obtain ⟨y, hy, rfl⟩ := Option.map_eq_some_iff.1 h
    have h1 := (normalize_some hy).2
    have hσ : sum 1 m (fun i => y i ^ 2) = 0 := by
      rw [sum_eq 1 m hm]
      exact Finset.sum_eq_zero fun i hi => by
        rw [Finset.mem_Ico] at hi
        rw [h1, hz i hi.1 hi.2]; simp
    simp only [if_pos hσ]
    rw [hz i hi hi', Vec.set_ne _ _ (by omega), h1 i, hz i hi hi']
    simp

/-! ## The matrix of a reflection -/

section Matrix

variable {n : ℕ}

/-- The vector of a reflection, at the given rows. -/
noncomputable def shifted (P : Reflection) (m r : ℕ) (i : ℕ) : ℝ := if r ≤ i ∧ i < r + m then P.v (i - r) else 0

theorem sum_shifted (P : Reflection) {m r : ℕ} (h : r + m ≤ n) (f : ℕ → ℝ) : ∑ i : Fin n, shifted P m r i * f i = ∑ l ∈ range m, P.v l * f (r + l) := by
  rw [Fin.sum_univ_eq_sum_range (fun i => shifted P m r i * f i) n]
  have hsub : Ico r (r + m) ⊆ range n := fun i hi => by
    rw [Finset.mem_Ico] at hi
    rw [Finset.mem_range]
    omega
  rw [← Finset.sum_subset hsub fun i _ hi => by
    rw [Finset.mem_Ico] at hi
    unfold shifted
    rw [if_neg hi, zero_mul]]
  rw [Finset.sum_Ico_eq_sum_range, show r + m - r = m by omega]
  refine Finset.sum_congr rfl fun l hl => ?_
  have := Finset.mem_range.1 hl
  unfold shifted
  rw [if_pos (by omega), show r + l - r = l by omega]

/-- The matrix of a reflection. -/
noncomputable def reflectionMatrix (n : ℕ) (P : Reflection) (m r : ℕ) : Matrix (Fin n) (Fin n) ℝ :=
  1 - P.β • Matrix.vecMulVec (fun i : Fin n => shifted P m r i) (fun i : Fin n => shifted P m r i)

theorem reflection_symm (P : Reflection) (m r : ℕ) : (reflectionMatrix n P m r).transpose = reflectionMatrix n P m r := by
  ext i j
  simp only [reflectionMatrix, Matrix.transpose_apply, Matrix.sub_apply, Matrix.smul_apply, Matrix.vecMulVec_apply, Matrix.one_apply, eq_comm (a := i), mul_comm (shifted P m r i)]

theorem reflection_mul (P : Reflection) {m r : ℕ} (h : r + m ≤ n) (A : Matrix (Fin n) (Fin n) ℝ) (f : ℕ → ℕ → ℝ) (hf : ∀ i j : Fin n, A i j = f i j) (i j : Fin n) :
    (reflectionMatrix n P m r * A) i j = f i j - P.β * shifted P m r i * ∑ l ∈ range m, P.v l * f (r + l) j := by
  rw [reflectionMatrix, Matrix.sub_mul, Matrix.one_mul, Matrix.sub_apply, hf, Matrix.smul_mul, Matrix.smul_apply, Matrix.mul_apply, smul_eq_mul]
  congr 1
  rw [mul_assoc, ← sum_shifted P h (fun i => f i j), Finset.mul_sum, Finset.mul_sum, Finset.mul_sum]
  exact Finset.sum_congr rfl fun k _ => by rw [Matrix.vecMulVec_apply, hf]; ring

theorem mul_reflection (P : Reflection) {m r : ℕ} (h : r + m ≤ n) (A : Matrix (Fin n) (Fin n) ℝ) (f : ℕ → ℕ → ℝ) (hf : ∀ i j : Fin n, A i j = f i j) (i j : Fin n) :
    (A * reflectionMatrix n P m r) i j = f i j - (∑ l ∈ range m, P.v l * f i (r + l)) * (P.β * shifted P m r j) := by
  rw [reflectionMatrix, Matrix.mul_sub, Matrix.mul_one, Matrix.sub_apply, hf, Matrix.mul_smul, Matrix.smul_apply, Matrix.mul_apply, smul_eq_mul]
  congr 1
  rw [← sum_shifted P h (fun k => f i k), Finset.sum_mul, Finset.mul_sum]
  exact Finset.sum_congr rfl fun k _ => by rw [Matrix.vecMulVec_apply, hf]; ring

theorem reflection_orthogonal (P : Reflection) {m r : ℕ} (h : r + m ≤ n) (hP : P.β * (P.β * ∑ i ∈ range m, P.v i ^ 2 - 2) = 0) :
    (reflectionMatrix n P m r).transpose * reflectionMatrix n P m r = 1 := by
  rw [reflection_symm]
  ext i j
  rw [reflection_mul P h _ (fun i j => (if i = j then 1 else 0) - P.β * (shifted P m r i * shifted P m r j)) (fun i j => by
    simp only [reflectionMatrix, Matrix.sub_apply, Matrix.smul_apply, Matrix.vecMulVec_apply, Matrix.one_apply, Fin.ext_iff, smul_eq_mul])]
  rw [← sum_shifted P h (fun k => (if k = (j : ℕ) then 1 else 0) - P.β * (shifted P m r k * shifted P m r j))]
  have e1 : ∑ k : Fin n, shifted P m r k * ((if (k : ℕ) = (j : ℕ) then 1 else 0) - P.β * (shifted P m r k * shifted P m r j)) =
      shifted P m r j - P.β * shifted P m r j * ∑ k : Fin n, shifted P m r k * shifted P m r k := by
    simp only [mul_sub, Finset.sum_sub_distrib]
    congr 1
    · simp [← Fin.ext_iff]
    · rw [Finset.mul_sum]
      exact Finset.sum_congr rfl fun k _ => by ring
  have e2 : ∑ k : Fin n, shifted P m r k * shifted P m r k = ∑ i ∈ range m, P.v i ^ 2 := by
    rw [sum_shifted P h (fun k => shifted P m r k)]
    refine Finset.sum_congr rfl fun l hl => ?_
    have := Finset.mem_range.1 hl
    unfold shifted
    rw [if_pos (by omega), show r + l - r = l by omega]
    ring
  rw [e1, e2, Matrix.one_apply]
  simp only [Fin.ext_iff]
  linear_combination (shifted P m r i * shifted P m r j) * hP

theorem premultiply_matrix (P : Reflection) {m r c : ℕ} (h : r + m ≤ n) {A : Mat ℝ} (hA : ∀ j < c, ∀ l < m, A (r + l) j = 0) :
    matrix n n (premultiply P m r c n A) = reflectionMatrix n P m r * matrix n n A := by
  ext i j
  rw [reflection_mul P h (matrix n n A) A (fun i j => rfl)]
  show premultiply P m r c n A i j = _
  unfold premultiply shifted
  have hs : sum 0 m (fun l => A (r + l) j * P.v l) = ∑ l ∈ range m, P.v l * A (r + l) j := by
    rw [sum_zero_eq]
    exact Finset.sum_congr rfl fun l _ => mul_comm _ _
  rw [hs]
  by_cases h1 : r ≤ (i : ℕ) ∧ (i : ℕ) < r + m
  · rw [if_pos h1]
    by_cases h2 : c ≤ (j : ℕ)
    · rw [if_pos ⟨h1.1, h1.2, h2, j.2⟩]
    · rw [if_neg (by tauto)]
      rw [Finset.sum_eq_zero fun l hl => by rw [hA j (by omega) l (Finset.mem_range.1 hl), mul_zero]]
      ring
  · rw [if_neg h1, if_neg (by tauto)]
    ring

theorem postMultiply_matrix (P : Reflection) {m r c : ℕ} (h : c + m ≤ n) {A : Mat ℝ} (hA : ∀ i, r ≤ i → i < n → ∀ l < m, A i (c + l) = 0) :
    matrix n n (postMultiply P m 0 r c A) = matrix n n A * reflectionMatrix n P m c := by
  ext i j
  rw [mul_reflection P h (matrix n n A) A (fun i j => rfl)]
  show postMultiply P m 0 r c A i j = _
  unfold postMultiply shifted
  have hs : sum 0 m (fun l => A i (c + l) * P.v l) = ∑ l ∈ range m, P.v l * A i (c + l) := by
    rw [sum_zero_eq]
    exact Finset.sum_congr rfl fun l _ => mul_comm _ _
  rw [hs]
  by_cases h1 : c ≤ (j : ℕ) ∧ (j : ℕ) < c + m
  · rw [if_pos h1]
    by_cases h2 : (i : ℕ) < r
    · rw [if_pos ⟨Nat.zero_le _, h2, h1.1, h1.2⟩]
    · rw [if_neg (by tauto)]
      rw [Finset.sum_eq_zero fun l hl => by rw [hA i (by omega) i.2 l (Finset.mem_range.1 hl), mul_zero]]
      ring
  · rw [if_neg h1, if_neg (by tauto)]
    ring

/-- Two matrices are orthogonally similar. -/
def OrthogonallySimilar (A B : Matrix (Fin n) (Fin n) ℝ) : Prop := ∃ Q : Matrix (Fin n) (Fin n) ℝ, Q.transpose * Q = 1 ∧ B = Q.transpose * A * Q

theorem OrthogonallySimilar.refl (A : Matrix (Fin n) (Fin n) ℝ) : OrthogonallySimilar A A := ⟨1, by simp, by simp⟩

theorem OrthogonallySimilar.trans {A B C : Matrix (Fin n) (Fin n) ℝ} (h : OrthogonallySimilar A B) (h' : OrthogonallySimilar B C) : OrthogonallySimilar A C := by
  obtain ⟨Q, hQ, rfl⟩ := h
  obtain ⟨R, hR, rfl⟩ := h'
  refine ⟨Q * R, ?_, ?_⟩
  · rw [Matrix.transpose_mul]
    calc R.transpose * Q.transpose * (Q * R) = R.transpose * (Q.transpose * Q) * R := by simp only [Matrix.mul_assoc]
      _ = 1 := by rw [hQ, Matrix.mul_one, hR]
  · simp only [Matrix.transpose_mul, Matrix.mul_assoc]

/-- A reflection applied on both sides. -/
theorem reflect_similar {P : Reflection} {m r c r' : ℕ} (h : r + m ≤ n) (hP : P.β * (P.β * ∑ i ∈ range m, P.v i ^ 2 - 2) = 0) {A : Mat ℝ}
    (hA : ∀ j < c, ∀ l < m, A (r + l) j = 0) (hA' : ∀ i, r' ≤ i → i < n → ∀ l < m, premultiply P m r c n A i (r + l) = 0) :
    OrthogonallySimilar (matrix n n A) (matrix n n (postMultiply P m 0 r' r (premultiply P m r c n A))) := by
  refine ⟨reflectionMatrix n P m r, reflection_orthogonal P h hP, ?_⟩
  rw [postMultiply_matrix P h hA', premultiply_matrix P h hA, reflection_symm]

end Matrix

/-! ## Hessenberg decomposition -/

/-- An upper Hessenberg matrix. -/
def IsHessenberg (n : ℕ) (H : Mat ℝ) : Prop := ∀ i j, j + 2 ≤ i → i < n → H i j = 0

/-- The columns from which the reflections are computed are all regular. -/
def HessenbergRegular (n : ℕ) (A : Mat ℝ) : Prop :=
  ∀ k, k < n - 2 → ∀ H, loop 0 k (hessenbergStep n) A = some H → Regular (n - (k + 1)) fun i => H (k + 1 + i) k

theorem loop_succ {σ : Type} (hi : ℕ) (body : ℕ → σ → Option σ) (s : σ) : loop 0 (hi + 1) body s = (loop 0 hi body s).bind (body hi) := by
  unfold loop
  simp only [Nat.sub_zero]
  rw [show List.range' 0 (hi + 1) = List.range' 0 hi ++ [hi] by rw [List.range'_concat]; simp, List.foldlM_append]
  rcases List.foldlM (fun s i => body i s) s (List.range' 0 hi) with _ | t
  · rfl
  · simp

theorem hessenbergStep_shape {n k : ℕ} (hk : k < n - 2) {H H' : Mat ℝ} (hH : ∀ i j, j < k → j + 2 ≤ i → i < n → H i j = 0) (h : hessenbergStep n k H = some H') :
    ∀ i j, j < k + 1 → j + 2 ≤ i → i < n → H' i j = 0 := by
  unfold hessenbergStep at h
  dsimp only at h
  obtain ⟨P, hP, rfl⟩ := Option.map_eq_some_iff.1 h
  intro i j hj hi hin
  unfold postMultiply
  rw [if_neg (by omega)]
  unfold premultiply
  by_cases hjk : j = k
  · subst hjk
    have := householder_tail (by omega) hP (i - (j + 1)) (by omega) (by omega)
    rw [show j + 1 + (i - (j + 1)) = i by omega] at this
    rw [if_pos ⟨by omega, by omega, le_refl _, by omega⟩, sum_zero_eq, ← this]
    congr 2
    exact Finset.sum_congr rfl fun l _ => mul_comm _ _
  · rw [if_neg (by omega)]
    exact hH i j (by omega) hi hin

theorem hessenbergStep_similar {n k : ℕ} (hk : k < n - 2) {H H' : Mat ℝ} (hH : ∀ i j, j < k → j + 2 ≤ i → i < n → H i j = 0)
    (hr : Regular (n - (k + 1)) fun i => H (k + 1 + i) k) (h : hessenbergStep n k H = some H') : OrthogonallySimilar (matrix n n H) (matrix n n H') := by
  unfold hessenbergStep at h
  dsimp only at h
  obtain ⟨P, hP, rfl⟩ := Option.map_eq_some_iff.1 h
  refine reflect_similar (by omega) (householder_spec (by omega) hr hP).1 (fun j hj l hl => hH _ _ hj (by omega) (by omega)) (fun i hi hi' => by omega)

theorem hessenberg_shape {n : ℕ} {A H : Mat ℝ} (h : hessenberg n A = some H) : IsHessenberg n H := by
  unfold hessenberg at h
  have := loop_some (fun k (H : Mat ℝ) => ∀ i j, j < k → j + 2 ≤ i → i < n → H i j = 0) 0 (n - 2) (hessenbergStep n) (Nat.zero_le _)
    (fun k H H' _ hk hH he => hessenbergStep_shape hk hH he) (fun i j hj => by omega) h
  exact fun i j hj hi => this i j (by omega) hj hi

theorem hessenberg_similar {n : ℕ} {A H : Mat ℝ} (hr : HessenbergRegular n A) (h : hessenberg n A = some H) : OrthogonallySimilar (matrix n n A) (matrix n n H) := by
  unfold hessenberg at h
  have := loop_some (fun k (H : Mat ℝ) => (∀ i j, j < k → j + 2 ≤ i → i < n → H i j = 0) ∧ OrthogonallySimilar (matrix n n A) (matrix n n H) ∧
      loop 0 k (hessenbergStep n) A = some H) 0 (n - 2) (hessenbergStep n) (Nat.zero_le _)
    (fun k H H' _ hk hH he => ⟨hessenbergStep_shape hk hH.1 he, hH.2.1.trans (hessenbergStep_similar hk hH.1 (hr k hk H hH.2.2) he), by
      rw [loop_succ, hH.2.2]; exact he⟩) ⟨fun i j hj => by omega, OrthogonallySimilar.refl _, rfl⟩ h
  exact this.2.1

theorem hessenberg_exists {n : ℕ} {A : Mat ℝ} (hr : HessenbergRegular n A) : ∃ H, hessenberg n A = some H := by
  unfold hessenberg
  obtain ⟨H, h, -⟩ := loop_exists (fun k (H : Mat ℝ) => loop 0 k (hessenbergStep n) A = some H) 0 (n - 2) (hessenbergStep n) (Nat.zero_le _)
    (fun k H _ hk hH => by
      have hreg := hr k hk H hH
      rcases hs : hessenbergStep n k H with _ | H'
      · exfalso
        unfold hessenbergStep at hs
        dsimp only at hs
        rw [Option.map_eq_none_iff, householder_none] at hs
        rcases hreg with h | ⟨i, hi, hi', hne⟩
        · exact h.ne' (hs 0 (by omega))
        · exact hne (hs i hi')
      · exact ⟨H', rfl, by rw [loop_succ, hH]; exact hs⟩) (s := A) rfl
  exact ⟨H, h⟩

end Principia.Numerics.Matrices
