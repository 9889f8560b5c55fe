import Verif.Numerics.EigenSchur
import Verif.Numerics.EigenJacobi
import Verif.Numerics.EigenSpec
import Mathlib.Analysis.Matrix.Spectrum
import Mathlib.LinearAlgebra.Matrix.ToLinearEquiv
import Mathlib.Tactic.FieldSimp

/-!
Lemmas on eigenvalues, and the evaluation of the model on concrete matrices.
-/

set_option linter.unusedSimpArgs false
set_option linter.unusedVariables false
set_option linter.unusedSectionVars false

namespace Principia.Numerics.Matrices

open Finset

/-! ## Eigenvalues -/

theorem characteristic_iff (n : ℕ) (A : Mat ℝ) (μ : ℝ) : characteristic n A μ = 0 ↔ IsEigenvalue (matrix n n A) μ := by
  unfold characteristic IsEigenvalue
  rw [← Matrix.exists_mulVec_eq_zero_iff]
  refine exists_congr fun x => and_congr_right fun _ => ?_
  rw [Matrix.sub_mulVec, Matrix.smul_mulVec, Matrix.one_mulVec, sub_eq_zero, eq_comm]

/-- A symmetric matrix has an eigenvalue near any number for which there is a vector with a small residual. -/
theorem near_eigenvalue {n : ℕ} {S : Matrix (Fin n) (Fin n) ℝ} (hS : S.transpose = S) {x : Fin n → ℝ} (hx : normSquare x = 1) (μ : ℝ) :
    ∃ ν, IsEigenvalue S ν ∧ (ν - μ) ^ 2 ≤ normSquare (S.mulVec x - μ • x) := by
  have hA : S.IsHermitian := by
    rw [Matrix.IsHermitian, Matrix.conjTranspose_eq_transpose_of_trivial, hS]
  by_contra hcon
  push Not at hcon
  have hne : ∀ i, (hA.eigenvectorBasis i : Fin n → ℝ) ≠ 0 := by
    intro i h
    have h1 := hA.eigenvectorBasis.orthonormal.1 i
    have h0 : hA.eigenvectorBasis i = 0 := by
      ext k
      exact congrFun h k
    rw [h0, norm_zero] at h1
    exact zero_ne_one h1
  have hlt : ∀ i, normSquare (S.mulVec x - μ • x) < (hA.eigenvalues i - μ) ^ 2 := fun i => hcon _ ⟨_, hne i, hA.mulVec_eigenvectorBasis i⟩
  have inner_dot : ∀ i (y : Fin n → ℝ), inner ℝ (hA.eigenvectorBasis i) (WithLp.toLp 2 y) = (hA.eigenvectorBasis i : Fin n → ℝ) ⬝ᵥ y := by
    intro i y
    rw [EuclideanSpace.inner_eq_star_dotProduct, dotProduct_comm]
    simp
  have norm_sq : ∀ y : Fin n → ℝ, ‖(WithLp.toLp 2 y : EuclideanSpace ℝ (Fin n))‖ ^ 2 = normSquare y := by
    intro y
    rw [EuclideanSpace.norm_sq_eq]
    unfold normSquare
    exact Finset.sum_congr rfl fun i _ => by simp
  have e1 : normSquare x = ∑ i, ((hA.eigenvectorBasis i : Fin n → ℝ) ⬝ᵥ x) ^ 2 := by
    rw [← norm_sq, ← hA.eigenvectorBasis.sum_sq_norm_inner_right]
    exact Finset.sum_congr rfl fun i _ => by rw [inner_dot, Real.norm_eq_abs, sq_abs]
  have e2 : normSquare (S.mulVec x - μ • x) = ∑ i, (hA.eigenvalues i - μ) ^ 2 * ((hA.eigenvectorBasis i : Fin n → ℝ) ⬝ᵥ x) ^ 2 := by
    rw [← norm_sq, ← hA.eigenvectorBasis.sum_sq_norm_inner_right]
    refine Finset.sum_congr rfl fun i _ => ?_
    rw [inner_dot, Real.norm_eq_abs, sq_abs, ← mul_pow]
    congr 1
    rw [dotProduct_sub, Matrix.dotProduct_mulVec, ← Matrix.mulVec_transpose, hS, hA.mulVec_eigenvectorBasis, smul_dotProduct, dotProduct_smul, smul_eq_mul, smul_eq_mul]
    ring
  set r := normSquare (S.mulVec x - μ • x) with hr
  have hle : ∑ i, (hA.eigenvalues i - μ) ^ 2 * ((hA.eigenvectorBasis i : Fin n → ℝ) ⬝ᵥ x) ^ 2 = ∑ i, r * ((hA.eigenvectorBasis i : Fin n → ℝ) ⬝ᵥ x) ^ 2 := by
    rw [← e2, ← Finset.mul_sum, ← e1, hx, mul_one]
  have hle' := (Finset.sum_eq_sum_iff_of_le fun i _ => mul_le_mul_of_nonneg_right (hlt i).le (sq_nonneg ((hA.eigenvectorBasis i : Fin n → ℝ) ⬝ᵥ x))).1 hle.symm
  have hz : ∀ i, ((hA.eigenvectorBasis i : Fin n → ℝ) ⬝ᵥ x) ^ 2 = 0 := by
    intro i
    have := hle' i (Finset.mem_univ _)
    have h2 := hlt i
    by_contra hne
    have := mul_right_cancel₀ hne this
    linarith
  rw [hx] at e1
  rw [Finset.sum_eq_zero fun i _ => hz i] at e1
  exact one_ne_zero e1

/-! ## Reflections -/

/-- The reflection of a vector which is not a multiple of the first vector of the basis. -/
theorem householder_general {m : ℕ} (hm : 1 ≤ m) {x : Vec ℝ} {N : ℝ} (hN : 0 < N) (h : ∑ i ∈ range m, x i ^ 2 = N ^ 2) (hx : ∃ i, 1 ≤ i ∧ i < m ∧ x i ≠ 0) :
    householder m x = some ⟨fun i => if i = 0 then 1 else x i / (x 0 - N), 1 - x 0 / N⟩ := by
  have hs : √(∑ i ∈ range m, x i ^ 2) = N := by rw [h, Real.sqrt_sq hN.le]
  have hn : normalize m x = some fun i => x i / N := by
    unfold normalize
    dsimp only
    rw [sum_zero_eq, hs, if_neg hN.ne']
  unfold householder
  rw [hn, Option.map_some]
  dsimp only
  rw [sum_eq 1 m hm]
  have hT : ∑ i ∈ Ico 1 m, x i ^ 2 = N ^ 2 - x 0 ^ 2 := by
    rw [sum_tail hm (fun i => x i ^ 2)] at h
    linarith
  have hσ : ∑ i ∈ Ico 1 m, (x i / N) ^ 2 = 1 - (x 0 / N) ^ 2 := by
    simp only [div_pow]
    rw [← Finset.sum_div, hT, sub_div, div_self (by positivity)]
  have hpos : 0 < ∑ i ∈ Ico 1 m, x i ^ 2 := by
    obtain ⟨i, h1, h2, h3⟩ := hx
    exact Finset.sum_pos' (fun i _ => sq_nonneg _) ⟨i, Finset.mem_Ico.2 ⟨h1, h2⟩, by positivity⟩
  rw [hσ]
  set y := x 0 / N with hy
  have hy1 : y ^ 2 < 1 := by
    rw [hy, div_pow, div_lt_one (by positivity)]
    linarith
  have hlt : y < 1 := by nlinarith
  have hgt : -1 < y := by nlinarith
  have hv : (if y ≤ 0 then y - 1 else -(1 - y ^ 2) / (y + 1)) = y - 1 := by
    by_cases h : y ≤ 0
    · rw [if_pos h]
    · rw [if_neg h, div_eq_iff (by linarith)]
      ring
  rw [if_neg (by linarith), hv]
  congr 2
  · funext i
    unfold Vec.set
    by_cases hi : i = 0
    · rw [if_pos hi, if_pos hi, div_self (by linarith)]
    · rw [if_neg hi, if_neg hi, hy]
      have : x 0 / N - 1 ≠ 0 := by rw [← hy]; linarith
      have h3 : x 0 - N ≠ 0 := by
        intro h0
        apply this
        rw [sub_eq_zero.1 h0, div_self hN.ne', sub_self]
      field_simp
  · rw [div_eq_iff (by nlinarith)]
    ring

/-- The reflection of a multiple of the first vector of the basis. -/
theorem householder_axis {m : ℕ} (hm : 1 ≤ m) {x : Vec ℝ} (h0 : x 0 ≠ 0) (hx : ∀ i, 1 ≤ i → i < m → x i = 0) :
    householder m x = some ⟨fun i => if i = 0 then 1 else x i / |x 0|, if x 0 < 0 then -2 else 0⟩ := by
  have hs : ∑ i ∈ range m, x i ^ 2 = x 0 ^ 2 := by
    rw [sum_tail hm (fun i => x i ^ 2), Finset.sum_eq_zero fun i hi => ?_, add_zero]
    rw [Finset.mem_Ico] at hi
    rw [hx i hi.1 hi.2, zero_pow two_ne_zero]
  have hp : 0 < |x 0| := abs_pos.2 h0
  have hn : normalize m x = some fun i => x i / |x 0| := by
    unfold normalize
    dsimp only
    rw [sum_zero_eq, hs, Real.sqrt_sq_eq_abs, if_neg hp.ne']
  unfold householder
  rw [hn, Option.map_some]
  dsimp only
  rw [sum_eq 1 m hm, Finset.sum_eq_zero fun i hi => ?_, if_pos rfl]
  · congr 2
    · by_cases h : x 0 < 0
      · rw [if_pos h, if_pos (div_neg_of_neg_of_pos h hp)]
      · rw [if_neg h, if_neg (not_lt.2 (div_nonneg (not_lt.1 h) hp.le))]
  · rw [Finset.mem_Ico] at hi
    rw [hx i hi.1 hi.2, zero_div, zero_pow two_ne_zero]

/-- A reflection which does nothing. -/
theorem reflect_zero (P : Reflection) (h : P.β = 0) (m r c c' : ℕ) (A : Mat ℝ) : premultiply P m r c c' A = A ∧ postMultiply P m r c c' A = A := by
  constructor
  · funext i j
    unfold premultiply
    by_cases hc : r ≤ i ∧ i < r + m ∧ c ≤ j ∧ j < c'
    · rw [if_pos hc, h, zero_mul, zero_mul, sub_zero]
    · rw [if_neg hc]
  · funext i j
    unfold postMultiply
    by_cases hc : r ≤ i ∧ i < c ∧ c' ≤ j ∧ j < c' + m
    · rw [if_pos hc, h, zero_mul, mul_zero, sub_zero]
    · rw [if_neg hc]

/-! ## Matrices with three rows and three columns -/

/-- A matrix with the given elements. -/
def mat3 (a b c d e f g h i : ℝ) : Mat ℝ
  | 0, 0 => a
  | 0, 1 => b
  | 0, 2 => c
  | 1, 0 => d
  | 1, 1 => e
  | 1, 2 => f
  | 2, 0 => g
  | 2, 1 => h
  | 2, 2 => i
  | _, _ => 0

/-- A block of a matrix of this size. -/
theorem mat3_ext {A B : Mat ℝ} (h : ∀ i j, i < 3 → j < 3 → A i j = B i j) (hA : ∀ i j, 3 ≤ i ∨ 3 ≤ j → A i j = 0) (hB : ∀ i j, 3 ≤ i ∨ 3 ≤ j → B i j = 0) : A = B := by
  funext i j
  rcases Nat.lt_or_ge i 3 with h1 | h1
  · rcases Nat.lt_or_ge j 3 with h2 | h2
    · exact h i j h1 h2
    · rw [hA i j (Or.inr h2), hB i j (Or.inr h2)]
  · rw [hA i j (Or.inl h1), hB i j (Or.inl h1)]

theorem mat3_out (a b c d e f g h k : ℝ) (i j : ℕ) (hij : 3 ≤ i ∨ 3 ≤ j) : mat3 a b c d e f g h k i j = 0 := by
  rcases i with _ | _ | _ | i <;> rcases j with _ | _ | _ | j <;> first | rfl | omega

theorem pre_out (P : Reflection) {m r c : ℕ} (h : r + m ≤ 3) {A : Mat ℝ} (hA : ∀ i j, 3 ≤ i ∨ 3 ≤ j → A i j = 0) (i j : ℕ) (hij : 3 ≤ i ∨ 3 ≤ j) :
    premultiply P m r c 3 A i j = 0 := by
  unfold premultiply
  rw [if_neg (by omega), hA i j hij]

theorem post_out (P : Reflection) {m c : ℕ} (h : c + m ≤ 3) {A : Mat ℝ} (hA : ∀ i j, 3 ≤ i ∨ 3 ≤ j → A i j = 0) (i j : ℕ) (hij : 3 ≤ i ∨ 3 ≤ j) :
    postMultiply P m 0 3 c A i j = 0 := by
  unfold postMultiply
  rw [if_neg (by omega), hA i j hij]

/-- The reduction of a matrix of this size to Hessenberg form. -/
theorem hessenberg3 (A : Mat ℝ) {P : Reflection} (h : householder 2 (fun i => A (1 + i) 0) = some P) :
    hessenberg 3 A = some (postMultiply P 2 0 3 1 (premultiply P 2 1 0 3 A)) := by
  show loop 0 1 (hessenbergStep 3) A = _
  rw [loop_succ]
  show hessenbergStep 3 0 A = _
  show (householder 2 fun i => A (1 + i) 0).map _ = _
  rw [h]
  rfl

/-- The reduction of a matrix of this size that already has that form. -/
theorem hessenberg3_id {A : Mat ℝ} (h : 0 < A 1 0) (h' : A 2 0 = 0) : hessenberg 3 A = some A := by
  rw [hessenberg3 A (householder_axis (by omega) (x := fun i => A (1 + i) 0) (by simpa using h.ne') fun i h1 h2 => by
    obtain rfl : i = 1 := by omega
    exact h')]
  have hβ : (if A (1 + 0) 0 < 0 then (-2 : ℝ) else 0) = 0 := if_neg (not_lt.2 h.le)
  rw [(reflect_zero _ hβ _ _ _ _ _).1, (reflect_zero _ hβ _ _ _ _ _).2]

/-- A step of Francis on a matrix of this size. -/
theorem francis3 (H : Mat ℝ) {P : Reflection} (hP : householder 3 (francisVector 3 H) = some P) :
    let H' := postMultiply P 3 0 3 0 (premultiply P 3 0 0 3 H)
    let s : Francis := ⟨H', fun i => if i = 0 then H' 1 0 else if i = 1 then H' 2 0 else francisVector 3 H 2⟩
    loop 0 (3 - 2) (francisIteration 3) ⟨H, francisVector 3 H⟩ = some s ∧
      francisStep 3 H = (householder 2 s.xyz).map fun Q => postMultiply Q 2 0 3 1 (premultiply Q 2 1 0 3 H') := by
  have e : loop 0 (3 - 2) (francisIteration 3) ⟨H, francisVector 3 H⟩ = francisIteration 3 0 ⟨H, francisVector 3 H⟩ := by
    rw [show 3 - 2 = 0 + 1 from rfl, loop_succ]
    rfl
  have e' : francisIteration 3 0 ⟨H, francisVector 3 H⟩ = some ⟨postMultiply P 3 0 3 0 (premultiply P 3 0 0 3 H), fun i =>
      if i = 0 then postMultiply P 3 0 3 0 (premultiply P 3 0 0 3 H) 1 0
      else if i = 1 then postMultiply P 3 0 3 0 (premultiply P 3 0 0 3 H) 2 0 else francisVector 3 H 2⟩ := by
    unfold francisIteration
    rw [hP]
    rfl
  refine ⟨e.trans e', ?_⟩
  unfold francisStep
  rw [e, e']
  rfl

theorem deflate_id {n : ℕ} {ε : ℝ} {H : Mat ℝ} (h : ∀ i, 1 ≤ i → i < n → ε * (|H i i| + |H (i - 1) (i - 1)|) < |H i (i - 1)|) : deflate n ε H = H := by
  unfold deflate
  rcases Nat.lt_or_ge n 1 with hn | hn
  · have : n = 0 := by omega
    subst this
    rfl
  · refine sweep_inv (fun _ (G : Mat ℝ) => G = H) 1 n _ hn (fun k G hk hk' hG => ?_) rfl
    beta_reduce
    subst hG
    rw [if_neg (not_le.2 (h k hk hk'))]

/-- A matrix of this size that is not quasi-triangular. -/
theorem quasiTriangular3_not {H : Mat ℝ} (h1 : H 1 0 ≠ 0) (h2 : H 2 1 ≠ 0) : quasiTriangular 3 H = 0 := by
  unfold quasiTriangular
  simp [quasiTriangularLoop, h1, h2]

/-- A matrix of this size that is quasi-triangular. -/
theorem quasiTriangular3 {H : Mat ℝ} (h : H 2 1 = 0) : quasiTriangular 3 H = 3 := by
  unfold quasiTriangular
  by_cases h1 : H 1 0 = 0 <;> simp [quasiTriangularLoop, h, h1]

/-- A step on the entire matrix. -/
theorem francisBlock3 {H H' : Mat ℝ} (h : francisStep 3 H = some H') (hH : ∀ i j, 3 ≤ i ∨ 3 ≤ j → H i j = 0) (hH' : ∀ i j, 3 ≤ i ∨ 3 ≤ j → H' i j = 0) :
    francisBlock 0 3 H = some H' := by
  unfold francisBlock
  simp only [Nat.zero_add]
  rw [h, Option.map_some]
  congr 1
  refine mat3_ext (fun i j hi hj => ?_) (fun i j hij => ?_) hH'
  · rw [if_pos ⟨Nat.zero_le _, hi, Nat.zero_le _, hj⟩]
    rfl
  · rw [if_neg (by omega), hH i j hij]

/-- An iteration on an unreduced matrix of this size. -/
theorem schurLoop3 {ε : ℝ} {H : Mat ℝ} (hd : deflate 3 ε H = H) (h1 : H 1 0 ≠ 0) (h2 : H 2 1 ≠ 0) (fuel : ℕ) :
    schurLoop 3 ε (fuel + 1) H = (francisBlock 0 3 H).bind (schurLoop 3 ε fuel) := by
  rw [schurLoop, hd, quasiTriangular3_not h1 h2]
  dsimp only
  rw [if_neg (by decide), show unreducedStart H (3 - 0 - 1) = 0 by simp [unreducedStart, h1, h2]]

theorem schurLoop3_done {ε : ℝ} {H : Mat ℝ} (hd : deflate 3 ε H = H) (h : H 2 1 = 0) (fuel : ℕ) : schurLoop 3 ε (fuel + 1) H = some (some H) := by
  rw [schurLoop, hd, quasiTriangular3 h]
  rfl

end Principia.Numerics.Matrices
