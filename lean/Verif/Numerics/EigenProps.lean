import Verif.Numerics.EigenConcrete
import Mathlib.Analysis.SpecificLimits.Basic

/-!
C75: the eigenvalues of matrices.

A real number is an eigenvalue if it is in the sense of linear algebra, see `IsEigenvalue` in `EigenSpec`.  A matrix is upper quasi-triangular, see `IsQuasiTriangular`, if it is zero
under the elements that follow the diagonal, and if no two of these elements are consecutive.  The reflections are computed properly for the vectors that are `Regular`, i.e. for those
that are not a negative multiple of the first vector of the basis, or zero: see the counterexamples for what happens for the other ones.
-/

set_option linter.unusedSimpArgs false
set_option linter.unusedVariables false
set_option linter.unusedSectionVars false

namespace Principia.Numerics.Matrices

open Finset

variable {n : ℕ}

/-! ## Reflections -/

/-- C75.  The Householder reflection of a vector is a symmetric orthogonal matrix that maps the vector to a positive multiple of the first vector of the basis. -/
theorem C75_householder {x : Vec ℝ} (hn : 1 ≤ n) (hx : Regular n x) :
    ∃ P : Reflection, householder n x = some P ∧
      let Q := (1 : Matrix (Fin n) (Fin n) ℝ) - P.β • Matrix.vecMulVec (vector n P.v) (vector n P.v)
      Q.transpose = Q ∧ Q * Q = 1 ∧ Q.mulVec (vector n x) = fun i : Fin n => if (i : ℕ) = 0 then √(normSquare (vector n x)) else 0 := by
  have hsome : householder n x ≠ none := by
    rw [Ne, householder_none]
    intro h
    rcases hx with h1 | ⟨i, -, h2, h3⟩
    · exact h1.ne' (h 0 hn)
    · exact h3 (h i h2)
  obtain ⟨P, hP⟩ := Option.ne_none_iff_exists'.1 hsome
  refine ⟨P, hP, ?_⟩
  obtain ⟨h1, h2⟩ := householder_spec hn hx hP
  have hv : (fun i : Fin n => shifted P n 0 i) = vector n P.v := by
    funext i
    unfold shifted vector
    rw [if_pos ⟨Nat.zero_le _, by omega⟩]
    rfl
  have e : (1 : Matrix (Fin n) (Fin n) ℝ) - P.β • Matrix.vecMulVec (vector n P.v) (vector n P.v) = reflectionMatrix n P n 0 := by
    unfold reflectionMatrix
    rw [hv]
  dsimp only
  rw [e]
  refine ⟨reflection_symm P n 0, ?_, ?_⟩
  · have := reflection_orthogonal (n := n) P (m := n) (r := 0) (by omega) h1
    rwa [reflection_symm] at this
  · rw [← e]
    funext i
    have := h2 i i.2
    rw [← Fin.sum_univ_eq_sum_range (fun l => P.v l * x l) n, ← Fin.sum_univ_eq_sum_range (fun l => x l ^ 2) n] at this
    rw [Matrix.sub_mulVec, Matrix.one_mulVec, Matrix.smul_mulVec, Pi.sub_apply, Pi.smul_apply, Matrix.vecMulVec_mulVec, Pi.smul_apply, smul_eq_mul]
    refine Eq.trans ?_ this
    simp only [vector, dotProduct, MulOpposite.smul_eq_mul_unop, MulOpposite.unop_op, smul_eq_mul]
    ring

/-- The hypotheses are met by the vector (3, 4). -/
example : Regular 2 fun i => if i = 0 then 3 else 4 := Or.inl (by norm_num)

/-- C75.  The Householder reflection of a negative multiple of the first vector of the basis is not orthogonal: it multiplies that vector by 3. -/
theorem C75_householder_counterexample : ∃ P : Reflection, householder 2 (fun i => if i = 0 then -1 else 0) = some P ∧
    let Q := (1 : Matrix (Fin 2) (Fin 2) ℝ) - P.β • Matrix.vecMulVec (vector 2 P.v) (vector 2 P.v)
    Q = !![3, 0; 0, 1] := by
  refine ⟨_, householder_axis (by omega) (by norm_num) (fun i h1 h2 => by rw [if_neg (by omega)]), ?_⟩
  ext i j
  fin_cases i <;> fin_cases j <;> simp [vector, Matrix.vecMulVec_apply] <;> norm_num

/-! ## Hessenberg decomposition -/

/-- C75.  The result of the Hessenberg decomposition, if there is one, is zero under the elements that follow the diagonal. -/
theorem C75_hessenberg_shape {A H : Mat ℝ} (h : hessenberg n A = some H) : ∀ i j : Fin n, (j : ℕ) + 2 ≤ i → matrix n n H i j = 0 :=
  fun i j hij => hessenberg_shape h i j hij i.2

/-- C75.  If the columns under the diagonal are regular when they are reached, there is a result, and it is orthogonally similar to the matrix. -/
theorem C75_hessenberg {A : Mat ℝ} (hr : HessenbergRegular n A) :
    ∃ H Q, hessenberg n A = some H ∧ Q.transpose * Q = 1 ∧ matrix n n A = Q * matrix n n H * Q.transpose := by
  obtain ⟨H, hH⟩ := hessenberg_exists hr
  obtain ⟨Q, hQ, e⟩ := hessenberg_similar hr hH
  refine ⟨H, Q, hH, hQ, ?_⟩
  have hQ' : Q * Q.transpose = 1 := mul_eq_one_comm.1 hQ
  rw [e]
  calc matrix n n A = (Q * Q.transpose) * matrix n n A * (Q * Q.transpose) := by rw [hQ', Matrix.one_mul, Matrix.mul_one]
    _ = Q * (Q.transpose * matrix n n A * Q) * Q.transpose := by simp only [Matrix.mul_assoc]

/-- The hypothesis is met by a matrix with a column which is not a multiple of the first vector of the basis. -/
example : HessenbergRegular 3 (mat3 1 2 3 4 5 6 7 8 10) := by
  intro k hk H hH
  obtain rfl : k = 0 := by omega
  obtain rfl : mat3 1 2 3 4 5 6 7 8 10 = H := Option.some.inj hH
  exact Or.inl (by norm_num [mat3])

/-- C75.  The Hessenberg decomposition of the identity divides by zero. -/
theorem C75_hessenberg_identity_counterexample : hessenberg 3 (fun i j => if i = j then 1 else 0) = none := by
  show loop 0 1 (hessenbergStep 3) _ = none
  rw [loop_succ]
  show hessenbergStep 3 0 (fun i j => if i = j then 1 else 0) = none
  unfold hessenbergStep
  dsimp only
  rw [Option.map_eq_none_iff, householder_none]
  intro i hi
  rw [if_neg (by omega)]

/-- C75.  The Hessenberg decomposition of a matrix with a column that is a negative multiple of the first vector of the basis doesn't have the same eigenvalues as the matrix. -/
theorem C75_hessenberg_counterexample : ∃ A H : Mat ℝ, hessenberg 3 A = some H ∧ IsEigenvalue (matrix 3 3 A) 1 ∧ ¬IsEigenvalue (matrix 3 3 H) 1 := by
  refine ⟨mat3 0 0 0 (-1) 1 0 0 0 0, _, hessenberg3 _ (householder_axis (by omega) (by norm_num [mat3]) fun i h1 h2 => ?_), ?_, ?_⟩
  · obtain rfl : i = 1 := by omega
    rfl
  · rw [← characteristic_iff, characteristic_eq, Matrix.det_fin_three]
    norm_num [matrix, shift, mat3]
  · rw [← characteristic_iff, characteristic_eq, Matrix.det_fin_three]
    norm_num [matrix, shift, mat3, premultiply, postMultiply, sum_zero_eq, Finset.sum_range_succ]

/-! ## Real Schur decomposition -/

/-- C75.  The matrix of the real Schur decomposition, if there is one, is upper quasi-triangular. -/
theorem C75_schur_shape {fuel : ℕ} {A T : Mat ℝ} {ε : ℝ} {eigenvalues : List RootFinders.Ext} (h : realSchur fuel n A ε = some (some (T, eigenvalues))) :
    (∀ i j : Fin n, (j : ℕ) + 2 ≤ i → matrix n n T i j = 0) ∧ ∀ i j k : Fin n, (j : ℕ) = i + 1 → (k : ℕ) = j + 1 → matrix n n T j i = 0 ∨ matrix n n T k j = 0 := by
  unfold realSchur at h
  obtain ⟨H, h1, h2⟩ := Option.bind_eq_some_iff.1 h
  obtain ⟨o, h3, h4⟩ := Option.map_eq_some_iff.1 h2
  obtain ⟨T', rfl, h5⟩ := Option.map_eq_some_iff.1 h4
  obtain ⟨rfl, -⟩ := Prod.mk.inj h5
  have hT := schurLoop_shape fuel (hessenberg_shape h1) h3
  refine ⟨fun i j hij => hT.1 i j hij i.2, fun i j k hj hk => ?_⟩
  have := hT.2 i (by omega)
  rwa [show (i : ℕ) + 2 = k by omega, show (i : ℕ) + 1 = j by omega] at this

/-- C75.  The eigenvalues of the real Schur decomposition are finite, and they are exactly the real eigenvalues of its matrix. -/
theorem C75_schur_eigenvalues {fuel : ℕ} {A T : Mat ℝ} {ε : ℝ} {eigenvalues : List RootFinders.Ext} (h : realSchur fuel n A ε = some (some (T, eigenvalues))) :
    (∀ e ∈ eigenvalues, ∃ μ, e = .fin μ) ∧ ∀ μ, .fin μ ∈ eigenvalues ↔ IsEigenvalue (matrix n n T) μ := by
  unfold realSchur at h
  obtain ⟨H, h1, h2⟩ := Option.bind_eq_some_iff.1 h
  obtain ⟨o, h3, h4⟩ := Option.map_eq_some_iff.1 h2
  obtain ⟨T', rfl, h5⟩ := Option.map_eq_some_iff.1 h4
  obtain ⟨rfl, rfl⟩ := Prod.mk.inj h5
  have hT := schurLoop_shape fuel (hessenberg_shape h1) h3
  refine ⟨(realEigenvalues_spec hT 0 n 0 n (Nat.zero_add _) (le_refl _) (Or.inl rfl)).2, fun μ => ?_⟩
  rw [(realEigenvalues_spec hT μ n 0 n (Nat.zero_add _) (le_refl _) (Or.inl rfl)).1, tailDet_zero, characteristic_iff]

/-- C75.  Without a tolerance, and if the vectors from which the reflections are computed are regular, the eigenvalues of the real Schur decomposition are exactly the real eigenvalues of
the matrix. -/
theorem C75_schur {fuel : ℕ} {A T : Mat ℝ} {eigenvalues : List RootFinders.Ext} (hA : HessenbergRegular n A) (hr : ∀ H, hessenberg n A = some H → SchurRegular n 0 fuel H)
    (h : realSchur fuel n A 0 = some (some (T, eigenvalues))) : ∀ μ, .fin μ ∈ eigenvalues ↔ IsEigenvalue (matrix n n A) μ := by
  intro μ
  rw [(C75_schur_eigenvalues h).2, ← characteristic_iff, ← characteristic_iff]
  unfold realSchur at h
  obtain ⟨H, h1, h2⟩ := Option.bind_eq_some_iff.1 h
  obtain ⟨o, h3, h4⟩ := Option.map_eq_some_iff.1 h2
  obtain ⟨T', rfl, h5⟩ := Option.map_eq_some_iff.1 h4
  obtain ⟨rfl, -⟩ := Prod.mk.inj h5
  rw [schurLoop_characteristic fuel (hessenberg_shape h1) (hr H h1) h3, (hessenberg_similar hA h1).det]

/-- The steps of the example below. -/
theorem schurExample : francisStep 3 (mat3 0 3 0 1 1 0 0 2 (-1)) = some (mat3 1 3 (-2) 1 0 0 0 0 (-1)) ∧ FrancisRegular 3 (mat3 0 3 0 1 1 0 0 2 (-1)) := by
  have hP := householder_general (m := 3) (by omega) (x := francisVector 3 (mat3 0 3 0 1 1 0 0 2 (-1))) (N := 3) (by norm_num)
    (by norm_num [francisVector, mat3, Finset.sum_range_succ]) ⟨1, by omega, by omega, by norm_num [francisVector, mat3]⟩
  obtain ⟨h1, h2⟩ := francis3 _ hP
  have e : postMultiply ⟨fun i => if i = 0 then 1 else francisVector 3 (mat3 0 3 0 1 1 0 0 2 (-1)) i / (francisVector 3 (mat3 0 3 0 1 1 0 0 2 (-1)) 0 - 3),
        1 - francisVector 3 (mat3 0 3 0 1 1 0 0 2 (-1)) 0 / 3⟩ 3 0 3 0
      (premultiply ⟨fun i => if i = 0 then 1 else francisVector 3 (mat3 0 3 0 1 1 0 0 2 (-1)) i / (francisVector 3 (mat3 0 3 0 1 1 0 0 2 (-1)) 0 - 3),
        1 - francisVector 3 (mat3 0 3 0 1 1 0 0 2 (-1)) 0 / 3⟩ 3 0 0 3 (mat3 0 3 0 1 1 0 0 2 (-1))) = mat3 1 3 (-2) 1 0 0 0 0 (-1) := by
    refine mat3_ext (fun i j hi hj => ?_) (post_out _ (by omega) (pre_out _ (by omega) (mat3_out _ _ _ _ _ _ _ _ _))) (mat3_out _ _ _ _ _ _ _ _ _)
    interval_cases i <;> interval_cases j <;> norm_num [premultiply, postMultiply, francisVector, mat3, sum_zero_eq, Finset.sum_range_succ]
  dsimp only at h1 h2
  rw [e] at h1 h2
  refine ⟨?_, fun s hs => ?_⟩
  · rw [h2, householder_axis (by omega) (by norm_num [mat3]) (fun i g1 g2 => by
      obtain rfl : i = 1 := by omega
      norm_num [mat3]), Option.map_some]
    congr 1
    rw [(reflect_zero _ (by norm_num [mat3]) _ _ _ _ _).1, (reflect_zero _ (by norm_num [mat3]) _ _ _ _ _).2]
  · rw [h1] at hs
    obtain rfl := Option.some.inj hs
    exact Or.inl (by norm_num [mat3])

/-- The hypotheses are met by a matrix for which a step of Francis is needed. -/
example : ∃ T eigenvalues, HessenbergRegular 3 (mat3 0 3 0 1 1 0 0 2 (-1)) ∧ (∀ H, hessenberg 3 (mat3 0 3 0 1 1 0 0 2 (-1)) = some H → SchurRegular 3 0 2 H) ∧
    realSchur 2 3 (mat3 0 3 0 1 1 0 0 2 (-1)) 0 = some (some (T, eigenvalues)) := by
  have hH : hessenberg 3 (mat3 0 3 0 1 1 0 0 2 (-1)) = some (mat3 0 3 0 1 1 0 0 2 (-1)) := hessenberg3_id (by norm_num [mat3]) (by norm_num [mat3])
  have hb := francisBlock3 schurExample.1 (mat3_out _ _ _ _ _ _ _ _ _) (mat3_out _ _ _ _ _ _ _ _ _)
  have hq : quasiTriangular 3 (mat3 0 3 0 1 1 0 0 2 (-1)) = 0 := quasiTriangular3_not (by norm_num [mat3]) (by norm_num [mat3])
  have ha : activeBlock 3 (mat3 0 3 0 1 1 0 0 2 (-1)) = (0, 3) := by
    unfold activeBlock
    rw [hq]
    norm_num [unreducedStart, mat3]
  refine ⟨mat3 1 3 (-2) 1 0 0 0 0 (-1), realEigenvalues 3 (mat3 1 3 (-2) 1 0 0 0 0 (-1)) 3 0, ?_, ?_, ?_⟩
  · intro k hk H hH
    obtain rfl : k = 0 := by omega
    obtain rfl := Option.some.inj hH
    exact Or.inl (by norm_num [mat3])
  · intro H h
    rw [hH] at h
    obtain rfl := Option.some.inj h
    unfold SchurRegular
    dsimp only
    rw [deflate_zero, ha]
    dsimp only
    intro _
    refine ⟨by simpa only [Nat.zero_add] using schurExample.2, fun H' h' => ?_⟩
    rw [hb] at h'
    obtain rfl := Option.some.inj h'
    unfold SchurRegular
    dsimp only
    rw [deflate_zero]
    intro h
    exact absurd (quasiTriangular3 (by norm_num [mat3])) h
  · unfold realSchur
    rw [hH, Option.bind_some, schurLoop3 (deflate_zero _ _) (by norm_num [mat3]) (by norm_num [mat3]), hb, Option.bind_some,
      schurLoop3_done (deflate_zero _ _) (by norm_num [mat3])]
    rfl

/-- The cyclic permutation of three elements. -/
def cyclic : Mat ℝ := mat3 0 0 1 1 0 0 0 1 0

theorem francis_cyclic : francisStep 3 cyclic = some cyclic := by
  have hP := householder_general (m := 3) (by omega) (x := francisVector 3 cyclic) (N := 1) (by norm_num)
    (by norm_num [francisVector, cyclic, mat3, Finset.sum_range_succ]) ⟨2, by omega, by omega, by norm_num [francisVector, cyclic, mat3]⟩
  obtain ⟨-, h2⟩ := francis3 _ hP
  have e : postMultiply ⟨fun i => if i = 0 then 1 else francisVector 3 cyclic i / (francisVector 3 cyclic 0 - 1), 1 - francisVector 3 cyclic 0 / 1⟩ 3 0 3 0
      (premultiply ⟨fun i => if i = 0 then 1 else francisVector 3 cyclic i / (francisVector 3 cyclic 0 - 1), 1 - francisVector 3 cyclic 0 / 1⟩ 3 0 0 3 cyclic) = mat3 0 1 0 0 0 1 1 0 0 := by
    refine mat3_ext (fun i j hi hj => ?_) (post_out _ (by omega) (pre_out _ (by omega) (mat3_out _ _ _ _ _ _ _ _ _))) (mat3_out _ _ _ _ _ _ _ _ _)
    interval_cases i <;> interval_cases j <;> norm_num [premultiply, postMultiply, francisVector, cyclic, mat3, sum_zero_eq, Finset.sum_range_succ]
  dsimp only at h2
  rw [e] at h2
  rw [h2, householder_general (m := 2) (by omega) (N := 1) (by norm_num) (by norm_num [mat3, Finset.sum_range_succ]) ⟨1, by omega, by omega, by norm_num [mat3]⟩, Option.map_some]
  congr 1
  refine mat3_ext (fun i j hi hj => ?_) (post_out _ (by omega) (pre_out _ (by omega) (mat3_out _ _ _ _ _ _ _ _ _))) (mat3_out _ _ _ _ _ _ _ _ _)
  interval_cases i <;> interval_cases j <;> norm_num [premultiply, postMultiply, cyclic, mat3, sum_zero_eq, Finset.sum_range_succ]

/-- C75.  The real Schur decomposition of a cyclic permutation doesn't terminate, whatever the tolerance. -/
theorem C75_schur_termination_counterexample (ε : ℝ) (fuel : ℕ) : realSchur fuel 3 cyclic ε = some none := by
  have hloop : ∀ fuel, schurLoop 3 ε fuel cyclic = some none := by
    intro fuel
    induction fuel with
    | zero => rfl
    | succ fuel ih =>
      rw [schurLoop3 (deflate_id fun i h1 h2 => ?_) (by norm_num [cyclic, mat3]) (by norm_num [cyclic, mat3]),
        francisBlock3 francis_cyclic (mat3_out _ _ _ _ _ _ _ _ _) (mat3_out _ _ _ _ _ _ _ _ _), Option.bind_some, ih]
      interval_cases i <;> norm_num [cyclic, mat3]
  unfold realSchur
  rw [hessenberg3_id (by norm_num [cyclic, mat3]) (by norm_num [cyclic, mat3]), Option.bind_some, hloop]
  rfl

/-- C75.  The real Schur decomposition of a matrix whose eigenvalues are 0, 1 and 2 divides by zero, for all the small tolerances. -/
theorem C75_schur_exact_shift_counterexample (ε : ℝ) (h : ε < 1 / 3) (fuel : ℕ) : realSchur (fuel + 1) 3 (mat3 2 0 0 1 1 0 0 1 0) ε = none := by
  have hf : francisStep 3 (mat3 2 0 0 1 1 0 0 1 0) = none := by
    have hP := householder_general (m := 3) (by omega) (x := francisVector 3 (mat3 2 0 0 1 1 0 0 1 0)) (N := 3) (by norm_num)
      (by norm_num [francisVector, mat3, Finset.sum_range_succ]) ⟨2, by omega, by omega, by norm_num [francisVector, mat3]⟩
    obtain ⟨-, h2⟩ := francis3 _ hP
    rw [h2, Option.map_eq_none_iff, householder_none]
    intro i hi
    interval_cases i <;> norm_num [premultiply, postMultiply, francisVector, mat3, sum_zero_eq, Finset.sum_range_succ]
  unfold realSchur
  rw [hessenberg3_id (by norm_num [mat3]) (by norm_num [mat3]), Option.bind_some, schurLoop3 (deflate_id fun i h1 h2 => ?_) (by norm_num [mat3]) (by norm_num [mat3])]
  · unfold francisBlock
    simp only [Nat.zero_add]
    rw [hf]
    rfl
  · interval_cases i <;> norm_num [mat3] <;> linarith

/-- The step of the counterexample below. -/
theorem francis_wrong : francisStep 3 (mat3 (-2) (-2) 0 1 0 0 0 1 0) = some (mat3 (-2 / 3) 5 (-4 / 3) (-2) (-12) 5 0 0 0) := by
  have hP := householder_general (m := 3) (by omega) (x := francisVector 3 (mat3 (-2) (-2) 0 1 0 0 0 1 0)) (N := 3) (by norm_num)
    (by norm_num [francisVector, mat3, Finset.sum_range_succ]) ⟨2, by omega, by omega, by norm_num [francisVector, mat3]⟩
  obtain ⟨-, h2⟩ := francis3 _ hP
  have e : ∃ M : Mat ℝ, postMultiply ⟨fun i => if i = 0 then 1 else francisVector 3 (mat3 (-2) (-2) 0 1 0 0 0 1 0) i / (francisVector 3 (mat3 (-2) (-2) 0 1 0 0 0 1 0) 0 - 3),
        1 - francisVector 3 (mat3 (-2) (-2) 0 1 0 0 0 1 0) 0 / 3⟩ 3 0 3 0
      (premultiply ⟨fun i => if i = 0 then 1 else francisVector 3 (mat3 (-2) (-2) 0 1 0 0 0 1 0) i / (francisVector 3 (mat3 (-2) (-2) 0 1 0 0 0 1 0) 0 - 3),
        1 - francisVector 3 (mat3 (-2) (-2) 0 1 0 0 0 1 0) 0 / 3⟩ 3 0 0 3 (mat3 (-2) (-2) 0 1 0 0 0 1 0)) = M ∧ M = mat3 (-2 / 3) (5 / 3) (-4 / 3) (-2 / 3) (-4 / 3) (5 / 3) 0 0 0 := by
    refine ⟨_, rfl, mat3_ext (fun i j hi hj => ?_) (post_out _ (by omega) (pre_out _ (by omega) (mat3_out _ _ _ _ _ _ _ _ _))) (mat3_out _ _ _ _ _ _ _ _ _)⟩
    interval_cases i <;> interval_cases j <;> norm_num [premultiply, postMultiply, francisVector, mat3, sum_zero_eq, Finset.sum_range_succ]
  obtain ⟨M, e, rfl⟩ := e
  dsimp only at h2
  rw [e] at h2
  rw [h2, householder_axis (by omega) (by norm_num [mat3]) (fun i g1 g2 => by
      obtain rfl : i = 1 := by omega
      norm_num [mat3]), Option.map_some]
  congr 1
  refine mat3_ext (fun i j hi hj => ?_) (post_out _ (by omega) (pre_out _ (by omega) (mat3_out _ _ _ _ _ _ _ _ _))) (mat3_out _ _ _ _ _ _ _ _ _)
  interval_cases i <;> interval_cases j <;> norm_num [premultiply, postMultiply, mat3, sum_zero_eq, Finset.sum_range_succ]

/-- C75.  The real Schur decomposition of some matrix returns a number that is not an eigenvalue of the matrix. -/
theorem C75_schur_counterexample : ∃ (A T : Mat ℝ) (eigenvalues : List RootFinders.Ext) (μ : ℝ),
    realSchur 2 3 A 0 = some (some (T, eigenvalues)) ∧ .fin μ ∈ eigenvalues ∧ ¬IsEigenvalue (matrix 3 3 A) μ := by
  have h : realSchur 2 3 (mat3 (-2) (-2) 0 1 0 0 0 1 0) 0 =
      some (some (mat3 (-2 / 3) 5 (-4 / 3) (-2) (-12) 5 0 0 0, realEigenvalues 3 (mat3 (-2 / 3) 5 (-4 / 3) (-2) (-12) 5 0 0 0) 3 0)) := by
    unfold realSchur
    rw [hessenberg3_id (by norm_num [mat3]) (by norm_num [mat3]), Option.bind_some, schurLoop3 (deflate_zero _ _) (by norm_num [mat3]) (by norm_num [mat3]),
      francisBlock3 francis_wrong (mat3_out _ _ _ _ _ _ _ _ _) (mat3_out _ _ _ _ _ _ _ _ _), Option.bind_some, schurLoop3_done (deflate_zero _ _) (by norm_num [mat3])]
    rfl
  have h199 : √(199 : ℝ) ^ 2 = 199 := Real.sq_sqrt (by norm_num)
  refine ⟨_, _, _, (-19 + √199) / 3, h, ?_, ?_⟩
  · rw [(C75_schur_eigenvalues h).2, ← characteristic_iff, characteristic_eq, Matrix.det_fin_three]
    norm_num [matrix, shift, mat3]
    ring_nf
    rw [show √(199 : ℝ) ^ 3 = √199 ^ 2 * √199 by ring, h199]
    ring
  · rw [← characteristic_iff, characteristic_eq, Matrix.det_fin_three]
    norm_num [matrix, shift, mat3]
    intro hc
    have hμ : (-19 + √199) / 3 ≠ 0 := by
      intro h0
      have : √(199 : ℝ) = 19 := by linarith
      rw [this] at h199
      norm_num at h199
    have : ((-19 + √199) / 3) * (((-19 + √199) / 3 + 1) ^ 2 + 1) = 0 := by linear_combination hc
    rcases mul_eq_zero.1 this with h1 | h1
    · exact hμ h1
    · nlinarith [sq_nonneg ((-19 + √199) / 3 + 1)]

/-! ## Jacobi's method -/

/-- C75.  For a symmetric matrix, Jacobi's method returns an orthogonal matrix and a diagonal one such that the former transforms the matrix into the latter, up to elements that are
not on the diagonal.  These elements are either all smaller than the tolerance, or the sum of their squares was divided by a constant greater than 1 at each iteration.  The sum never
grows.  The columns of the orthogonal matrix are eigenvectors, and the elements of the diagonal are eigenvalues, up to the elements in the same column. -/
theorem C75_jacobi {A : Mat ℝ} (hA : (matrix n n A).transpose = matrix n n A) (N : ℕ) {ε : ℝ} (hε : 0 ≤ ε) :
    ∃ (V : Mat ℝ) (eigenvalues : Vec ℝ) (E : Matrix (Fin n) (Fin n) ℝ), classicalJacobi n A N ε = some (V, eigenvalues) ∧
      (matrix n n V).transpose * matrix n n V = 1 ∧
      (matrix n n V).transpose * matrix n n A * matrix n n V = Matrix.diagonal (vector n eigenvalues) + E ∧ (∀ i, E i i = 0) ∧
      offDiagonal E ≤ offDiagonal (matrix n n A) ∧
      ((∀ i j, |E i j| ≤ ε * √(∑ i, ∑ j, matrix n n A i j ^ 2)) ∨ (2 ≤ n ∧ offDiagonal E ≤ (1 - 2 / (n * (n - 1))) ^ N * offDiagonal (matrix n n A))) ∧
      ∀ j : Fin n, normSquare ((matrix n n A).mulVec (fun i => V i j) - eigenvalues j • fun i : Fin n => V i j) = ∑ i, E i j ^ 2 ∧
        ∃ μ, IsEigenvalue (matrix n n A) μ ∧ (μ - eigenvalues j) ^ 2 ≤ ∑ i, E i j ^ 2 := by
  obtain ⟨V, D, h1, h2, h3, h4⟩ := classicalJacobi_spec hA N hε
  have hF : frobeniusNorm n A = √(∑ i, ∑ j, matrix n n A i j ^ 2) := by
    unfold frobeniusNorm
    rw [sum_zero_eq, ← Fin.sum_univ_eq_sum_range (fun i => sum 0 n fun j => A i j ^ 2) n]
    congr 1
    refine Finset.sum_congr rfl fun i _ => ?_
    rw [sum_zero_eq, ← Fin.sum_univ_eq_sum_range (fun j => A i j ^ 2) n]
    rfl
  set E : Matrix (Fin n) (Fin n) ℝ := matrix n n D - Matrix.diagonal (vector n fun i => D i i) with hE
  have hEne : ∀ i j, i ≠ j → E i j = D i j := by
    intro i j hij
    rw [hE, Matrix.sub_apply, Matrix.diagonal_apply_ne _ hij, sub_zero]
    rfl
  have hEeq : ∀ i, E i i = 0 := by
    intro i
    rw [hE, Matrix.sub_apply, Matrix.diagonal_apply_eq]
    exact sub_self _
  have hoff : offDiagonal E = offDiagonal (matrix n n D) := by
    unfold offDiagonal
    refine Finset.sum_congr rfl fun i _ => Finset.sum_congr rfl fun j _ => ?_
    by_cases hij : i = j
    · rw [if_pos hij, if_pos hij]
    · rw [if_neg hij, if_neg hij, hEne i j hij]
      rfl
  have hsymm := h2.symm hA
  have hconj : (matrix n n V).transpose * matrix n n A * matrix n n V = Matrix.diagonal (vector n fun i => D i i) + E := by
    rw [← h2.conj, hE, add_sub_cancel]
  refine ⟨V, _, E, h1, h2.orthogonal, hconj, hEeq, hoff ▸ h3, ?_, fun j => ?_⟩
  · rcases h4 with h4 | h4
    · left
      rw [← hF]
      intro i j
      rcases lt_trichotomy i j with h | h | h
      · rw [hEne i j h.ne]
        exact h4 i j h j.2
      · subst h
        rw [hEeq, abs_zero]
        exact mul_nonneg hε (by unfold frobeniusNorm; exact Real.sqrt_nonneg _)
      · rw [hEne i j h.ne']
        have : D i j = D j i := congrFun (congrFun hsymm j) i
        rw [this]
        exact h4 j i h i.2
    · right
      rw [hoff]
      exact h4
  · have hM : matrix n n A * matrix n n V - matrix n n V * Matrix.diagonal (vector n fun i => D i i) = matrix n n V * E := by
      have hV : matrix n n V * (matrix n n V).transpose = 1 := mul_eq_one_comm.1 h2.orthogonal
      rw [show matrix n n V * E = matrix n n V * ((matrix n n V).transpose * matrix n n A * matrix n n V) - matrix n n V * Matrix.diagonal (vector n fun i => D i i) by
        rw [hconj, Matrix.mul_add]; abel]
      rw [Matrix.mul_assoc, ← Matrix.mul_assoc (matrix n n V), hV, Matrix.one_mul]
    have hcol : ((matrix n n A).mulVec (fun i => V i j) - D j j • fun i : Fin n => V i j) = fun i => (matrix n n V * E) i j := by
      funext i
      rw [← hM, Matrix.sub_apply, Matrix.mul_diagonal, Matrix.mul_apply, Pi.sub_apply, Pi.smul_apply, smul_eq_mul, mul_comm]
      rfl
    have hres : normSquare ((matrix n n A).mulVec (fun i => V i j) - D j j • fun i : Fin n => V i j) = ∑ i, E i j ^ 2 := by
      have e1 : normSquare (fun i => (matrix n n V * E) i j) = ((matrix n n V * E).transpose * (matrix n n V * E)) j j := by
        rw [Matrix.mul_apply]
        unfold normSquare
        exact Finset.sum_congr rfl fun i _ => by rw [Matrix.transpose_apply]; ring
      rw [hcol, e1, Matrix.transpose_mul, Matrix.mul_assoc, ← Matrix.mul_assoc (matrix n n V).transpose, h2.orthogonal, Matrix.one_mul, Matrix.mul_apply]
      exact Finset.sum_congr rfl fun i _ => by rw [Matrix.transpose_apply]; ring
    refine ⟨hres, ?_⟩
    have hunit : normSquare (fun i : Fin n => V i j) = 1 := by
      have := congrFun (congrFun h2.orthogonal j) j
      rw [Matrix.mul_apply, Matrix.one_apply_eq] at this
      rw [← this]
      unfold normSquare
      exact Finset.sum_congr rfl fun i _ => by rw [Matrix.transpose_apply]; exact sq _
    obtain ⟨ν, h5, h6⟩ := near_eigenvalue hA hunit (D j j)
    exact ⟨ν, h5, h6.trans hres.le⟩

/-- C75.  Jacobi's method finds all the eigenvalues: each eigenvalue of the matrix is near an element of the result, up to the elements that are not on the diagonal. -/
theorem C75_jacobi_complete {A V : Mat ℝ} {eigenvalues : Vec ℝ} {E : Matrix (Fin n) (Fin n) ℝ} (hV : (matrix n n V).transpose * matrix n n V = 1)
    (h : (matrix n n V).transpose * matrix n n A * matrix n n V = Matrix.diagonal (vector n eigenvalues) + E) {μ : ℝ} (hμ : IsEigenvalue (matrix n n A) μ) :
    ∃ j : Fin n, (μ - eigenvalues j) ^ 2 ≤ ∑ i, ∑ j, E i j ^ 2 := by
  obtain ⟨x, hx, he⟩ := hμ
  have hV' : matrix n n V * (matrix n n V).transpose = 1 := mul_eq_one_comm.1 hV
  set y := (matrix n n V).transpose.mulVec x with hy
  have hxy : (matrix n n V).mulVec y = x := by rw [hy, Matrix.mulVec_mulVec, hV', Matrix.one_mulVec]
  have hy0 : y ≠ 0 := by
    intro h0
    apply hx
    rw [← hxy, h0, Matrix.mulVec_zero]
  have heq : (Matrix.diagonal (vector n eigenvalues) + E).mulVec y = μ • y := by
    rw [← h, ← Matrix.mulVec_mulVec, hxy, ← Matrix.mulVec_mulVec, he, Matrix.mulVec_smul]
  have hcomp : ∀ i : Fin n, (μ - eigenvalues i) * y i = E.mulVec y i := by
    intro i
    have := congrFun heq i
    rw [Matrix.add_mulVec, Pi.add_apply, Matrix.mulVec_diagonal, Pi.smul_apply, smul_eq_mul] at this
    have hv : vector n eigenvalues i = eigenvalues i := rfl
    rw [hv] at this
    linarith
  by_contra hcon
  push Not at hcon
  have hpos : 0 < ∑ i, y i ^ 2 := by
    obtain ⟨i, hi⟩ := Function.ne_iff.1 hy0
    exact Finset.sum_pos' (fun i _ => sq_nonneg _) ⟨i, Finset.mem_univ _, by have : y i ≠ 0 := hi; positivity⟩
  have hle : ∑ i, (E.mulVec y i) ^ 2 ≤ (∑ i, ∑ j, E i j ^ 2) * ∑ i, y i ^ 2 := by
    rw [Finset.sum_mul]
    exact Finset.sum_le_sum fun i _ => Finset.sum_mul_sq_le_sq_mul_sq univ (fun j => E i j) y
  have hlt : (∑ i, ∑ j, E i j ^ 2) * ∑ i, y i ^ 2 < ∑ i, (E.mulVec y i) ^ 2 := by
    rw [Finset.mul_sum]
    obtain ⟨i, hi⟩ := Function.ne_iff.1 hy0
    refine Finset.sum_lt_sum (fun i _ => ?_) ⟨i, Finset.mem_univ _, ?_⟩
    · rw [← hcomp, mul_pow]
      exact mul_le_mul_of_nonneg_right (hcon i).le (sq_nonneg _)
    · rw [← hcomp, mul_pow]
      have : y i ≠ 0 := hi
      exact mul_lt_mul_of_pos_right (hcon i) (by positivity)
  linarith

/-- C75.  Jacobi's method converges: for any positive tolerance, after sufficiently many iterations, the elements that are not on the diagonal are smaller than the tolerance. -/
theorem C75_jacobi_converges {A : Mat ℝ} (hA : (matrix n n A).transpose = matrix n n A) {ε : ℝ} (hε : 0 < ε) :
    ∃ N₀, ∀ N ≥ N₀, ∃ (V : Mat ℝ) (eigenvalues : Vec ℝ) (E : Matrix (Fin n) (Fin n) ℝ), classicalJacobi n A N ε = some (V, eigenvalues) ∧
      (matrix n n V).transpose * matrix n n V = 1 ∧ (matrix n n V).transpose * matrix n n A * matrix n n V = Matrix.diagonal (vector n eigenvalues) + E ∧
      ∀ i j, |E i j| ≤ ε * √(∑ i, ∑ j, matrix n n A i j ^ 2) := by
  have entry : ∀ E : Matrix (Fin n) (Fin n) ℝ, (∀ i, E i i = 0) → ∀ i j, E i j ^ 2 ≤ offDiagonal E := by
    intro E hE i j
    by_cases hij : i = j
    · subst hij
      rw [hE, zero_pow two_ne_zero]
      exact offDiagonal_nonneg E
    · unfold offDiagonal
      have h1 := Finset.single_le_sum (f := fun j => if i = j then 0 else E i j ^ 2) (fun j _ => by beta_reduce; split <;> positivity) (Finset.mem_univ j)
      have h2 := Finset.single_le_sum (f := fun i => ∑ j, if i = j then 0 else E i j ^ 2) (fun i _ => Finset.sum_nonneg fun j _ => by split <;> positivity) (Finset.mem_univ i)
      beta_reduce at h1 h2
      rw [if_neg hij] at h1
      exact h1.trans h2
  have hofs : offDiagonal (matrix n n A) ≤ ∑ i, ∑ j, matrix n n A i j ^ 2 := by
    unfold offDiagonal
    refine Finset.sum_le_sum fun i _ => Finset.sum_le_sum fun j _ => ?_
    by_cases hij : i = j
    · rw [if_pos hij]; exact sq_nonneg _
    · rw [if_neg hij]
  have finish : ∀ N, (2 ≤ n → (1 - 2 / (n * (n - 1)) : ℝ) ^ N ≤ ε ^ 2) → ∃ (V : Mat ℝ) (eigenvalues : Vec ℝ) (E : Matrix (Fin n) (Fin n) ℝ),
      classicalJacobi n A N ε = some (V, eigenvalues) ∧ (matrix n n V).transpose * matrix n n V = 1 ∧
      (matrix n n V).transpose * matrix n n A * matrix n n V = Matrix.diagonal (vector n eigenvalues) + E ∧ ∀ i j, |E i j| ≤ ε * √(∑ i, ∑ j, matrix n n A i j ^ 2) := by
    intro N hN
    obtain ⟨V, l, E, h1, h2, h3, h4, h5, h6, -⟩ := C75_jacobi hA N hε.le
    refine ⟨V, l, E, h1, h2, h3, ?_⟩
    rcases h6 with h6 | ⟨hn, h6⟩
    · exact h6
    · intro i j
      have hS : 0 ≤ ∑ i, ∑ j, matrix n n A i j ^ 2 := Finset.sum_nonneg fun i _ => Finset.sum_nonneg fun j _ => sq_nonneg _
      refine abs_le_of_sq_le_sq ?_ (mul_nonneg hε.le (Real.sqrt_nonneg _))
      rw [mul_pow, Real.sq_sqrt hS]
      calc E i j ^ 2 ≤ offDiagonal E := entry E h4 i j
        _ ≤ _ := h6
        _ ≤ ε ^ 2 * offDiagonal (matrix n n A) := mul_le_mul_of_nonneg_right (hN hn) (offDiagonal_nonneg _)
        _ ≤ _ := mul_le_mul_of_nonneg_left hofs (sq_nonneg _)
  by_cases hn : 2 ≤ n
  · obtain ⟨f0, f1⟩ := jacobiFactor_nonneg hn
    unfold jacobiFactor at f0 f1
    obtain ⟨N₀, hN₀⟩ := exists_pow_lt_of_lt_one (show 0 < ε ^ 2 by positivity) f1
    exact ⟨N₀, fun N hN => finish N fun _ => (pow_le_pow_of_le_one f0 f1.le hN).trans hN₀.le⟩
  · exact ⟨0, fun N _ => finish N fun h => absurd h hn⟩

/-- The hypotheses are met by a symmetric matrix. -/
example : (matrix 3 3 (mat3 1 2 3 2 4 5 3 5 6)).transpose = matrix 3 3 (mat3 1 2 3 2 4 5 3 5 6) := by
  ext i j
  fin_cases i <;> fin_cases j <;> rfl

/-! ## Rayleigh's quotient -/

theorem multiply_eq (A : Mat ℝ) (x : Vec ℝ) (i : Fin n) : multiply n A x i = (matrix n n A).mulVec (vector n x) i := by
  unfold multiply
  rw [sum_zero_eq, ← Fin.sum_univ_eq_sum_range (fun j => A i j * x j) n]
  rfl

/-- C75.  Rayleigh's quotient is defined for all the nonzero vectors, and it is the number for which the vector has the smallest residual; in particular, for an eigenvector, it is the
eigenvalue. -/
theorem C75_rayleigh_quotient (A : Mat ℝ) (x : Vec ℝ) (hx : vector n x ≠ 0) :
    ∃ μ : ℝ, rayleighQuotient n A x = some μ ∧
      (∀ ν : ℝ, normSquare ((matrix n n A).mulVec (vector n x) - μ • vector n x) ≤ normSquare ((matrix n n A).mulVec (vector n x) - ν • vector n x)) ∧
      ∀ ν : ℝ, (matrix n n A).mulVec (vector n x) = ν • vector n x → μ = ν := by
  set y := (matrix n n A).mulVec (vector n x) with hy
  have hpos : 0 < ∑ i, vector n x i ^ 2 := by
    obtain ⟨i, hi⟩ := Function.ne_iff.1 hx
    exact Finset.sum_pos' (fun i _ => sq_nonneg _) ⟨i, Finset.mem_univ _, by have : vector n x i ≠ 0 := hi; positivity⟩
  have e1 : sum 0 n (fun i => x i * x i) = ∑ i, vector n x i ^ 2 := by
    rw [sum_zero_eq, ← Fin.sum_univ_eq_sum_range (fun i => x i * x i) n]
    exact Finset.sum_congr rfl fun i _ => (sq _).symm
  have e2 : sum 0 n (fun i => x i * multiply n A x i) = ∑ i, vector n x i * y i := by
    rw [sum_zero_eq, ← Fin.sum_univ_eq_sum_range (fun i => x i * multiply n A x i) n]
    exact Finset.sum_congr rfl fun i _ => by rw [multiply_eq]; rfl
  have hexp : ∀ ν : ℝ, normSquare (y - ν • vector n x) = ∑ i, y i ^ 2 - 2 * ν * ∑ i, vector n x i * y i + ν ^ 2 * ∑ i, vector n x i ^ 2 := by
    intro ν
    unfold normSquare
    rw [Finset.mul_sum, Finset.mul_sum, ← Finset.sum_sub_distrib, ← Finset.sum_add_distrib]
    exact Finset.sum_congr rfl fun i _ => by rw [Pi.sub_apply, Pi.smul_apply, smul_eq_mul]; ring
  refine ⟨_, by unfold rayleighQuotient; rw [e1, e2, quotient_eq hpos.ne'], fun ν => ?_, fun ν hν => ?_⟩
  · rw [hexp, hexp]
    set a := ∑ i, vector n x i * y i
    set b := ∑ i, vector n x i ^ 2
    have hb : b ≠ 0 := hpos.ne'
    have : a = (a / b) * b := by field_simp
    have h2 : 0 ≤ b * (ν - a / b) ^ 2 := by positivity
    generalize a / b = q at this h2 ⊢
    rw [this]
    nlinarith
  · rw [div_eq_iff hpos.ne', hν, Finset.mul_sum]
    exact Finset.sum_congr rfl fun i _ => by rw [Pi.smul_apply, smul_eq_mul]; ring

theorem rayleighLoop_spec {A : Mat ℝ} {tolerance : ℝ} {L U : Mat ℝ} {y z : Vec ℝ} (left : ℕ) {x x' : Vec ℝ} {μ μ' : ℝ} (hx : ∑ i ∈ range n, x i ^ 2 = 1)
    (h : rayleighLoop n A tolerance L U y z left x μ = some (true, x', μ')) :
    ∑ i ∈ range n, x' i ^ 2 = 1 ∧ rayleighQuotient n A x' = some μ' ∧ √(normSquare ((matrix n n A).mulVec (vector n x') - μ' • vector n x')) < tolerance := by
  induction left generalizing x μ with
  | zero => simp [rayleighLoop] at h
  | succ left ih =>
    unfold rayleighLoop at h
    obtain ⟨ν, h1, h2⟩ := Option.bind_eq_some_iff.1 h
    dsimp only at h2
    set B : Mat ℝ := sweep 0 n (fun i (B : Mat ℝ) => B.set i i (B i i - ν)) A with hB
    have hBe : ∀ i j, B i j = if i < n ∧ i = j then A i j - ν else A i j := by
      have := sweep_inv (fun k (B : Mat ℝ) => ∀ i j, B i j = if i < k ∧ i = j then A i j - ν else A i j) 0 n
        (fun i (B : Mat ℝ) => B.set i i (B i i - ν)) (Nat.zero_le _) (fun k B _ hk hB i j => ?_) (s := A) (fun i j => by rw [if_neg (by omega)])
      · exact this
      · beta_reduce
        unfold Mat.set
        by_cases hc : i = k ∧ j = k
        · obtain ⟨rfl, rfl⟩ := hc
          rw [if_pos ⟨rfl, rfl⟩, if_pos ⟨by omega, rfl⟩, hB, if_neg (by omega)]
        · rw [if_neg hc, hB]
          by_cases hd : i < k ∧ i = j
          · rw [if_pos hd, if_pos ⟨by omega, hd.2⟩]
          · rw [if_neg hd, if_neg (by omega)]
    by_cases hr : √(sum 0 n fun i => multiply n B x i ^ 2) < tolerance
    · rw [if_pos hr] at h2
      simp only [Option.some.injEq, Prod.mk.injEq, true_and] at h2
      obtain ⟨rfl, rfl⟩ := h2
      refine ⟨hx, h1, ?_⟩
      have e : normSquare ((matrix n n A).mulVec (vector n x) - ν • vector n x) = sum 0 n fun i => multiply n B x i ^ 2 := by
        rw [sum_zero_eq, ← Fin.sum_univ_eq_sum_range (fun i => multiply n B x i ^ 2) n]
        unfold normSquare
        refine Finset.sum_congr rfl fun i _ => ?_
        congr 1
        rw [multiply_eq]
        have hBm : matrix n n B = matrix n n A - ν • (1 : Matrix (Fin n) (Fin n) ℝ) := by
          ext i j
          rw [Matrix.sub_apply, Matrix.smul_apply, Matrix.one_apply]
          show B i j = A i j - ν • _
          rw [hBe]
          by_cases hij : i = j
          · subst hij
            rw [if_pos ⟨i.2, rfl⟩, if_pos rfl, smul_eq_mul, mul_one]
          · rw [if_neg (fun hc => hij (Fin.ext hc.2)), if_neg hij, smul_zero, sub_zero]
        rw [hBm, Matrix.sub_mulVec, Matrix.smul_mulVec, Matrix.one_mulVec]
      rw [e]
      exact hr
    · rw [if_neg hr] at h2
      obtain ⟨z', h3, h4⟩ := Option.bind_eq_some_iff.1 h2
      obtain ⟨x'', h5, h6⟩ := Option.bind_eq_some_iff.1 h4
      exact ih (normalize_unit h5) h6

/-- C75.  When the iteration of Rayleigh's quotient converges, it yields a unit vector, and a number that is an eigenvalue up to a tolerance of 2⁻⁵¹.  If the matrix is symmetric, it has
an eigenvalue within that tolerance of that number. -/
theorem C75_rayleigh {A L U : Mat ℝ} {x y z eigenvector : Vec ℝ} {eigenvalue : ℝ} (h : rayleighQuotientIteration n A x L U y z = some (true, eigenvector, eigenvalue)) :
    normSquare (vector n eigenvector) = 1 ∧ rayleighQuotient n A eigenvector = some eigenvalue ∧
      √(normSquare ((matrix n n A).mulVec (vector n eigenvector) - eigenvalue • vector n eigenvector)) < 1 / 2 ^ 51 ∧
      ((matrix n n A).transpose = matrix n n A → ∃ μ, IsEigenvalue (matrix n n A) μ ∧ |μ - eigenvalue| < 1 / 2 ^ 51) := by
  unfold rayleighQuotientIteration at h
  obtain ⟨x', h1, h2⟩ := Option.bind_eq_some_iff.1 h
  obtain ⟨g1, g2, g3⟩ := rayleighLoop_spec 10 (normalize_unit h1) h2
  have hu : normSquare (vector n eigenvector) = 1 := by
    rw [← Fin.sum_univ_eq_sum_range (fun i => eigenvector i ^ 2) n] at g1
    exact g1
  have ht : (2 * (1 / 2 ^ 52) : ℝ) = 1 / 2 ^ 51 := by norm_num
  rw [ht] at g3
  refine ⟨hu, g2, g3, fun hA => ?_⟩
  obtain ⟨μ, h3, h4⟩ := near_eigenvalue hA hu eigenvalue
  refine ⟨μ, h3, lt_of_le_of_lt ?_ g3⟩
  rw [← Real.sqrt_sq_eq_abs]
  exact Real.sqrt_le_sqrt h4

/-- The hypotheses are met by a matrix with a single element. -/
example : ∃ x' μ, rayleighQuotientIteration 1 (fun _ _ => 7) (fun _ => 1) (fun _ _ => 0) (fun _ _ => 0) (fun _ => 0) (fun _ => 0) = some (true, x', μ) := by
  refine ⟨fun _ => 1, 7, ?_⟩
  unfold rayleighQuotientIteration
  have h1 : normalize 1 (fun _ => 1) = some fun _ => 1 := by
    unfold normalize
    simp [sum_zero_eq]
  rw [h1, Option.bind_some, rayleighLoop]
  have h2 : rayleighQuotient 1 (fun _ _ => 7) (fun _ => 1) = some 7 := by
    unfold rayleighQuotient
    rw [quotient_eq (by simp [sum_zero_eq])]
    simp [sum_zero_eq, multiply]
  rw [h2, Option.bind_some]
  dsimp only
  rw [if_pos]
  have : sweep 0 1 (fun i (B : Mat ℝ) => B.set i i (B i i - 7)) (fun _ _ => 7) = Mat.set (fun _ _ => 7) 0 0 0 := by
    simp [sweep]
  rw [this]
  simp [sum_zero_eq, multiply, Mat.set]

end Principia.Numerics.Matrices
