import Verif.Numerics.LatticeModel
import Verif.Numerics.LatticeSpec
import Verif.Numerics.MatrixProps
import Mathlib.LinearAlgebra.Matrix.Determinant.Basic
import Mathlib.LinearAlgebra.Matrix.Block
import Mathlib.LinearAlgebra.Matrix.ToLinearEquiv

/-!
The orthogonalization of a basis, how it changes when the basis changes, and Gram determinants.
-/

set_option linter.unusedSimpArgs false
set_option linter.unusedVariables false
set_option linter.unusedSectionVars false

namespace Principia.Numerics.Lattices

open Principia.Numerics.Matrices Finset

variable {K : Type} [Field K] [LinearOrder K] [IsStrictOrderedRing K]

/-- The orthogonalizations computed by the algorithm: the coefficients for vectors that are zero are zero. -/
structure GS (m n : ℕ) (A : Mat K) (s : Mat K × Mat K) : Prop extends Orthogonalized m A n s where
  zero : ∀ i j, i < j → j < n → columnProduct m s.1 s.1 i i = 0 → s.2 i j = 0

/-- The elements computed in an iteration are not changed by the next ones, and in particular the coefficients. -/
theorem unitriangularGramSchmidt_zero (m n : ℕ) (A Q R : Mat K) :
    ∀ i j, i < j → j < n → columnProduct m (unitriangularGramSchmidt m n A Q R).1 (unitriangularGramSchmidt m n A Q R).1 i i = 0 → (unitriangularGramSchmidt m n A Q R).2 i j = 0 := by
  refine sweep_inv (fun p (s : Mat K × Mat K) => ∀ i j, i < j → j < p → columnProduct m s.1 s.1 i i = 0 → s.2 i j = 0) 0 n _ (Nat.zero_le _) (fun p s _ hp h => ?_) (fun i j _ hj => by omega)
  intro i j hij hj
  simp only
  have hQ : ∀ l q, q ≠ p → sweep 0 p (fun k (Q : Mat K) => sweep 0 m (fun l (Q' : Mat K) => Q'.set l p (Q l p -
      (sweep 0 p (fun i (R : Mat K) => if (sum 0 m fun l => s.1 l i * s.1 l i) = 0 then R.set i p 0 else R.set i p ((sum 0 m fun l => s.1 l i * A l p) / (sum 0 m fun l => s.1 l i * s.1 l i))) s.2) k p
      * Q l k)) Q) (sweep 0 m (fun l (Q : Mat K) => Q.set l p (A l p)) s.1) l q = s.1 l q := by
    intro l q hq
    rw [project_column _ (fun k => (sweep 0 p (fun i (R : Mat K) => if (sum 0 m fun l => s.1 l i * s.1 l i) = 0 then R.set i p 0 else
      R.set i p ((sum 0 m fun l => s.1 l i * A l p) / (sum 0 m fun l => s.1 l i * s.1 l i))) s.2) k p), if_neg (fun hc => hq hc.2), copy_column, if_neg (fun hc => hq hc.2)]
  intro h0
  have h1 : columnProduct m s.1 s.1 i i = 0 := by
    rw [← h0]
    exact Finset.sum_congr rfl fun l _ => by rw [hQ l i (by omega)]
  have he : (fun i (R : Mat K) => if (sum 0 m fun l => s.1 l i * s.1 l i) = 0 then R.set i p 0 else R.set i p ((sum 0 m fun l => s.1 l i * A l p) / (sum 0 m fun l => s.1 l i * s.1 l i))) =
      fun i (R : Mat K) => R.set i p (if columnProduct m s.1 s.1 i i = 0 then 0 else columnProduct m s.1 A i p / columnProduct m s.1 s.1 i i) := by
    funext i R
    simp only [sum_zero_eq]
    unfold columnProduct
    split_ifs <;> rfl
  rw [Mat.set_ne _ _ (by omega), he, copy_column]
  by_cases hc : i < p ∧ j = p
  · rw [if_pos hc, if_pos h1]
  · rw [if_neg hc]
    exact h i j hij (by omega) h1

theorem unitriangularGramSchmidt_gs (m n : ℕ) (A Q R : Mat K) : GS m n A (unitriangularGramSchmidt m n A Q R) :=
  ⟨unitriangularGramSchmidt_spec m n A Q R, unitriangularGramSchmidt_zero m n A Q R⟩

/-- The norms of the orthogonal columns. -/
abbrev squares (m : ℕ) (Q : Mat K) (j : ℕ) : K := columnProduct m Q Q j j

theorem squares_nonneg (m : ℕ) (Q : Mat K) (j : ℕ) : 0 ≤ squares m Q j := Finset.sum_nonneg fun l _ => mul_self_nonneg _

theorem columnProduct_comm (m : ℕ) (A B : Mat K) (p q : ℕ) : columnProduct m A B p q = columnProduct m B A q p := Finset.sum_congr rfl fun l _ => mul_comm _ _

/-- Two vectors that differ from the same one by combinations of orthogonal ones, and are orthogonal to them, are the same. -/
theorem projection_unique {m k : ℕ} {Q : Mat K} {a w w' : Vec K} {c c' : Vec K} (hw : ∀ l < m, w l = a l - ∑ i ∈ range k, c i * Q l i)
    (hw' : ∀ l < m, w' l = a l - ∑ i ∈ range k, c' i * Q l i) (h : ∀ i < k, ∑ l ∈ range m, Q l i * w l = 0) (h' : ∀ i < k, ∑ l ∈ range m, Q l i * w' l = 0) : ∀ l < m, w l = w' l := by
  have hd : ∀ l < m, w l - w' l = ∑ i ∈ range k, (c' i - c i) * Q l i := by
    intro l hl
    rw [hw l hl, hw' l hl]
    simp only [sub_mul, Finset.sum_sub_distrib]
    ring
  have h0 : ∑ l ∈ range m, (w l - w' l) * (w l - w' l) = 0 := by
    have h1 : ∀ l ∈ range m, (w l - w' l) * (w l - w' l) = ∑ i ∈ range k, (c' i - c i) * (Q l i * w l - Q l i * w' l) := by
      intro l hl
      rw [Finset.mem_range] at hl
      conv_lhs => rw [hd l hl]
      rw [Finset.mul_sum]
      refine Finset.sum_congr rfl fun i _ => ?_
      rw [← hd l hl]
      ring
    rw [Finset.sum_congr rfl h1, Finset.sum_comm]
    refine Finset.sum_eq_zero fun i hi => ?_
    rw [Finset.mem_range] at hi
    rw [← Finset.mul_sum, Finset.sum_sub_distrib, h i hi, h' i hi, sub_zero, mul_zero]
  intro l hl
  have := (Finset.sum_eq_zero_iff_of_nonneg (fun l _ => mul_self_nonneg (w l - w' l))).1 h0 l (Finset.mem_range.2 hl)
  exact sub_eq_zero.1 (mul_self_eq_zero.1 this)

namespace GS

variable {m n : ℕ} {A A' : Mat K} {s s' : Mat K × Mat K}

theorem column (h : GS m n A s) {l q : ℕ} (hl : l < m) (hq : q < n) : s.1 l q = A l q - ∑ i ∈ range q, s.2 i q * s.1 l i := by
  rw [h.elements l q hl hq, Finset.sum_congr rfl (g := fun i => s.2 i q * s.1 l i) fun i _ => mul_comm _ _]
  ring

/-- The scalar product of an orthogonal column and of a column of the matrix. -/
theorem product (h : GS m n A s) {i j : ℕ} (hi : i < n) (hj : j < n) :
    columnProduct m s.1 A i j = if i < j then s.2 i j * squares m s.1 i else if i = j then squares m s.1 i else 0 := by
  have h1 : columnProduct m s.1 A i j = ∑ k ∈ range j, s.2 k j * columnProduct m s.1 s.1 i k + columnProduct m s.1 s.1 i j := by
    unfold columnProduct
    have : ∀ l ∈ range m, s.1 l i * A l j = ∑ k ∈ range j, s.2 k j * (s.1 l i * s.1 l k) + s.1 l i * s.1 l j := by
      intro l hl
      rw [Finset.mem_range] at hl
      rw [h.elements l j hl hj, mul_add, Finset.mul_sum]
      congr 1
      exact Finset.sum_congr rfl fun k _ => by ring
    rw [Finset.sum_congr rfl this, Finset.sum_add_distrib, Finset.sum_comm]
    congr 1
    exact Finset.sum_congr rfl fun k _ => by rw [Finset.mul_sum]
  rw [h1]
  by_cases hij : i < j
  · rw [if_pos hij, h.orthogonal i j hi hj (by omega), add_zero, Finset.sum_eq_single i (fun k hk hne => by rw [Finset.mem_range] at hk; rw [h.orthogonal i k hi (by omega) (Ne.symm hne), mul_zero])
      (fun hn => absurd (Finset.mem_range.2 hij) hn)]
  · rw [if_neg hij, Finset.sum_eq_zero (fun k hk => by rw [Finset.mem_range] at hk; rw [h.orthogonal i k hi (by omega) (by omega), mul_zero]), zero_add]
    by_cases he : i = j
    · rw [if_pos he, he]
    · rw [if_neg he]
      exact h.orthogonal i j hi hj he

/-- The orthogonal columns are not changed when combinations of the previous ones are added to the columns. -/
theorem same_columns (h : GS m n A s) (h' : GS m n A' s') {c : ℕ} (hc : c ≤ n) (hA : ∀ q < c, ∃ e : Vec K, ∀ l < m, A' l q = A l q - ∑ i ∈ range q, e i * s.1 l i) :
    ∀ q < c, ∀ l < m, s'.1 l q = s.1 l q := by
  intro q
  induction q using Nat.strong_induction_on with
  | _ q ih =>
    intro hq
    obtain ⟨e, he⟩ := hA q hq
    have hs : ∀ i < q, ∀ l < m, s'.1 l i = s.1 l i := fun i hi => ih i hi (by omega)
    refine projection_unique (Q := s.1) (k := q) (a := fun l => A l q) (c := fun i => s'.2 i q + e i) (c' := fun i => s.2 i q) (fun l hl => ?_) (fun l hl => h.column hl (by omega)) (fun i hi => ?_)
      (fun i hi => h.orthogonal i q (by omega) (by omega) (by omega))
    · have hsum : ∑ i ∈ range q, s'.2 i q * s'.1 l i = ∑ i ∈ range q, s'.2 i q * s.1 l i := Finset.sum_congr rfl fun i hi => by rw [Finset.mem_range] at hi; rw [hs i hi l hl]
      rw [h'.column hl (by omega), he l hl, hsum]
      simp only [add_mul, Finset.sum_add_distrib]
      ring
    · rw [← h'.orthogonal i q (by omega) (by omega) (by omega)]
      exact Finset.sum_congr rfl fun l hl => by rw [Finset.mem_range] at hl; rw [hs i hi l hl]

/-- The coefficients are determined by the products. -/
theorem coefficient (h : GS m n A s) {i j : ℕ} (hij : i < j) (hj : j < n) : s.2 i j = if squares m s.1 i = 0 then 0 else columnProduct m s.1 A i j / squares m s.1 i := by
  by_cases h0 : squares m s.1 i = 0
  · rw [if_pos h0]; exact h.zero i j hij hj h0
  · rw [if_neg h0, h.product (by omega) hj, if_pos hij, mul_div_assoc, div_self h0, mul_one]

/-- The first columns of the results only depend on the first columns of the matrix. -/
theorem prefix_columns (h : GS m n A s) (h' : GS m n A' s') {c : ℕ} (hc : c ≤ n) (hA : ∀ q < c, ∀ l < m, A' l q = A l q) :
    (∀ q < c, ∀ l < m, s'.1 l q = s.1 l q) ∧ ∀ i j, i < j → j < c → s'.2 i j = s.2 i j := by
  have h1 := h.same_columns h' hc (fun q hq => ⟨fun _ => 0, fun l hl => by rw [hA q hq l hl]; simp⟩)
  refine ⟨h1, fun i j hij hj => ?_⟩
  have h2 : squares m s'.1 i = squares m s.1 i := Finset.sum_congr rfl fun l hl => by rw [Finset.mem_range] at hl; rw [h1 i (by omega) l hl]
  have h3 : columnProduct m s'.1 A' i j = columnProduct m s.1 A i j := Finset.sum_congr rfl fun l hl => by rw [Finset.mem_range] at hl; rw [h1 i (by omega) l hl, hA j hj l hl]
  rw [h'.coefficient hij (by omega), h.coefficient hij (by omega), h2, h3]

/-- A multiple of a previous column is subtracted from a column. -/
theorem subtract (h : GS m n A s) (h' : GS m n A' s') {k j : ℕ} {x : K} (hj : j < k) (hk : k < n) (hA : ∀ l q, l < m → q < n → A' l q = if q = k then A l k - x * A l j else A l q) :
    (∀ q < n, ∀ l < m, s'.1 l q = s.1 l q) ∧ (∀ p q, p < q → q < n → q ≠ k → s'.2 p q = s.2 p q) ∧ (∀ i, j < i → i < k → s'.2 i k = s.2 i k) ∧
      (squares m s.1 j ≠ 0 → s'.2 j k = s.2 j k - x) ∧ (squares m s.1 j = 0 → s'.2 j k = 0) := by
  have h1 : ∀ q < n, ∀ l < m, s'.1 l q = s.1 l q := by
    refine h.same_columns h' (le_refl n) fun q hq => ?_
    by_cases hqk : q = k
    · subst hqk
      refine ⟨fun i => if i < j then x * s.2 i j else if i = j then x else 0, fun l hl => ?_⟩
      rw [hA l q hl hq, if_pos rfl, h.elements l j hl (by omega)]
      congr 1
      rw [mul_add, Finset.mul_sum]
      obtain ⟨d, rfl⟩ := Nat.exists_eq_add_of_lt hj
      rw [show j + d + 1 = (j + 1) + d by omega, Finset.sum_range_add, Finset.sum_range_succ]
      beta_reduce
      rw [if_neg (lt_irrefl j), if_pos rfl]
      rw [Finset.sum_eq_zero (s := range d) (fun i _ => by rw [if_neg (by omega), if_neg (by omega), zero_mul]), add_zero]
      congr 1
      exact Finset.sum_congr rfl fun i hi => by rw [Finset.mem_range] at hi; rw [if_pos hi]; ring
    · exact ⟨fun _ => 0, fun l hl => by rw [hA l q hl hq, if_neg hqk]; simp⟩
  have h2 : ∀ i < n, squares m s'.1 i = squares m s.1 i := fun i hi => Finset.sum_congr rfl fun l hl => by rw [Finset.mem_range] at hl; rw [h1 i hi l hl]
  have h3 : ∀ i < n, columnProduct m s'.1 A' i k = columnProduct m s.1 A i k - x * columnProduct m s.1 A i j := by
    intro i hi
    unfold columnProduct
    rw [Finset.mul_sum, ← Finset.sum_sub_distrib]
    exact Finset.sum_congr rfl fun l hl => by rw [Finset.mem_range] at hl; rw [h1 i hi l hl, hA l k hl hk, if_pos rfl]; ring
  refine ⟨h1, fun p q hpq hq hqk => ?_, fun i hji hik => ?_, fun h0 => ?_, fun h0 => ?_⟩
  · have h4 : columnProduct m s'.1 A' p q = columnProduct m s.1 A p q := Finset.sum_congr rfl fun l hl => by
      rw [Finset.mem_range] at hl; rw [h1 p (by omega) l hl, hA l q hl hq, if_neg hqk]
    rw [h'.coefficient hpq hq, h.coefficient hpq hq, h2 p (by omega), h4]
  · have hp : columnProduct m s.1 A i j = 0 := by rw [h.product (by omega) (by omega), if_neg (by omega), if_neg (by omega)]
    rw [h'.coefficient hik hk, h.coefficient hik hk, h2 i (by omega), h3 i (by omega), hp, mul_zero, sub_zero]
  · have hp : columnProduct m s.1 A j j = squares m s.1 j := by rw [h.product (by omega) (by omega), if_neg (by omega), if_pos rfl]
    rw [h'.coefficient hj hk, h.coefficient hj hk, h2 j (by omega), h3 j (by omega), if_neg h0, if_neg h0, hp]
    field_simp
  · rw [h'.coefficient hj hk, h2 j (by omega), if_pos h0]

/-- Two consecutive columns are exchanged. -/
theorem swap (h : GS m n A s) (h' : GS m n A' s') {k : ℕ} (hk0 : 0 < k) (hk : k < n)
    (hA : ∀ l q, l < m → q < n → A' l q = if q = k - 1 then A l k else if q = k then A l (k - 1) else A l q) :
    (∀ q < k - 1, ∀ l < m, s'.1 l q = s.1 l q) ∧ (∀ i j, i < j → j < k - 1 → s'.2 i j = s.2 i j) ∧ squares m s'.1 (k - 1) = squares m s.1 k + s.2 (k - 1) k ^ 2 * squares m s.1 (k - 1) := by
  obtain ⟨h1, h2⟩ := h.prefix_columns h' (c := k - 1) (by omega) (fun q hq l hl => by rw [hA l q hl (by omega), if_neg (by omega), if_neg (by omega)])
  refine ⟨h1, h2, ?_⟩
  have h3 : ∀ l < m, s'.1 l (k - 1) = s.1 l k + s.2 (k - 1) k * s.1 l (k - 1) := by
    refine projection_unique (Q := s.1) (k := k - 1) (a := fun l => A l k) (c := fun i => s'.2 i (k - 1)) (c' := fun i => s.2 i k) (fun l hl => ?_) (fun l hl => ?_) (fun i hi => ?_) (fun i hi => ?_)
    · rw [h'.column hl (by omega), hA l _ hl (by omega), if_pos rfl]
      congr 1
      exact Finset.sum_congr rfl fun i hi => by rw [Finset.mem_range] at hi; rw [h1 i hi l hl]
    · have := h.column hl hk
      rw [show k = (k - 1) + 1 by omega, Finset.sum_range_succ, show (k - 1) + 1 = k by omega] at this
      rw [this]
      ring
    · rw [← h'.orthogonal i (k - 1) (by omega) (by omega) (by omega)]
      exact Finset.sum_congr rfl fun l hl => by rw [Finset.mem_range] at hl; rw [h1 i hi l hl]
    · have h4 := h.orthogonal i k (by omega) hk (by omega)
      have h5 := h.orthogonal i (k - 1) (by omega) (by omega) (by omega)
      unfold columnProduct at h4 h5
      rw [Finset.sum_congr rfl (g := fun l => s.1 l i * s.1 l k + s.2 (k - 1) k * (s.1 l i * s.1 l (k - 1))) (fun l _ => by ring), Finset.sum_add_distrib, ← Finset.mul_sum, h4, h5]
      ring
  have h6 := h.orthogonal (k - 1) k (by omega) hk (by omega)
  have h7 : squares m s'.1 (k - 1) = ∑ l ∈ range m, (s.1 l k * s.1 l k + 2 * s.2 (k - 1) k * (s.1 l (k - 1) * s.1 l k) + s.2 (k - 1) k ^ 2 * (s.1 l (k - 1) * s.1 l (k - 1))) :=
    Finset.sum_congr rfl fun l hl => by rw [Finset.mem_range] at hl; rw [h3 l hl]; ring
  rw [h7, Finset.sum_add_distrib, Finset.sum_add_distrib, ← Finset.mul_sum, ← Finset.mul_sum]
  change columnProduct m s.1 s.1 k k + 2 * s.2 (k - 1) k * columnProduct m s.1 s.1 (k - 1) k + s.2 (k - 1) k ^ 2 * columnProduct m s.1 s.1 (k - 1) (k - 1) = _
  rw [h6]
  ring

end GS

/-! ## Gram determinants -/

/-- The Gram matrix of the first columns. -/
def gram (m i : ℕ) (A : Mat K) : Matrix (Fin i) (Fin i) K := (matrix m i A).transpose * matrix m i A

theorem gram_apply (m i : ℕ) (A : Mat K) (p q : Fin i) : gram m i A p q = columnProduct m A A p q := by
  unfold gram
  rw [Matrix.mul_apply]
  unfold matrix columnProduct
  simp only [Matrix.transpose_apply, Matrix.of_apply]
  exact Fin.sum_univ_eq_sum_range (fun l => A l p * A l q) m

theorem det_gram {m n i : ℕ} {A : Mat K} {s : Mat K × Mat K} (h : GS m n A s) (hi : i ≤ n) : (gram m i A).det = ∏ j ∈ range i, squares m s.1 j := by
  have h1 : matrix m i s.1 * upper i s.2 = matrix m i A := by
    ext l q
    rw [Matrix.mul_apply]
    unfold matrix upper
    simp only [Matrix.of_apply, Fin.le_def]
    rw [sum_fin (m := (q : ℕ) + 1) (by omega) (fun k => s.1 l k * (if k ≤ (q : ℕ) then s.2 k q else 0)) (fun k hk hkn => by rw [if_neg (by omega), mul_zero]), h.elements l q l.2 (by omega),
      Finset.sum_range_succ, if_pos (le_refl _), h.unit q (by omega), mul_one]
    congr 1
    exact Finset.sum_congr rfl fun k hk => by rw [Finset.mem_range] at hk; rw [if_pos (by omega)]
  have h2 : (matrix m i s.1).transpose * matrix m i s.1 = Matrix.diagonal fun j : Fin i => squares m s.1 j := by
    ext p q
    have := gram_apply m i s.1 p q
    unfold gram at this
    rw [this, Matrix.diagonal_apply]
    by_cases hpq : p = q
    · rw [if_pos hpq, hpq]
    · rw [if_neg hpq]
      exact h.orthogonal p q (by omega) (by omega) (fun he => hpq (Fin.ext he))
  have h3 : (upper i s.2).det = 1 := by
    rw [Matrix.det_of_upperTriangular (fun p q hpq => by
      unfold upper
      simp only [id] at hpq
      rw [Matrix.of_apply, if_neg (by omega)])]
    refine Finset.prod_eq_one fun j _ => ?_
    unfold upper
    rw [Matrix.of_apply, if_pos (le_refl _)]
    exact h.unit j (by omega)
  unfold gram
  rw [← h1, Matrix.transpose_mul, Matrix.mul_assoc, ← Matrix.mul_assoc _ _ (upper i s.2), h2, Matrix.det_mul, Matrix.det_mul, Matrix.det_transpose, h3, Matrix.det_diagonal, mul_one, one_mul]
  exact Fin.prod_univ_eq_prod_range (fun j => squares m s.1 j) i

theorem det_gram_integral {m i : ℕ} {A : Mat K} (h : ∀ l q, l < m → q < i → ∃ z : ℤ, A l q = z) : ∃ z : ℤ, (gram m i A).det = z := by
  choose! a ha using h
  refine ⟨(((Matrix.of fun (p q : Fin i) => ∑ l ∈ range m, a l p * a l q)) : Matrix (Fin i) (Fin i) ℤ).det, ?_⟩
  change (gram m i A).det = (Int.castRingHom K) _
  rw [RingHom.map_det]
  congr 1
  ext p q
  rw [gram_apply]
  unfold columnProduct
  rw [RingHom.mapMatrix_apply, Matrix.map_apply, Matrix.of_apply]
  rw [Int.coe_castRingHom]
  beta_reduce
  rw [Int.cast_sum]
  refine Finset.sum_congr rfl fun l hl => ?_
  rw [Finset.mem_range] at hl
  rw [ha l p hl p.2, ha l q hl q.2, Int.cast_mul]

/-- Exchanging columns does not change the Gram determinants that involve both or none of them. -/
theorem det_gram_swap {m n i k : ℕ} {A A' : Mat K} (hk : k < n) (hk0 : 0 < k) (hi : i ≤ n) (hik : i ≠ k)
    (hA : ∀ l q, l < m → q < n → A' l q = if q = k - 1 then A l k else if q = k then A l (k - 1) else A l q) : (gram m i A').det = (gram m i A).det := by
  rcases Nat.lt_or_gt_of_ne hik with hlt | hgt
  · congr 1
    ext p q
    rw [gram_apply, gram_apply]
    refine Finset.sum_congr rfl fun l hl => ?_
    rw [Finset.mem_range] at hl
    rw [hA l p hl (by omega), hA l q hl (by omega), if_neg (by omega), if_neg (by omega), if_neg (by omega), if_neg (by omega)]
  · have h1 : gram m i A' = (gram m i A).submatrix (Equiv.swap (⟨k - 1, by omega⟩ : Fin i) ⟨k, hgt⟩) (Equiv.swap (⟨k - 1, by omega⟩ : Fin i) ⟨k, hgt⟩) := by
      have h2 : ∀ (l : ℕ) (q : Fin i), l < m → A' l q = A l (Equiv.swap (⟨k - 1, by omega⟩ : Fin i) ⟨k, hgt⟩ q) := by
        intro l q hl
        rw [hA l q hl (by omega)]
        by_cases h1 : (q : ℕ) = k - 1
        · rw [if_pos h1, show q = ⟨k - 1, by omega⟩ from Fin.ext h1, Equiv.swap_apply_left]
        · rw [if_neg h1]
          by_cases h2 : (q : ℕ) = k
          · rw [if_pos h2, show q = ⟨k, hgt⟩ from Fin.ext h2, Equiv.swap_apply_right]
          · rw [if_neg h2, Equiv.swap_apply_of_ne_of_ne (fun he => h1 (congrArg Fin.val he)) (fun he => h2 (congrArg Fin.val he))]
      ext p q
      rw [Matrix.submatrix_apply, gram_apply, gram_apply]
      refine Finset.sum_congr rfl fun l hl => ?_
      rw [Finset.mem_range] at hl
      rw [h2 l p hl, h2 l q hl]
    rw [h1, Matrix.det_submatrix_equiv_self]

theorem det_gram_ne_zero {m n : ℕ} {A : Mat K} (h : Independent (matrix m n A)) : (gram m n A).det ≠ 0 := by
  intro h0
  obtain ⟨x, hx, hx0⟩ := Matrix.exists_mulVec_eq_zero_iff.2 h0
  refine hx (h x ?_)
  unfold gram at hx0
  rw [← Matrix.mulVec_mulVec] at hx0
  have h1 : dotProduct (Matrix.mulVec (matrix m n A) x) (Matrix.mulVec (matrix m n A) x) = 0 := by
    rw [Matrix.dotProduct_mulVec, ← Matrix.mulVec_transpose, hx0, zero_dotProduct]
  funext i
  have := (Finset.sum_eq_zero_iff_of_nonneg (fun l _ => mul_self_nonneg (Matrix.mulVec (matrix m n A) x l))).1 h1 i (Finset.mem_univ i)
  exact mul_self_eq_zero.1 this

end Principia.Numerics.Lattices
