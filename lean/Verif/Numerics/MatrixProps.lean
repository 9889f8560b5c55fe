import Verif.Numerics.MatrixSymmetric
import Verif.Numerics.MatrixSolve
import Verif.Numerics.MatrixGramSchmidt
import Mathlib.LinearAlgebra.Matrix.Notation
import Mathlib.LinearAlgebra.Matrix.IsDiag
import Mathlib.Tactic.Linarith
import Mathlib.Tactic.FieldSimp
import Mathlib.Tactic.LinearCombination
import Mathlib.Tactic.ByContra
import Mathlib.Tactic.FinCases
import Mathlib.Tactic.NormNum

/-!
C73: the decompositions of matrices and the resolution of linear systems.
-/

set_option linter.unusedSimpArgs false
set_option linter.unusedVariables false
set_option linter.unusedSectionVars false

namespace Principia.Numerics.Matrices

open Finset

/-! ## From arrays to matrices -/

theorem sum_fin {M : Type} [AddCommMonoid M] {n m : ℕ} (h : m ≤ n) (f : ℕ → M) (h0 : ∀ k, m ≤ k → k < n → f k = 0) : ∑ k : Fin n, f k = ∑ k ∈ range m, f k := by
  rw [Fin.sum_univ_eq_sum_range]
  refine (Finset.sum_subset (fun k hk => ?_) (fun k hk hn => ?_)).symm
  · rw [Finset.mem_range] at hk ⊢; omega
  · rw [Finset.mem_range] at hk hn; exact h0 k (by omega) hk

theorem loop_congr {σ : Type} {lo hi : ℕ} {f g : ℕ → σ → Option σ} (s : σ) (h : ∀ i s, lo ≤ i → i < hi → f i s = g i s) : loop lo hi f s = loop lo hi g s := by
  unfold loop
  have : ∀ (l : List ℕ) (s : σ), (∀ i ∈ l, ∀ s, f i s = g i s) → l.foldlM (fun s i => f i s) s = l.foldlM (fun s i => g i s) s := by
    intro l
    induction l with
    | nil => intro s _; rfl
    | cons i l ih =>
      intro s hl
      rw [List.foldlM_cons, List.foldlM_cons, hl i (List.mem_cons_self) s]
      congr 1
      funext s'
      exact ih s' fun i hi => hl i (List.mem_cons_of_mem _ hi)
  exact this _ s fun i hi s => h i s (by rw [List.mem_range'_1] at hi; omega) (by rw [List.mem_range'_1] at hi; omega)

/-- The array of a matrix. -/
def array {K : Type} [Zero K] {n : ℕ} (S : Matrix (Fin n) (Fin n) K) : Mat K := fun i j => if h : i < n ∧ j < n then S ⟨i, h.1⟩ ⟨j, h.2⟩ else 0

section Field

variable {K : Type} [Field K] [LinearOrder K]

theorem array_eq {n : ℕ} (S : Matrix (Fin n) (Fin n) K) (i j : Fin n) : array S i j = S i j := by
  unfold array
  rw [dif_pos ⟨i.2, j.2⟩]

theorem array_upper {n : ℕ} {A : Mat K} {S : Matrix (Fin n) (Fin n) K} (h : UpperHalf A S) (i j : ℕ) (hij : i ≤ j) (hj : j < n) : array S i j = A i j := by
  rw [h.2 ⟨i, by omega⟩ ⟨j, hj⟩ hij]
  exact array_eq S ⟨i, by omega⟩ ⟨j, hj⟩

theorem array_symmetric {n : ℕ} {A : Mat K} {S : Matrix (Fin n) (Fin n) K} (h : UpperHalf A S) (i j : ℕ) (hi : i < n) (hj : j < n) : array S i j = array S j i := by
  have h1 := array_eq S ⟨i, hi⟩ ⟨j, hj⟩
  have h2 := array_eq S ⟨j, hj⟩ ⟨i, hi⟩
  have h3 := congrFun (congrFun h.1 ⟨i, hi⟩) ⟨j, hj⟩
  rw [Matrix.transpose_apply] at h3
  simp only at h1 h2
  rw [h1, h2, h3]

theorem array_positive {n : ℕ} {S : Matrix (Fin n) (Fin n) K} (h : PositiveDefinite S) (x : ℕ → K) (hx : ∃ i < n, x i ≠ 0) :
    0 < ∑ p ∈ range n, ∑ q ∈ range n, x p * array S p q * x q := by
  have h1 := h (fun i => x i) (fun h0 => by
    obtain ⟨i, hi, hne⟩ := hx
    exact hne (congrFun h0 ⟨i, hi⟩))
  have h2 : dotProduct (fun i : Fin n => x i) (Matrix.mulVec S fun i : Fin n => x i) = ∑ p ∈ range n, ∑ q ∈ range n, x p * array S p q * x q := by
    rw [← Fin.sum_univ_eq_sum_range (fun p => ∑ q ∈ range n, x p * array S p q * x q)]
    refine Finset.sum_congr rfl fun i _ => ?_
    simp only
    rw [← Fin.sum_univ_eq_sum_range (fun q => x i * array S i q * x q)]
    rw [Matrix.mulVec, dotProduct, Finset.mul_sum]
    exact Finset.sum_congr rfl fun j _ => by rw [array_eq]; ring
  rw [← h2]
  exact h1

/-- The elements of a product `ᵗR D R`. -/
theorem upper_product {n : ℕ} {A R : Mat K} {D : Vec K} {S : Matrix (Fin n) (Fin n) K} (hA : UpperHalf A S)
    (h : ∀ p q, p ≤ q → q < n → A p q = ∑ k ∈ range (p + 1), R k p * R k q * D k) : (upper n R).transpose * Matrix.diagonal (vector n D) * upper n R = S := by
  have hle : ∀ i j : Fin n, i ≤ j → ((upper n R).transpose * Matrix.diagonal (vector n D) * upper n R) i j = S i j ∧
      ((upper n R).transpose * Matrix.diagonal (vector n D) * upper n R) j i = S i j := by
    intro i j hij
    have hs : ∑ k : Fin n, R k i * R k j * D k * (if k ≤ i then 1 else 0) = S i j := by
      have h1 : ∀ k : Fin n, k ≤ i ↔ (k : ℕ) ≤ i := fun k => Iff.rfl
      simp only [h1]
      rw [sum_fin (m := (i : ℕ) + 1) (by omega) (fun k => R k i * R k j * D k * (if k ≤ (i : ℕ) then 1 else 0)) (fun k hk hkn => by rw [if_neg (by omega), mul_zero]), ← hA.2 i j hij, h i j hij j.2]
      refine Finset.sum_congr rfl fun k hk => ?_
      rw [Finset.mem_range] at hk
      rw [if_pos (by omega), mul_one]
    refine ⟨?_, ?_⟩
    · rw [← hs, Matrix.mul_apply]
      refine Finset.sum_congr rfl fun k _ => ?_
      rw [Matrix.mul_diagonal, Matrix.transpose_apply]
      unfold upper vector
      simp only [Matrix.of_apply]
      by_cases hk : k ≤ i
      · rw [if_pos hk, if_pos hk, if_pos (le_trans hk hij)]; ring
      · rw [if_neg hk, if_neg hk]; ring
    · rw [← hs, Matrix.mul_apply]
      refine Finset.sum_congr rfl fun k _ => ?_
      rw [Matrix.mul_diagonal, Matrix.transpose_apply]
      unfold upper vector
      simp only [Matrix.of_apply]
      by_cases hk : k ≤ i
      · rw [if_pos hk, if_pos hk, if_pos (le_trans hk hij)]; ring
      · rw [if_neg hk, if_neg hk]; ring
  ext i j
  rcases le_total i j with hij | hij
  · exact (hle i j hij).1
  · rw [(hle j i hij).2]
    exact congrFun (congrFun hA.1 i) j

theorem upper_mulVec {n : ℕ} (U : Mat K) (w : Vec K) (i : Fin n) : Matrix.mulVec (upper n U) (vector n w) i = ∑ j ∈ Ico (i : ℕ) n, U i j * w j := by
  rw [Matrix.mulVec, dotProduct]
  unfold upper vector
  simp only [Matrix.of_apply, Fin.le_def]
  rw [Fin.sum_univ_eq_sum_range (fun j => (if (i : ℕ) ≤ j then U i j else 0) * w j) n]
  refine (Finset.sum_subset_zero_on_sdiff (fun k hk => ?_) (fun k hk => ?_) (fun k hk => ?_)).symm
  · rw [Finset.mem_Ico] at hk; rw [Finset.mem_range]; omega
  · rw [Finset.mem_sdiff, Finset.mem_range, Finset.mem_Ico] at hk; rw [if_neg (by omega), zero_mul]
  · rw [Finset.mem_Ico] at hk; rw [if_pos hk.1]

theorem lower_mulVec {n : ℕ} (L : Mat K) (w : Vec K) (i : Fin n) : Matrix.mulVec (lower n L) (vector n w) i = ∑ j ∈ range (i + 1), L i j * w j := by
  rw [Matrix.mulVec, dotProduct]
  unfold lower vector
  simp only [Matrix.of_apply, Fin.le_def]
  rw [Fin.sum_univ_eq_sum_range (fun j => (if j ≤ (i : ℕ) then L i j else 0) * w j) n]
  refine (Finset.sum_subset_zero_on_sdiff (fun k hk => ?_) (fun k hk => ?_) (fun k hk => ?_)).symm
  · rw [Finset.mem_range] at hk ⊢; omega
  · rw [Finset.mem_sdiff, Finset.mem_range, Finset.mem_range] at hk; rw [if_neg (by omega), zero_mul]
  · rw [Finset.mem_range] at hk; rw [if_pos (by omega)]

theorem matrix_mulVec {m n : ℕ} (A : Mat K) (w : Vec K) (i : Fin m) : Matrix.mulVec (matrix m n A) (vector n w) i = ∑ j ∈ range n, A i j * w j := by
  rw [Matrix.mulVec, dotProduct]
  unfold matrix vector
  simp only [Matrix.of_apply]
  rw [Fin.sum_univ_eq_sum_range (fun j => A i j * w j) n]

/-- Every vector comes from an array. -/
theorem vector_surjective {n : ℕ} (w : Fin n → K) : ∃ v : Vec K, vector n v = w := by
  refine ⟨fun i => if h : i < n then w ⟨i, h⟩ else 0, ?_⟩
  funext i
  unfold vector
  beta_reduce
  rw [dif_pos i.2]

theorem vector_eq_iff {n : ℕ} (v w : Vec K) : vector n v = vector n w ↔ ∀ i < n, v i = w i :=
  ⟨fun h i hi => congrFun h ⟨i, hi⟩, fun h => funext fun i => h i i.2⟩

variable [IsStrictOrderedRing K]

/-! ## Triangular systems -/

/-- Back substitution finds the unique solution of a system whose matrix is upper triangular (the elements below the diagonal are ignored) and it succeeds if and only if there is
no zero on the diagonal. -/
theorem C73_back {n : ℕ} (U : Mat K) (b x : Vec K) :
    ((∃ z, backSubstitution n U b x = some z) ↔ n ≠ 0 ∧ ∀ i : Fin n, U i i ≠ 0) ∧
      ∀ z, backSubstitution n U b x = some z → ∀ w, Matrix.mulVec (upper n U) w = vector n b ↔ w = vector n z := by
  refine ⟨⟨fun ⟨z, hz⟩ => ?_, fun ⟨hn, h⟩ => ?_⟩, fun z hz w => ?_⟩
  · obtain ⟨h1, h2, -⟩ := backSubstitution_some hz
    exact ⟨h1, fun i => h2 i i.2⟩
  · obtain ⟨z, hz, -⟩ := backSubstitution_exists (U := U) b x hn (fun i hi => h ⟨i, hi⟩)
    exact ⟨z, hz⟩
  · obtain ⟨h1, h2, h3⟩ := backSubstitution_some hz
    obtain ⟨v, rfl⟩ := vector_surjective w
    have hb : ∀ v, Matrix.mulVec (upper n U) (vector n v) = vector n b ↔ Back n U b 0 v := fun v =>
      ⟨fun h i _ hi => by rw [← upper_mulVec U v ⟨i, hi⟩, h]; rfl, fun h => funext fun i => by rw [upper_mulVec, h i (Nat.zero_le _) i.2]; rfl⟩
    rw [hb, vector_eq_iff]
    refine ⟨fun h => h.unique h2 h3, fun h i hi hin => ?_⟩
    rw [← h3 i hi hin]
    exact Finset.sum_congr rfl fun j hj => by rw [Finset.mem_Ico] at hj; rw [h j hj.2]

/-- Forward substitution finds the unique solution of a system whose matrix is lower triangular (the elements above the diagonal are ignored) and it succeeds if and only if there
is no zero on the diagonal. -/
theorem C73_forward {n : ℕ} (L : Mat K) (b x : Vec K) :
    ((∃ z, forwardSubstitution n L b x = some z) ↔ n ≠ 0 ∧ ∀ i : Fin n, L i i ≠ 0) ∧
      ∀ z, forwardSubstitution n L b x = some z → ∀ w, Matrix.mulVec (lower n L) w = vector n b ↔ w = vector n z := by
  refine ⟨⟨fun ⟨z, hz⟩ => ?_, fun ⟨hn, h⟩ => ?_⟩, fun z hz w => ?_⟩
  · obtain ⟨h1, h2, -⟩ := forwardSubstitution_some hz
    exact ⟨h1, fun i => h2 i i.2⟩
  · exact forwardSubstitution_exists (L := L) b x hn (fun i hi => h ⟨i, hi⟩)
  · obtain ⟨h1, h2, h3⟩ := forwardSubstitution_some hz
    obtain ⟨v, rfl⟩ := vector_surjective w
    have hb : ∀ v, Matrix.mulVec (lower n L) (vector n v) = vector n b ↔ Forward L b n v := fun v =>
      ⟨fun h i hi => by rw [← lower_mulVec L v ⟨i, hi⟩, h]; rfl, fun h => funext fun i => by rw [lower_mulVec, h i i.2]; rfl⟩
    rw [hb, vector_eq_iff]
    refine ⟨fun h => h.unique h2 h3, fun h i hin => ?_⟩
    rw [← h3 i hin]
    exact Finset.sum_congr rfl fun j hj => by rw [Finset.mem_range] at hj; rw [h j (by omega)]

example : backSubstitution 2 (fun i j => if i = 0 then (if j = 0 then 2 else 1) else (if j = 0 then 100 else 4)) (fun i => if i = 0 then 7 else 12) (fun _ => -1) = some (Vec.set (Vec.set (fun _ => -1) 1 3) 0 (2 : ℚ)) := by
  simp [backSubstitution, quotient, subtract, sweep, Vec.set, List.range'] <;> norm_num

/-! ## General systems -/

/-- When the resolution of a system returns, its result is the one and only solution. -/
theorem C73_solve {n : ℕ} {A L U : Mat K} {b x y z : Vec K} (h : solve n A b L U x y = some z) (w : Fin n → K) : Matrix.mulVec (matrix n n A) w = vector n b ↔ w = vector n z := by
  obtain ⟨v, rfl⟩ := vector_surjective w
  rw [vector_eq_iff, ← solve_some h v]
  exact ⟨fun h i hi => by rw [← matrix_mulVec A v ⟨i, hi⟩, h]; rfl, fun h => funext fun i => by rw [matrix_mulVec, h i i.2]; rfl⟩

/-- The resolution succeeds if in each column the absolute value of the diagonal element exceeds the sum of those of the others. -/
theorem C73_solve_dominant {n : ℕ} {A : Mat K} (hn : n ≠ 0) (h : ∀ j : Fin n, ∑ i ∈ Finset.univ.erase j, |matrix n n A i j| < |matrix n n A j j|) (b : Vec K) (L U : Mat K) (x y : Vec K) :
    ∃ z, solve n A b L U x y = some z := by
  refine solve_dominant hn (fun j _ hj => ?_) b L U x y
  have h1 := h ⟨j, hj⟩
  have h2 : ∑ i ∈ Finset.univ.erase (⟨j, hj⟩ : Fin n), |matrix n n A i ⟨j, hj⟩| + |A j j| = ∑ i ∈ (Ico 0 n).erase j, |A i j| + |A j j| := by
    rw [Finset.sum_erase_add (Ico 0 n) (fun i => |A i j|) (Finset.mem_Ico.2 ⟨Nat.zero_le _, hj⟩)]
    have := Finset.sum_erase_add (Finset.univ) (fun i : Fin n => |matrix n n A i ⟨j, hj⟩|) (Finset.mem_univ ⟨j, hj⟩)
    have h3 : |A j j| = |matrix n n A ⟨j, hj⟩ ⟨j, hj⟩| := rfl
    have h4 : ∑ i : Fin n, |matrix n n A i ⟨j, hj⟩| = ∑ i ∈ range n, |A i j| := Fin.sum_univ_eq_sum_range (fun i => |A i j|) n
    rw [h3, this, h4, Finset.range_eq_Ico]
  have h3 := add_right_cancel h2
  rw [← h3]
  exact h1

/-- A 2 × 2 system is always solved if its matrix is regular. -/
theorem C73_solve_2 {A : Mat K} (h : A 0 0 * A 1 1 - A 0 1 * A 1 0 ≠ 0) (b : Vec K) (L U : Mat K) (x y : Vec K) : ∃ z, solve 2 A b L U x y = some z := by
  obtain ⟨s, hs, hL, hU⟩ : ∃ s, loop 0 2 (luStep 2) ⟨A, L, U, b⟩ = some s ∧ (∀ i < 2, s.L i i ≠ 0) ∧ ∀ i < 2, s.U i i ≠ 0 := by
    obtain ⟨r, hr, -, hr2, hmax⟩ := pivot_spec A (n := 2) (k := 0) (by norm_num)
    have hpiv : A r 0 ≠ 0 := by
      intro h0
      have h1 := hmax 0 (by norm_num) (by norm_num)
      have h2 := hmax 1 (by norm_num) (by norm_num)
      rw [h0, abs_zero] at h1 h2
      have h3 := abs_eq_zero.1 (le_antisymm h1 (abs_nonneg _))
      have h4 := abs_eq_zero.1 (le_antisymm h2 (abs_nonneg _))
      exact h (by rw [h3, h4]; ring)
    have hp1 : ∀ B : Mat K, (pivot 2 B 1).1 = some 1 := by
      intro B
      obtain ⟨q, hq, hq1, hq2, -⟩ := pivot_spec B (n := 2) (k := 1) (by norm_num)
      rw [hq, show q = 1 by omega]
    have h01 : r = 0 ∨ r = 1 := by omega
    unfold loop
    simp only [List.range', Nat.sub_zero, List.foldlM_cons, List.foldlM_nil]
    rw [luStep, hr]
    rcases h01 with rfl | rfl
    · simp [swapRows, Vec.swap, sweep, loop, List.range', subtract, quotient, Mat.set, hpiv, luStep, hp1]
      refine ⟨fun i hi => by
        have : i = 0 ∨ i = 1 := by omega
        rcases this with rfl | rfl <;> simp, fun i hi => ?_⟩
      have : i = 0 ∨ i = 1 := by omega
      rcases this with rfl | rfl
      · simpa using hpiv
      · simp
        intro h0
        apply h
        field_simp at h0
        linear_combination h0
    · simp [swapRows, Vec.swap, sweep, loop, List.range', subtract, quotient, Mat.set, hpiv, luStep, hp1]
      refine ⟨fun i hi => by
        have : i = 0 ∨ i = 1 := by omega
        rcases this with rfl | rfl <;> simp, fun i hi => ?_⟩
      have : i = 0 ∨ i = 1 := by omega
      rcases this with rfl | rfl
      · simpa using hpiv
      · simp
        intro h0
        apply h
        field_simp at h0
        linear_combination -h0
  obtain ⟨y', hy⟩ := forwardSubstitution_exists (L := s.L) s.b y (by norm_num) hL
  obtain ⟨z, hz, -⟩ := backSubstitution_exists (U := s.U) y' x (by norm_num) hU
  refine ⟨z, ?_⟩
  unfold solve
  rw [hs]
  change (forwardSubstitution 2 s.L s.b y).bind _ = _
  rw [hy]
  exact hz

end Field

/-- The matrix `((2, 2, 1), (1, 1, 0), (0, 1/2, 0))`. -/
def counterA : Mat ℚ := fun i j => if i = 0 then (if j = 2 then 1 else 2) else if i = 1 then (if j = 2 then 0 else 1) else (if j = 1 then 1 / 2 else 0)

/-- The search of the pivots ignores the previous steps of the elimination, so the resolution fails on some regular systems: a unique solution exists but the result is not
finite. -/
theorem C73_solve_counterexample :
    ∃ (A : Mat ℚ) (b : Vec ℚ), (∀ L U x y, solve 3 A b L U x y = none) ∧ ∃ z, ∀ w, Matrix.mulVec (matrix 3 3 A) w = vector 3 b ↔ w = z := by
  refine ⟨counterA, fun i => if i = 0 then 1 else 0, fun L U x y => ?_, fun i => if i = 2 then 1 else 0, fun w => ?_⟩
  · have h1 : ∀ s : LU ℚ, (∀ i j, i < 3 → j < 3 → s.A i j = counterA i j) → s.L 1 0 = 1 / 2 → s.U 0 1 = 2 → luStep 3 1 s = none := by
      intro s hA hL hU
      have hp : (pivot 3 s.A 1).1 = some 1 := by
        unfold pivot sweep
        simp only [List.range', List.foldl, Nat.reduceSub, Nat.reduceAdd, hA 1 1 (by norm_num) (by norm_num), hA 2 1 (by norm_num) (by norm_num)]
        decide +kernel
      unfold luStep
      rw [hp]
      simp only [Option.bind_some]
      have hz : sweep 1 3 (fun j (U : Mat ℚ) => U.set 1 j (subtract (swapRows s.A 0 3 1 1 1 j) 0 1 fun i => swapRows s.L 0 1 1 1 1 i * U i j)) s.U 1 1 = 0 := by
        rw [upper_row _ _ _ (by norm_num), if_pos (by norm_num), swapRows_apply _ (by norm_num), if_pos (by norm_num)]
        simp only [Finset.sum_range_one, Equiv.swap_self, Equiv.refl_apply]
        rw [swapRows_apply _ (by norm_num), if_pos (by norm_num), Equiv.swap_self, Equiv.refl_apply, hL, hU, hA 1 1 (by norm_num) (by norm_num)]
        decide +kernel
      generalize sweep 1 3 (fun j (U : Mat ℚ) => U.set 1 j (subtract (swapRows s.A 0 3 1 1 1 j) 0 1 fun i => swapRows s.L 0 1 1 1 1 i * U i j)) s.U = U' at hz ⊢
      unfold loop
      simp [List.range', quotient, hz]
    unfold solve
    cases h0 : luStep 3 0 ⟨counterA, L, U, fun i => if i = 0 then 1 else 0⟩ with
    | none =>
      unfold loop
      simp [List.range', h0]
    | some s =>
      unfold luStep at h0
      rw [show (pivot 3 counterA 0).1 = some 0 by decide +kernel] at h0
      simp only [Option.bind_some, Option.map_eq_some_iff] at h0
      obtain ⟨L', hL', hs⟩ := h0
      obtain ⟨h2, h3⟩ := lower_column (by norm_num) hL'
      have h4 := (h3 1 (by norm_num) (by norm_num)).2
      rw [upper_row _ _ _ (by norm_num), if_pos (by norm_num), swapRows_apply _ (by norm_num), if_pos (by norm_num), swapRows_apply _ (by norm_num), if_pos (by norm_num)] at h4
      simp only [Finset.sum_range_zero, Equiv.swap_self, Equiv.refl_apply, sub_zero] at h4
      rw [show counterA 0 0 = 2 by decide +kernel, show counterA 1 0 = 1 by decide +kernel] at h4
      have h5 : luStep 3 1 s = none := by
        refine h1 s (fun i j hi hj => ?_) ?_ ?_
        · rw [← hs]
          simp only
          rw [swapRows_apply _ (by norm_num), if_pos (by omega), Equiv.swap_self, Equiv.refl_apply]
        · rw [← hs]
          simp only
          rw [Mat.set_ne _ _ (by norm_num)]
          linarith
        · rw [← hs]
          simp only
          rw [upper_row _ _ _ (by norm_num), if_pos (by norm_num), swapRows_apply _ (by norm_num), if_pos (by norm_num)]
          simp only [Finset.sum_range_zero, Equiv.swap_self, Equiv.refl_apply, sub_zero]
          decide +kernel
      have h6 : loop 0 3 (luStep 3) ⟨counterA, L, U, fun i => if i = 0 then 1 else 0⟩ = none := by
        have h7 : luStep 3 0 ⟨counterA, L, U, fun i => if i = 0 then 1 else 0⟩ = some s := by
          unfold luStep
          rw [show (pivot 3 counterA 0).1 = some 0 by decide +kernel]
          simp only [Option.bind_some, Option.map_eq_some_iff]
          exact ⟨L', hL', hs⟩
        unfold loop
        simp [List.range', h7, h5]
      rw [h6]
      rfl
  · constructor
    · intro h
      have h0 := congrFun h 0
      have h1 := congrFun h 1
      have h2 := congrFun h 2
      simp [Matrix.mulVec, dotProduct, Fin.sum_univ_three, matrix, vector, counterA] at h0 h1 h2
      funext i
      fin_cases i <;> simp <;> linarith
    · rintro rfl
      funext i
      fin_cases i <;> simp [Matrix.mulVec, dotProduct, Fin.sum_univ_three, matrix, vector, counterA]

/-! ## Symmetric matrices -/

/-- The Cholesky decomposition of a positive definite symmetric matrix, given by its upper half, succeeds: it is an upper triangular matrix with a positive diagonal, whose product by
its transpose is the given matrix. -/
theorem C73_cholesky {n : ℕ} {A : Mat ℝ} {S : Matrix (Fin n) (Fin n) ℝ} (hA : UpperHalf A S) (hp : PositiveDefinite S) (u : Mat ℝ) :
    ∃ R, cholesky n A u = some R ∧ (upper n R).transpose * upper n R = S ∧ ∀ j : Fin n, 0 < R j j := by
  obtain ⟨R, h1, h2, h3⟩ := cholesky_exists (u := u) (array_symmetric hA) (array_positive hp)
  refine ⟨R, ?_, ?_, fun j => h3 j j.2⟩
  · rw [← h1]
    refine loop_congr u fun j s _ hj => ?_
    beta_reduce
    rw [loop_congr (g := fun i (R : Mat ℝ) => (quotient (array S i j - sum 0 i fun k => R k i * R k j) (R i i)).map fun x => R.set i j x) s (fun i s _ hi => by
      rw [array_upper hA i j hi.le hj]), array_upper hA j j (le_refl _) hj]
  · have := upper_product (D := fun _ => (1 : ℝ)) (R := R) hA (fun p q hpq hq => by
      rw [← array_upper hA p q hpq hq, (h2 q hq).1 p hpq]
      exact Finset.sum_congr rfl fun k _ => (mul_one _).symm)
    rw [← this]
    have h1 : Matrix.diagonal (vector n fun _ => (1 : ℝ)) = 1 := Matrix.diagonal_one
    rw [h1, Matrix.mul_one]

/-- Whenever it succeeds, the Cholesky decomposition is a decomposition. -/
theorem C73_cholesky_sound {n : ℕ} {A : Mat ℝ} {S : Matrix (Fin n) (Fin n) ℝ} (hA : UpperHalf A S) {u R : Mat ℝ} (h : cholesky n A u = some R) :
    (upper n R).transpose * upper n R = S ∧ ∀ j : Fin n, 0 ≤ R j j := by
  have h2 := cholesky_some h
  refine ⟨?_, fun j => (h2 j j.2).2⟩
  have := upper_product (D := fun _ => (1 : ℝ)) (R := R) hA (fun p q hpq hq => by
    rw [(h2 q hq).1 p hpq]
    exact Finset.sum_congr rfl fun k _ => (mul_one _).symm)
  rw [← this]
  have h1 : Matrix.diagonal (vector n fun _ => (1 : ℝ)) = 1 := Matrix.diagonal_one
  rw [h1, Matrix.mul_one]

section Field

variable {K : Type} [Field K] [LinearOrder K] [IsStrictOrderedRing K]

/-- The `ᵗRDR` decomposition of a positive definite symmetric matrix, given by its upper half, succeeds, and the diagonal matrix has positive elements. -/
theorem C73_rdr {n : ℕ} {A : Mat K} {S : Matrix (Fin n) (Fin n) K} (hA : UpperHalf A S) (hp : PositiveDefinite S) (u : Mat K) (v : Vec K) :
    ∃ R D, rdr n A u v = some (R, D) ∧ (upper n R).transpose * Matrix.diagonal (vector n D) * upper n R = S ∧ (∀ j : Fin n, R j j = 1) ∧ ∀ j : Fin n, 0 < D j := by
  obtain ⟨⟨R, D⟩, h1, h2, h3⟩ := rdr_exists (u := u) (v := v) (array_symmetric hA) (array_positive hp)
  refine ⟨R, D, ?_, ?_, fun j => h2.unit j j.2, fun j => h3 j j.2⟩
  · rw [← h1]
    refine loop_congr (u, v) fun i s _ hi => ?_
    simp only
    rw [array_upper hA i i (le_refl _) hi]
    rw [loop_congr (f := fun j (R : Mat K) =>
      (quotient (A i j - sum 0 i fun k => R k i * R k j * (s.2.set i (A i i - sum 0 i fun k => s.1 k i ^ 2 * s.2 k)) k) ((s.2.set i (A i i - sum 0 i fun k => s.1 k i ^ 2 * s.2 k)) i)).map fun x => R.set i j x) s.1 (fun j s _ hj => by
      rw [← array_upper hA i j (by omega) hj])]
  · exact upper_product hA fun p q hpq hq => by
      rw [← array_upper hA p q hpq hq]
      exact h2.rows p q (by omega) hpq hq

/-- Whenever it succeeds, the `ᵗRDR` decomposition is a decomposition. -/
theorem C73_rdr_sound {n : ℕ} {A : Mat K} {S : Matrix (Fin n) (Fin n) K} (hA : UpperHalf A S) {u R : Mat K} {v D : Vec K} (h : rdr n A u v = some (R, D)) :
    (upper n R).transpose * Matrix.diagonal (vector n D) * upper n R = S ∧ ∀ j : Fin n, R j j = 1 := by
  have h2 := rdr_some h
  exact ⟨upper_product hA fun p q hpq hq => h2.rows p q (by omega) hpq hq, fun j => h2.unit j j.2⟩

/-- The `ᵗRDR` decomposition of a regular symmetric matrix may fail. -/
theorem C73_rdr_counterexample :
    ∃ (A : Mat K) (S : Matrix (Fin 2) (Fin 2) K), UpperHalf A S ∧ S * S = 1 ∧ ∀ u v, rdr 2 A u v = none := by
  refine ⟨fun i j => if i = j then 0 else 1, Matrix.of fun i j => if i = j then 0 else 1, ⟨?_, fun i j _ => ?_⟩, ?_, fun u v => ?_⟩
  · ext i j
    simp [eq_comm]
  · simp [Fin.ext_iff]
  · ext i j
    fin_cases i <;> fin_cases j <;> simp [Matrix.mul_apply, Fin.sum_univ_two]
  · simp [rdr, loop, List.range', quotient, sum, sweep, Vec.set]

/-! ## Gram-Schmidt -/

/-- The unitriangular Gram-Schmidt orthogonalization always returns a decomposition of its argument as the product of a matrix with orthogonal columns by an upper triangular matrix
with a unit diagonal, even if the columns are not independent. -/
theorem C73_unitriangular_gram_schmidt (m n : ℕ) (A u v : Mat K) :
    let r := unitriangularGramSchmidt m n A u v;
    matrix m n r.1 * upper n r.2 = matrix m n A ∧ (∀ j : Fin n, r.2 j j = 1) ∧ ((matrix m n r.1).transpose * matrix m n r.1).IsDiag := by
  have h := unitriangularGramSchmidt_spec m n A u v
  simp only
  generalize unitriangularGramSchmidt m n A u v = r at h
  refine ⟨?_, fun j => h.unit j j.2, fun p q hpq => ?_⟩
  · ext l q
    rw [Matrix.mul_apply]
    unfold matrix upper
    simp only [Matrix.of_apply, Fin.le_def]
    rw [sum_fin (m := (q : ℕ) + 1) (by omega) (fun k => r.1 l k * (if k ≤ (q : ℕ) then r.2 k q else 0)) (fun k hk hkn => by rw [if_neg (by omega), mul_zero]), h.elements l q l.2 q.2,
      Finset.sum_range_succ, if_pos (le_refl _), h.unit q q.2, mul_one]
    congr 1
    exact Finset.sum_congr rfl fun k hk => by rw [Finset.mem_range] at hk; rw [if_pos (by omega)]
  · change ((matrix m n r.1).transpose * matrix m n r.1) p q = 0
    rw [Matrix.mul_apply]
    have := h.orthogonal p q p.2 q.2 (fun he => hpq (Fin.ext he))
    rw [← this]
    unfold matrix columnProduct
    simp only [Matrix.transpose_apply, Matrix.of_apply]
    exact Fin.sum_univ_eq_sum_range (fun l => r.1 l p * r.1 l q) m

end Field

theorem orthonormalized_matrices {n : ℕ} {A : Mat ℝ} {r : Mat ℝ × Mat ℝ} (h : Orthonormalized n A n r) :
    matrix n n r.1 * upper n r.2 = matrix n n A ∧ (∀ j : Fin n, 0 < r.2 j j) ∧ (matrix n n r.1).transpose * matrix n n r.1 = 1 := by
  refine ⟨?_, fun j => h.positive j j.2, ?_⟩
  · ext l q
    rw [Matrix.mul_apply]
    unfold matrix upper
    simp only [Matrix.of_apply, Fin.le_def]
    rw [sum_fin (m := (q : ℕ) + 1) (by omega) (fun k => r.1 l k * (if k ≤ (q : ℕ) then r.2 k q else 0)) (fun k hk hkn => by rw [if_neg (by omega), mul_zero]), h.elements l q l.2 q.2]
    exact Finset.sum_congr rfl fun k hk => by rw [Finset.mem_range] at hk; rw [if_pos (by omega)]
  · ext p q
    have hs : ((matrix n n r.1).transpose * matrix n n r.1) p q = columnProduct n r.1 r.1 p q := by
      rw [Matrix.mul_apply]
      unfold matrix columnProduct
      simp only [Matrix.transpose_apply, Matrix.of_apply]
      exact Fin.sum_univ_eq_sum_range (fun l => r.1 l p * r.1 l q) n
    rw [hs, Matrix.one_apply]
    by_cases hpq : p = q
    · subst hpq
      rw [if_pos rfl]
      exact h.unit p p.2
    · rw [if_neg hpq]
      exact h.orthogonal p q p.2 q.2 (fun he => hpq (Fin.ext he))

/-- The Gram-Schmidt orthogonalization of a regular matrix succeeds: its argument is the product of an orthogonal matrix by an upper triangular matrix with a positive diagonal. -/
theorem C73_gram_schmidt {n : ℕ} {A : Mat ℝ} (h : ∀ x, Matrix.mulVec (matrix n n A) x = 0 → x = 0) (u v : Mat ℝ) :
    ∃ Q R, classicalGramSchmidt n A u v = some (Q, R) ∧ matrix n n Q * upper n R = matrix n n A ∧ (∀ j : Fin n, 0 < R j j) ∧ (matrix n n Q).transpose * matrix n n Q = 1 := by
  obtain ⟨⟨Q, R⟩, hs⟩ := classicalGramSchmidt_exists (A := A) (n := n) u v (fun x hx p hp => by
    have := h (vector n x) (funext fun i => by rw [matrix_mulVec]; exact hx i i.2)
    exact congrFun this ⟨p, hp⟩)
  exact ⟨Q, R, hs, orthonormalized_matrices (classicalGramSchmidt_some hs)⟩

/-- Whenever it succeeds, the Gram-Schmidt orthogonalization is correct. -/
theorem C73_gram_schmidt_sound {n : ℕ} {A u v Q R : Mat ℝ} (h : classicalGramSchmidt n A u v = some (Q, R)) :
    matrix n n Q * upper n R = matrix n n A ∧ (∀ j : Fin n, 0 < R j j) ∧ (matrix n n Q).transpose * matrix n n Q = 1 :=
  orthonormalized_matrices (classicalGramSchmidt_some h)

/-! ## The hypotheses are met -/

/-- A positive definite matrix. -/
example : ∃ S : Matrix (Fin 2) (Fin 2) ℝ, UpperHalf (fun i j => if i = j then 2 else if i < j then 1 else 55) S ∧ PositiveDefinite S := by
  refine ⟨Matrix.of fun i j => if i = j then 2 else 1, ⟨?_, fun i j h => ?_⟩, fun x hx => ?_⟩
  · ext i j
    simp [eq_comm]
  · fin_cases i <;> fin_cases j <;> simp at h ⊢
  · simp [dotProduct, Matrix.mulVec, Fin.sum_univ_two]
    have h1 : x 0 ≠ 0 ∨ x 1 ≠ 0 := by
      by_contra hc
      push Not at hc
      exact hx (funext fun i => by fin_cases i <;> simp [hc.1, hc.2])
    rcases h1 with h1 | h1
    · nlinarith [sq_nonneg (x 0 + x 1), sq_nonneg (x 1), sq_pos_of_ne_zero h1]
    · nlinarith [sq_nonneg (x 0 + x 1), sq_nonneg (x 0), sq_pos_of_ne_zero h1]

/-- A dominant matrix. -/
example : ∀ j : Fin 2, ∑ i ∈ Finset.univ.erase j, |matrix 2 2 (fun i j => if i = j then (-3 : ℚ) else 2) i j| < |matrix 2 2 (fun i j => if i = j then (-3 : ℚ) else 2) j j| := by
  decide +kernel

/-- A regular matrix. -/
example : ∀ x : Fin 2 → ℝ, Matrix.mulVec (matrix 2 2 fun i j => if i < j then 0 else 1) x = 0 → x = 0 := by
  intro x h
  have h0 := congrFun h 0
  have h1 := congrFun h 1
  simp [Matrix.mulVec, dotProduct, Fin.sum_univ_two, matrix] at h0 h1
  funext i
  fin_cases i <;> simp <;> linarith

end Principia.Numerics.Matrices
