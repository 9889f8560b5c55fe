import Verif.Numerics.MatrixLemmas
import Verif.Numerics.MatrixSpec
import Mathlib.Algebra.Order.BigOperators.Ring.Finset
import Mathlib.Algebra.Order.Field.Basic

/-!
The Gram-Schmidt orthogonalization.
-/

set_option linter.unusedSimpArgs false
set_option linter.unusedVariables false
set_option linter.unusedSectionVars false

namespace Principia.Numerics.Matrices

open Finset

section Field

variable {K : Type} [Field K] [LinearOrder K]

theorem copy_column (Q : Mat K) (m j : ℕ) (f : ℕ → K) (p q : ℕ) : sweep 0 m (fun l (Q : Mat K) => Q.set l j (f l)) Q p q = if p < m ∧ q = j then f p else Q p q := by
  have := sweep_inv (fun i (Q' : Mat K) => ∀ p q, Q' p q = if p < i ∧ q = j then f p else Q p q) 0 m (fun l (Q : Mat K) => Q.set l j (f l)) (Nat.zero_le _)
    (fun i Q' _ hi hQ p q => ?_) (s := Q) (fun p q => by rw [if_neg (by omega)])
  · exact this p q
  · by_cases hc : p = i ∧ q = j
    · obtain ⟨rfl, rfl⟩ := hc
      rw [Mat.set_eq, if_pos ⟨by omega, rfl⟩]
    · rw [Mat.set_ne _ _ hc, hQ]
      by_cases h1 : p < i ∧ q = j
      · rw [if_pos h1, if_pos (by omega)]
      · rw [if_neg h1, if_neg (by omega)]

/-- The subtraction of the projections. -/
theorem project_column (Q : Mat K) (r : ℕ → K) (m j : ℕ) (p q : ℕ) :
    sweep 0 j (fun k (Q : Mat K) => sweep 0 m (fun l (Q' : Mat K) => Q'.set l j (Q l j - r k * Q l k)) Q) Q p q =
      if p < m ∧ q = j then Q p j - ∑ k ∈ range j, r k * Q p k else Q p q := by
  have := sweep_inv (fun i (Q' : Mat K) => ∀ p q, Q' p q = if p < m ∧ q = j then Q p j - ∑ k ∈ range i, r k * Q p k else Q p q) 0 j
    (fun k (Q : Mat K) => sweep 0 m (fun l (Q' : Mat K) => Q'.set l j (Q l j - r k * Q l k)) Q) (Nat.zero_le _) (fun i Q' _ hi hQ p q => ?_) (s := Q) (fun p q => ?_)
  · exact this p q
  · rw [copy_column]
    by_cases hc : p < m ∧ q = j
    · rw [if_pos hc, if_pos hc, hQ, hQ, if_pos ⟨hc.1, rfl⟩, if_neg (by omega), Finset.sum_range_succ]
      ring
    · rw [if_neg hc, if_neg hc, hQ, if_neg hc]
  · by_cases hc : p < m ∧ q = j
    · rw [if_pos hc, hc.2]; simp
    · rw [if_neg hc]

/-- The scalar product of the columns. -/
def columnProduct (m : ℕ) (A B : Mat K) (p q : ℕ) : K := ∑ l ∈ range m, A l p * B l q

theorem columnProduct_self [IsStrictOrderedRing K] {m : ℕ} {Q : Mat K} {p : ℕ} (h : columnProduct m Q Q p p = 0) : ∀ l < m, Q l p = 0 := by
  intro l hl
  have := (Finset.sum_eq_zero_iff_of_nonneg (fun l _ => mul_self_nonneg (Q l p))).1 h l (Finset.mem_range.2 hl)
  exact mul_self_eq_zero.1 this

/-- The scalar product with a column minus projections. -/
theorem columnProduct_project {m : ℕ} {Q : Mat K} {f : ℕ → K} {r : ℕ → K} {i j : ℕ} (hi : i < j) (h : ∀ k < j, k ≠ i → columnProduct m Q Q i k = 0) :
    ∑ l ∈ range m, Q l i * (f l - ∑ k ∈ range j, r k * Q l k) = ∑ l ∈ range m, Q l i * f l - r i * columnProduct m Q Q i i := by
  have h1 : ∀ l ∈ range m, Q l i * (f l - ∑ k ∈ range j, r k * Q l k) = Q l i * f l - ∑ k ∈ range j, r k * (Q l i * Q l k) := by
    intro l _
    rw [mul_sub, Finset.mul_sum]
    congr 1
    exact Finset.sum_congr rfl fun k _ => by ring
  rw [Finset.sum_congr rfl h1, Finset.sum_sub_distrib, Finset.sum_comm]
  congr 1
  have h2 : ∀ k ∈ range j, ∑ l ∈ range m, r k * (Q l i * Q l k) = r k * columnProduct m Q Q i k := fun k _ => by rw [← Finset.mul_sum]; rfl
  rw [Finset.sum_congr rfl h2, Finset.sum_eq_single i (fun k hk hne => by rw [Finset.mem_range] at hk; rw [h k hk hne, mul_zero]) (fun hn => absurd (Finset.mem_range.2 hi) hn)]

/-- The first `j` columns are orthogonalized. -/
structure Orthogonalized (m : ℕ) (A : Mat K) (j : ℕ) (s : Mat K × Mat K) : Prop where
  elements : ∀ l q, l < m → q < j → A l q = ∑ k ∈ range q, s.1 l k * s.2 k q + s.1 l q
  unit : ∀ q < j, s.2 q q = 1
  orthogonal : ∀ p q, p < j → q < j → p ≠ q → columnProduct m s.1 s.1 p q = 0

theorem unitriangularGramSchmidt_spec [IsStrictOrderedRing K] (m n : ℕ) (A Q R : Mat K) : Orthogonalized m A n (unitriangularGramSchmidt m n A Q R) := by
  refine sweep_inv (fun j s => Orthogonalized m A j s) 0 n _ (Nat.zero_le _) (fun j s _ hj h => ?_) ⟨fun l q _ hq => by omega, fun q hq => by omega, fun p q hp => by omega⟩
  have hR : ∀ i q, sweep 0 j (fun i (R : Mat K) =>
      let norm2 := sum 0 m fun l => s.1 l i * s.1 l i;
      if norm2 = 0 then R.set i j 0 else R.set i j ((sum 0 m fun l => s.1 l i * A l j) / norm2)) s.2 i q =
      if i < j ∧ q = j then (if columnProduct m s.1 s.1 i i = 0 then 0 else columnProduct m s.1 A i j / columnProduct m s.1 s.1 i i) else s.2 i q := by
    intro i q
    rw [← copy_column s.2 j j (fun i => if columnProduct m s.1 s.1 i i = 0 then 0 else columnProduct m s.1 A i j / columnProduct m s.1 s.1 i i) i q]
    have he : (fun i (R : Mat K) =>
      let norm2 := sum 0 m fun l => s.1 l i * s.1 l i;
      if norm2 = 0 then R.set i j 0 else R.set i j ((sum 0 m fun l => s.1 l i * A l j) / norm2)) =
      fun i (R : Mat K) => R.set i j (if columnProduct m s.1 s.1 i i = 0 then 0 else columnProduct m s.1 A i j / columnProduct m s.1 s.1 i i) := by
      funext i R
      simp only [sum_zero_eq]
      unfold columnProduct
      split_ifs <;> rfl
    rw [he]
  simp only
  generalize sweep 0 j (fun i (R : Mat K) =>
      let norm2 := sum 0 m fun l => s.1 l i * s.1 l i;
      if norm2 = 0 then R.set i j 0 else R.set i j ((sum 0 m fun l => s.1 l i * A l j) / norm2)) s.2 = R' at hR ⊢
  have hQ : ∀ p q, sweep 0 j (fun k (Q : Mat K) => sweep 0 m (fun l (Q' : Mat K) => Q'.set l j (Q l j - R' k j * Q l k)) Q)
      (sweep 0 m (fun l (Q : Mat K) => Q.set l j (A l j)) s.1) p q = if p < m ∧ q = j then A p j - ∑ k ∈ range j, R' k j * s.1 p k else s.1 p q := by
    intro p q
    rw [project_column _ (fun k => R' k j)]
    by_cases hc : p < m ∧ q = j
    · rw [if_pos hc, if_pos hc, copy_column, if_pos ⟨hc.1, rfl⟩]
      congr 1
      exact Finset.sum_congr rfl fun k hk => by rw [Finset.mem_range] at hk; rw [copy_column, if_neg (by omega)]
    · rw [if_neg hc, if_neg hc, copy_column, if_neg hc]
  generalize sweep 0 j (fun k (Q : Mat K) => sweep 0 m (fun l (Q' : Mat K) => Q'.set l j (Q l j - R' k j * Q l k)) Q)
      (sweep 0 m (fun l (Q : Mat K) => Q.set l j (A l j)) s.1) = Q' at hQ ⊢
  have hold : ∀ p q, q < j → Q' p q = s.1 p q := fun p q hq => by rw [hQ, if_neg (by omega)]
  have hRold : ∀ i q, q < j → R' i q = s.2 i q := fun i q hq => by rw [hR, if_neg (by omega)]
  have hprod : ∀ p, p < j → columnProduct m Q' Q' p j = 0 := by
    intro p hp
    have h1 : columnProduct m Q' Q' p j = ∑ l ∈ range m, s.1 l p * (A l j - ∑ k ∈ range j, R' k j * s.1 l k) := Finset.sum_congr rfl fun l hl => by
      rw [Finset.mem_range] at hl
      rw [hold l p hp, hQ, if_pos ⟨hl, rfl⟩]
    rw [h1, columnProduct_project (r := fun k => R' k j) hp (fun k hk hne => h.orthogonal p k hp hk (Ne.symm hne)), hR, if_pos ⟨hp, rfl⟩]
    by_cases h0 : columnProduct m s.1 s.1 p p = 0
    · rw [if_pos h0, zero_mul, sub_zero]
      exact Finset.sum_eq_zero fun l hl => by rw [Finset.mem_range] at hl; rw [columnProduct_self h0 l hl, zero_mul]
    · rw [if_neg h0, div_mul_cancel₀ _ h0]
      exact sub_self _
  refine ⟨fun l q hl hq => ?_, fun q hq => ?_, fun p q hp hq hne => ?_⟩
  · simp only
    rcases Nat.lt_or_eq_of_le (Nat.le_of_lt_succ hq) with hlt | rfl
    · rw [h.elements l q hl hlt, hold l q hlt]
      congr 1
      exact Finset.sum_congr rfl fun k hk => by rw [Finset.mem_range] at hk; rw [hold l k (by omega), Mat.set_ne _ _ (by omega), hRold k q hlt]
    · have hs : ∑ k ∈ range q, Q' l k * (R'.set q q 1) k q = ∑ k ∈ range q, R' k q * s.1 l k := Finset.sum_congr rfl fun k hk => by
        rw [Finset.mem_range] at hk; rw [hold l k hk, Mat.set_ne _ _ (by omega)]; ring
      rw [hs, hQ l q, if_pos ⟨hl, rfl⟩]
      ring
  · simp only
    rcases Nat.lt_or_eq_of_le (Nat.le_of_lt_succ hq) with hlt | rfl
    · rw [Mat.set_ne _ _ (by omega), hRold q q hlt]
      exact h.unit q hlt
    · rw [Mat.set_eq]
  · simp only
    rcases Nat.lt_or_eq_of_le (Nat.le_of_lt_succ hp) with hpl | rfl
    · rcases Nat.lt_or_eq_of_le (Nat.le_of_lt_succ hq) with hql | rfl
      · rw [← h.orthogonal p q hpl hql hne]
        exact Finset.sum_congr rfl fun l _ => by rw [hold l p hpl, hold l q hql]
      · exact hprod p hpl
    · have := hprod q (by omega)
      rw [← this]
      exact Finset.sum_congr rfl fun l _ => by ring

end Field

/-! ## The classical algorithm -/

/-- The first `j` columns are orthonormalized. -/
structure Orthonormalized (n : ℕ) (A : Mat ℝ) (j : ℕ) (s : Mat ℝ × Mat ℝ) : Prop where
  elements : ∀ l q, l < n → q < j → A l q = ∑ k ∈ range (q + 1), s.1 l k * s.2 k q
  positive : ∀ q < j, 0 < s.2 q q
  unit : ∀ q < j, columnProduct n s.1 s.1 q q = 1
  orthogonal : ∀ p q, p < j → q < j → p ≠ q → columnProduct n s.1 s.1 p q = 0

/-- The first columns of `Q` are combinations of the columns of `A`. -/
def Combinations (n : ℕ) (A Q : Mat ℝ) (j : ℕ) : Prop := ∀ q < j, ∃ z : Vec ℝ, (∀ p, q < p → z p = 0) ∧ ∀ l < n, Q l q = ∑ p ∈ range n, A l p * z p

theorem project_vector (q : Vec ℝ) (r : ℕ → ℝ) (Q : Mat ℝ) (j : ℕ) (l : ℕ) :
    sweep 0 j (fun k (q : Vec ℝ) => fun l => q l - r k * Q l k) q l = q l - ∑ k ∈ range j, r k * Q l k := by
  have := sweep_inv (fun i (q' : Vec ℝ) => ∀ l, q' l = q l - ∑ k ∈ range i, r k * Q l k) 0 j (fun k (q : Vec ℝ) => fun l => q l - r k * Q l k) (Nat.zero_le _)
    (fun i q' _ hi hq l => by rw [hq, Finset.sum_range_succ]; ring) (s := q) (fun l => by simp)
  exact this l

theorem divide_column {Q Q' : Mat ℝ} {q : Vec ℝ} {r : ℝ} {n j : ℕ} (h : loop 0 n (fun l (Q : Mat ℝ) => (quotient (q l) r).map fun x => Q.set l j x) Q = some Q') :
    (n ≠ 0 → r ≠ 0) ∧ ∀ p k, Q' p k = if p < n ∧ k = j then q p / r else Q p k := by
  have := loop_some (fun i (Q' : Mat ℝ) => (i ≠ 0 → r ≠ 0) ∧ ∀ p k, Q' p k = if p < i ∧ k = j then q p / r else Q p k) 0 n _ (Nat.zero_le _)
    (fun i s s' _ hi ⟨h1, h2⟩ hs => ?_) ⟨fun h => absurd rfl h, fun p k => by rw [if_neg (by omega)]⟩ h
  · exact this
  · rw [Option.map_eq_some_iff] at hs
    obtain ⟨z, hz, rfl⟩ := hs
    obtain ⟨h4, h5⟩ := quotient_some hz
    refine ⟨fun _ => h4, fun p k => ?_⟩
    by_cases hc : p = i ∧ k = j
    · obtain ⟨rfl, rfl⟩ := hc
      rw [Mat.set_eq, if_pos ⟨by omega, rfl⟩, ← h5]
      field_simp
    · rw [Mat.set_ne _ _ hc, h2]
      by_cases h1 : p < i ∧ k = j
      · rw [if_pos h1, if_pos (by omega)]
      · rw [if_neg h1, if_neg (by omega)]

theorem divide_column_exists (Q : Mat ℝ) (q : Vec ℝ) {r : ℝ} (n j : ℕ) (h : r ≠ 0) : ∃ Q', loop 0 n (fun l (Q : Mat ℝ) => (quotient (q l) r).map fun x => Q.set l j x) Q = some Q' := by
  obtain ⟨Q', h1, -⟩ := loop_exists (fun _ _ => True) 0 n (fun l (Q : Mat ℝ) => (quotient (q l) r).map fun x => Q.set l j x) (Nat.zero_le _)
    (fun i s _ hi _ => by rw [quotient_eq h]; exact ⟨_, rfl, trivial⟩) (s := Q) trivial
  exact ⟨Q', h1⟩

/-- The column before its normalization. -/
noncomputable def residual (n : ℕ) (A Q : Mat ℝ) (j : ℕ) : Vec ℝ := fun l => A l j - ∑ k ∈ range j, columnProduct n Q A k j * Q l k

/-- An iteration, in closed form. -/
theorem classical_body (n j : ℕ) (A : Mat ℝ) (s : Mat ℝ × Mat ℝ) :
    ∃ R' : Mat ℝ, (∀ p q, R' p q = if q = j ∧ p < j then columnProduct n s.1 A p j else if q = j ∧ p = j then √(∑ l ∈ range n, residual n A s.1 j l ^ 2) else s.2 p q) ∧
      (let R := sweep 0 j (fun i (R : Mat ℝ) => R.set i j (sum 0 n fun l => s.1 l i * A l j)) s.2;
       let q : Vec ℝ := sweep 0 j (fun k (q : Vec ℝ) => fun l => q l - R k j * s.1 l k) (fun l => A l j);
       let R := R.set j j √(sum 0 n fun l => q l ^ 2);
       (loop 0 n (fun l (Q : Mat ℝ) => (quotient (q l) (R j j)).map fun x => Q.set l j x) s.1).map fun Q => (Q, R)) =
      (loop 0 n (fun l (Q : Mat ℝ) => (quotient (residual n A s.1 j l) √(∑ l ∈ range n, residual n A s.1 j l ^ 2)).map fun x => Q.set l j x) s.1).map fun Q => (Q, R') := by
  have hR : ∀ i q, sweep 0 j (fun i (R : Mat ℝ) => R.set i j (sum 0 n fun l => s.1 l i * A l j)) s.2 i q = if i < j ∧ q = j then columnProduct n s.1 A i j else s.2 i q := by
    intro i q
    rw [copy_column]
    by_cases hc : i < j ∧ q = j
    · rw [if_pos hc, if_pos hc, sum_zero_eq]; rfl
    · rw [if_neg hc, if_neg hc]
  simp only
  generalize sweep 0 j (fun i (R : Mat ℝ) => R.set i j (sum 0 n fun l => s.1 l i * A l j)) s.2 = R at hR ⊢
  have hq : sweep 0 j (fun k (q : Vec ℝ) => fun l => q l - R k j * s.1 l k) (fun l => A l j) = residual n A s.1 j := by
    funext l
    rw [project_vector _ (fun k => R k j)]
    unfold residual
    congr 1
    exact Finset.sum_congr rfl fun k hk => by rw [Finset.mem_range] at hk; rw [hR, if_pos ⟨hk, rfl⟩]
  rw [hq, sum_zero_eq]
  refine ⟨R.set j j √(∑ l ∈ range n, residual n A s.1 j l ^ 2), fun p q => ?_, by rw [Mat.set_eq]⟩
  by_cases h1 : q = j ∧ p < j
  · rw [if_pos h1, Mat.set_ne _ _ (by omega), hR, if_pos ⟨h1.2, h1.1⟩]
  · rw [if_neg h1]
    by_cases h2 : q = j ∧ p = j
    · obtain ⟨rfl, rfl⟩ := h2
      rw [if_pos ⟨rfl, rfl⟩, Mat.set_eq]
    · rw [if_neg h2, Mat.set_ne _ _ (by omega), hR, if_neg (by omega)]

theorem Orthonormalized.next {n j : ℕ} {A : Mat ℝ} {s : Mat ℝ × Mat ℝ} {R' Q' : Mat ℝ} (hj : j < n) (h : Orthonormalized n A j s)
    (hR : ∀ p q, R' p q = if q = j ∧ p < j then columnProduct n s.1 A p j else if q = j ∧ p = j then √(∑ l ∈ range n, residual n A s.1 j l ^ 2) else s.2 p q)
    (hne : √(∑ l ∈ range n, residual n A s.1 j l ^ 2) ≠ 0)
    (hQ : ∀ p k, Q' p k = if p < n ∧ k = j then residual n A s.1 j p / √(∑ l ∈ range n, residual n A s.1 j l ^ 2) else s.1 p k) : Orthonormalized n A (j + 1) (Q', R') := by
  have hold : ∀ p q, q < j → Q' p q = s.1 p q := fun p q hq => by rw [hQ, if_neg (by omega)]
  have hRold : ∀ i q, q < j → R' i q = s.2 i q := fun i q hq => by rw [hR, if_neg (by omega), if_neg (by omega)]
  set ρ := √(∑ l ∈ range n, residual n A s.1 j l ^ 2) with hρ
  have hpos : 0 < ρ := lt_of_le_of_ne (Real.sqrt_nonneg _) (Ne.symm hne)
  have hsq : ρ * ρ = ∑ l ∈ range n, residual n A s.1 j l ^ 2 := Real.mul_self_sqrt (Finset.sum_nonneg fun l _ => sq_nonneg _)
  have hprod : ∀ p, p < j → columnProduct n Q' Q' p j = 0 := by
    intro p hp
    have h1 : columnProduct n Q' Q' p j = (∑ l ∈ range n, s.1 l p * (A l j - ∑ k ∈ range j, columnProduct n s.1 A k j * s.1 l k)) / ρ := by
      rw [Finset.sum_div]
      refine Finset.sum_congr rfl fun l hl => ?_
      rw [Finset.mem_range] at hl
      rw [hold l p hp, hQ, if_pos ⟨hl, rfl⟩]
      unfold residual
      ring
    rw [h1, columnProduct_project (r := fun k => columnProduct n s.1 A k j) hp (fun k hk hne => h.orthogonal p k hp hk (Ne.symm hne)), h.unit p hp]
    rw [show ∑ l ∈ range n, s.1 l p * A l j = columnProduct n s.1 A p j from rfl]
    simp
  refine ⟨fun l q hl hq => ?_, fun q hq => ?_, fun q hq => ?_, fun p q hp hq hne => ?_⟩
  · simp only
    rcases Nat.lt_or_eq_of_le (Nat.le_of_lt_succ hq) with hlt | rfl
    · rw [h.elements l q hl hlt]
      exact Finset.sum_congr rfl fun k hk => by rw [Finset.mem_range] at hk; rw [hold l k (by omega), hRold k q hlt]
    · have hs : ∑ k ∈ range q, Q' l k * R' k q = ∑ k ∈ range q, columnProduct n s.1 A k q * s.1 l k := Finset.sum_congr rfl fun k hk => by
        rw [Finset.mem_range] at hk; rw [hold l k hk, hR, if_pos ⟨rfl, hk⟩]; ring
      rw [Finset.sum_range_succ, hs, hQ l q, if_pos ⟨hl, rfl⟩, hR q q, if_neg (by omega), if_pos ⟨rfl, rfl⟩, div_mul_cancel₀ _ hne]
      unfold residual
      ring
  · simp only
    rcases Nat.lt_or_eq_of_le (Nat.le_of_lt_succ hq) with hlt | rfl
    · rw [hRold q q hlt]
      exact h.positive q hlt
    · rw [hR, if_neg (by omega), if_pos ⟨rfl, rfl⟩]
      exact hpos
  · simp only
    rcases Nat.lt_or_eq_of_le (Nat.le_of_lt_succ hq) with hlt | rfl
    · rw [← h.unit q hlt]
      exact Finset.sum_congr rfl fun l _ => by rw [hold l q hlt]
    · have : columnProduct n Q' Q' q q = (∑ l ∈ range n, residual n A s.1 q l ^ 2) / (ρ * ρ) := by
        rw [Finset.sum_div]
        refine Finset.sum_congr rfl fun l hl => ?_
        rw [Finset.mem_range] at hl
        rw [hQ, if_pos ⟨hl, rfl⟩, div_mul_div_comm]
        ring
      rw [this, ← hsq]
      field_simp
  · simp only
    rcases Nat.lt_or_eq_of_le (Nat.le_of_lt_succ hp) with hpl | rfl
    · rcases Nat.lt_or_eq_of_le (Nat.le_of_lt_succ hq) with hql | rfl
      · rw [← h.orthogonal p q hpl hql hne]
        exact Finset.sum_congr rfl fun l _ => by rw [hold l p hpl, hold l q hql]
      · exact hprod p hpl
    · have := hprod q (by omega)
      rw [← this]
      exact Finset.sum_congr rfl fun l _ => by ring

theorem classicalGramSchmidt_some {n : ℕ} {A Q R : Mat ℝ} {s : Mat ℝ × Mat ℝ} (h : classicalGramSchmidt n A Q R = some s) : Orthonormalized n A n s := by
  refine loop_some (fun j s => Orthonormalized n A j s) 0 n _ (Nat.zero_le _) (fun j s s' _ hj ho hs => ?_)
    ⟨fun l q _ hq => by omega, fun q hq => by omega, fun q hq => by omega, fun p q hp => by omega⟩ h
  obtain ⟨R', hR, he⟩ := classical_body n j A s
  rw [he, Option.map_eq_some_iff] at hs
  obtain ⟨Q', hQ, rfl⟩ := hs
  obtain ⟨h1, h2⟩ := divide_column hQ
  exact ho.next hj hR (h1 (by omega)) h2

/-- The residual is a combination of the columns of `A`, the last one with coefficient 1. -/
theorem residual_combination {n j : ℕ} {A Q : Mat ℝ} (hj : j < n) (h : Combinations n A Q j) :
    ∃ z : Vec ℝ, z j = 1 ∧ (∀ p, j < p → z p = 0) ∧ ∀ l < n, residual n A Q j l = ∑ p ∈ range n, A l p * z p := by
  choose! z hz hQ using h
  refine ⟨fun p => (if p = j then 1 else 0) - ∑ k ∈ range j, columnProduct n Q A k j * z k p, ?_, fun p hp => ?_, fun l hl => ?_⟩
  · beta_reduce; rw [if_pos rfl, Finset.sum_eq_zero fun k hk => by rw [Finset.mem_range] at hk; rw [hz k hk j hk, mul_zero], sub_zero]
  · beta_reduce; rw [if_neg (by omega), Finset.sum_eq_zero fun k hk => by rw [Finset.mem_range] at hk; rw [hz k hk p (by omega), mul_zero], sub_zero]
  · unfold residual
    have h1 : ∀ p ∈ range n, A l p * ((if p = j then 1 else 0) - ∑ k ∈ range j, columnProduct n Q A k j * z k p) =
        (if p = j then A l p else 0) - ∑ k ∈ range j, columnProduct n Q A k j * (A l p * z k p) := by
      intro p _
      rw [mul_sub, Finset.mul_sum]
      congr 1
      · split_ifs <;> simp
      · exact Finset.sum_congr rfl fun k _ => by ring
    rw [Finset.sum_congr rfl h1, Finset.sum_sub_distrib, Finset.sum_comm, Finset.sum_ite_eq', if_pos (Finset.mem_range.2 hj)]
    congr 1
    refine Finset.sum_congr rfl fun k hk => ?_
    rw [Finset.mem_range] at hk
    rw [← Finset.mul_sum, hQ k hk l hl]

theorem classicalGramSchmidt_exists {n : ℕ} {A : Mat ℝ} (Q R : Mat ℝ) (hA : ∀ x : Vec ℝ, (∀ l < n, ∑ p ∈ range n, A l p * x p = 0) → ∀ p < n, x p = 0) :
    ∃ s, classicalGramSchmidt n A Q R = some s := by
  have hl := loop_exists (fun j (s : Mat ℝ × Mat ℝ) => Combinations n A s.1 j) 0 n (fun j (s : Mat ℝ × Mat ℝ) =>
    let R := sweep 0 j (fun i (R : Mat ℝ) => R.set i j (sum 0 n fun l => s.1 l i * A l j)) s.2;
    let q : Vec ℝ := sweep 0 j (fun k (q : Vec ℝ) => fun l => q l - R k j * s.1 l k) (fun l => A l j);
    let R := R.set j j √(sum 0 n fun l => q l ^ 2);
    (loop 0 n (fun l (Q : Mat ℝ) => (quotient (q l) (R j j)).map fun x => Q.set l j x) s.1).map fun Q => (Q, R)) (Nat.zero_le _) (fun j s _ hj hc => ?_) (s := (Q, R))
    (fun q hq => by omega)
  · obtain ⟨s, hs, -⟩ := hl
    exact ⟨s, hs⟩
  · obtain ⟨R', -, he⟩ := classical_body n j A s
    obtain ⟨z, hzj, hz, hres⟩ := residual_combination hj hc
    have hne : √(∑ l ∈ range n, residual n A s.1 j l ^ 2) ≠ 0 := by
      intro h0
      rw [Real.sqrt_eq_zero (Finset.sum_nonneg fun l _ => sq_nonneg _), Finset.sum_eq_zero_iff_of_nonneg fun l _ => sq_nonneg _] at h0
      have := hA z (fun l hl => by rw [← hres l hl]; exact pow_eq_zero_iff (two_ne_zero) |>.1 (h0 l (Finset.mem_range.2 hl))) j hj
      rw [hzj] at this
      exact one_ne_zero this
    obtain ⟨Q', hQ⟩ := divide_column_exists s.1 (residual n A s.1 j) n j hne
    obtain ⟨-, h2⟩ := divide_column hQ
    refine ⟨(Q', R'), ?_, fun q hq => ?_⟩
    · simp only at he ⊢
      rw [he, hQ]
      rfl
    · simp only
      rcases Nat.lt_or_eq_of_le (Nat.le_of_lt_succ hq) with hlt | rfl
      · obtain ⟨w, hw, hwQ⟩ := hc q hlt
        exact ⟨w, hw, fun l hl => by rw [h2, if_neg (by omega)]; exact hwQ l hl⟩
      · refine ⟨fun p => z p / √(∑ l ∈ range n, residual n A s.1 q l ^ 2), fun p hp => by simp only; rw [hz p hp, zero_div], fun l hl => ?_⟩
        rw [h2, if_pos ⟨hl, rfl⟩, hres l hl, Finset.sum_div]
        exact Finset.sum_congr rfl fun p _ => by ring

end Principia.Numerics.Matrices
