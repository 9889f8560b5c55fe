import Verif.Numerics.NguyenStehleLattice
import Mathlib.LinearAlgebra.Dimension.OrzechProperty

/-!
The algorithm of Nguyễn and Stehlé in exact arithmetic.
-/

set_option linter.unusedSimpArgs false
set_option linter.unusedVariables false
set_option linter.unusedSectionVars false

namespace Principia.Numerics.Lattices

open Principia.Numerics.Matrices Finset

/-! ## Orthogonalization -/

section

variable {K : Type} [Field K] [LinearOrder K] [IsStrictOrderedRing K]

/-- The scalar products of the columns. -/
theorem GS.entry {m n : ℕ} {A : Mat K} {s : Mat K × Mat K} (h : GS m n A s) {j q : ℕ} (hjq : j ≤ q) (hq : q < n) :
    columnProduct m A A j q = ∑ k ∈ range j, s.2 k j * (s.2 k q * squares m s.1 k) + if j < q then s.2 j q * squares m s.1 j else squares m s.1 q := by
  have h1 : columnProduct m A A j q = ∑ k ∈ range j, s.2 k j * columnProduct m s.1 A k q + columnProduct m s.1 A j q := by
    unfold columnProduct
    have h2 : ∀ l ∈ range m, A l j * A l q = ∑ k ∈ range j, s.2 k j * (s.1 l k * A l q) + s.1 l j * A l q := fun l hl => by
      rw [Finset.mem_range] at hl
      rw [h.elements l j hl (by omega), add_mul, Finset.sum_mul]
      congr 1
      exact Finset.sum_congr rfl fun k _ => by ring
    rw [Finset.sum_congr rfl h2, Finset.sum_add_distrib, Finset.sum_comm]
    congr 1
    exact Finset.sum_congr rfl fun k _ => by rw [Finset.mul_sum]
  rw [h1, h.product (by omega) hq]
  congr 1
  · refine Finset.sum_congr rfl fun k hk => ?_
    rw [Finset.mem_range] at hk
    rw [h.product (by omega) hq, if_pos (by omega)]
  · by_cases hlt : j < q
    · rw [if_pos hlt, if_pos hlt]
    · obtain rfl : j = q := by omega
      rw [if_neg hlt, if_neg hlt, if_pos rfl]

/-- The square of the norm of the projection of the column `κ` orthogonally to the first `j` columns. -/
def rem (m : ℕ) (A : Mat K) (s : Mat K × Mat K) (κ j : ℕ) : K := columnProduct m A A κ κ - ∑ i ∈ range j, s.2 i κ * (s.2 i κ * squares m s.1 i)

theorem rem_last {m n : ℕ} {A : Mat K} {s : Mat K × Mat K} (h : GS m n A s) {κ : ℕ} (hκ : κ < n) : rem m A s κ κ = squares m s.1 κ := by
  unfold rem
  rw [h.entry (le_refl κ) hκ, if_neg (lt_irrefl κ)]
  ring

/-- The orthogonalization after the insertion of the column `κ` at the index `k`. -/
theorem GS.insert {m n : ℕ} {A A' : Mat K} {s s' : Mat K × Mat K} (h : GS m n A s) (h' : GS m n A' s') {k κ : ℕ} (hk : k ≤ κ) (hκ : κ < n) (hA : ∀ q < k, ∀ l < m, A' l q = A l q)
    (hAk : ∀ l < m, A' l k = A l κ) :
    ((∀ q < k, ∀ l < m, s'.1 l q = s.1 l q) ∧ ∀ i j, i < j → j < k → s'.2 i j = s.2 i j) ∧ (∀ i < k, s'.2 i k = s.2 i κ) ∧ squares m s'.1 k = rem m A s κ k := by
  obtain ⟨h1, h2⟩ := h.prefix_columns h' (c := k) (by omega) hA
  have hsq : ∀ i < k, squares m s'.1 i = squares m s.1 i := fun i hi => squares_congr fun l hl => h1 i hi l hl
  have h3 : ∀ i < k, s'.2 i k = s.2 i κ := fun i hi => by
    rw [h'.coefficient hi (by omega), h.coefficient (by omega) hκ, hsq i hi]
    have : columnProduct m s'.1 A' i k = columnProduct m s.1 A i κ := Finset.sum_congr rfl fun l hl => by
      rw [Finset.mem_range] at hl; rw [h1 i hi l hl, hAk l hl]
    rw [this]
  refine ⟨⟨h1, h2⟩, h3, ?_⟩
  rw [← rem_last h' (by omega : k < n)]
  unfold rem
  have e1 : columnProduct m A' A' k k = columnProduct m A A κ κ := Finset.sum_congr rfl fun l hl => by
    rw [Finset.mem_range] at hl; rw [hAk l hl]
  rw [e1]
  congr 1
  exact Finset.sum_congr rfl fun i hi => by rw [Finset.mem_range] at hi; rw [h3 i hi, hsq i hi]

/-- The orthogonalization after the subtraction of a combination of the first columns. -/
theorem GS.subtract_all {m n : ℕ} {A A' : Mat K} {s s' : Mat K × Mat K} (h : GS m n A s) (h' : GS m n A' s') {κ : ℕ} (hκ : κ < n) (x : Vec K)
    (hA : ∀ l q, l < m → q < n → A' l q = if q = κ then A l κ - ∑ j ∈ range κ, x j * A l j else A l q) :
    (∀ q < n, ∀ l < m, s'.1 l q = s.1 l q) ∧ ∀ i < κ, squares m s.1 i ≠ 0 → s'.2 i κ = s.2 i κ - ∑ j ∈ Ico (i + 1) κ, x j * s.2 i j - x i := by
  have h1 : ∀ q < n, ∀ l < m, s'.1 l q = s.1 l q := by
    refine h.same_columns h' (le_refl n) fun q hq => ?_
    by_cases hqκ : q = κ
    · subst hqκ
      refine ⟨fun i => x i + ∑ j ∈ Ico (i + 1) q, x j * s.2 i j, fun l hl => ?_⟩
      rw [hA l q hl hq, if_pos rfl]
      congr 1
      have e1 : ∀ j ∈ range q, x j * A l j = ∑ i ∈ range q, (if i < j then x j * s.2 i j * s.1 l i else 0) + x j * s.1 l j := fun j hj => by
        rw [Finset.mem_range] at hj
        rw [h.elements l j hl (by omega), mul_add, Finset.mul_sum, ← Finset.sum_filter]
        have : (range q).filter (fun i => i < j) = range j := by
          ext i; simp only [Finset.mem_filter, Finset.mem_range]; omega
        rw [this]
        congr 1
        exact Finset.sum_congr rfl fun i _ => by ring
      rw [Finset.sum_congr rfl e1, Finset.sum_add_distrib, Finset.sum_comm]
      have e2 : ∀ i ∈ range q, (x i + ∑ j ∈ Ico (i + 1) q, x j * s.2 i j) * s.1 l i = ∑ j ∈ range q, (if i < j then x j * s.2 i j * s.1 l i else 0) + x i * s.1 l i := fun i hi => by
        rw [Finset.mem_range] at hi
        rw [← Finset.sum_filter]
        have : (range q).filter (fun j => i < j) = Ico (i + 1) q := by
          ext j; simp only [Finset.mem_filter, Finset.mem_range, Finset.mem_Ico]; omega
        rw [this, ← Finset.sum_mul]
        ring
      rw [Finset.sum_congr rfl e2, Finset.sum_add_distrib]
    · exact ⟨fun _ => 0, fun l hl => by rw [hA l q hl hq, if_neg hqκ]; simp⟩
  refine ⟨h1, fun i hi h0 => ?_⟩
  have hsq : squares m s'.1 i = squares m s.1 i := squares_congr fun l hl => h1 i (by omega) l hl
  have hc : columnProduct m s'.1 A' i κ = columnProduct m s.1 A i κ - ∑ j ∈ range κ, x j * columnProduct m s.1 A i j := by
    unfold columnProduct
    have e1 : ∀ l ∈ range m, s'.1 l i * A' l κ = s.1 l i * A l κ - ∑ j ∈ range κ, x j * (s.1 l i * A l j) := fun l hl => by
      rw [Finset.mem_range] at hl
      rw [h1 i (by omega) l hl, hA l κ hl hκ, if_pos rfl, mul_sub, Finset.mul_sum]
      congr 1
      exact Finset.sum_congr rfl fun j _ => by ring
    rw [Finset.sum_congr rfl e1, Finset.sum_sub_distrib, Finset.sum_comm]
    congr 1
    exact Finset.sum_congr rfl fun j _ => by rw [Finset.mul_sum]
  have hp : ∑ j ∈ range κ, x j * columnProduct m s.1 A i j = (∑ j ∈ Ico (i + 1) κ, x j * s.2 i j + x i) * squares m s.1 i := by
    have e1 : ∀ j ∈ range κ, x j * columnProduct m s.1 A i j = (if i < j then x j * s.2 i j * squares m s.1 i else 0) + if i = j then x i * squares m s.1 i else 0 := fun j hj => by
      rw [Finset.mem_range] at hj
      rw [h.product (by omega) (by omega)]
      by_cases h3 : i < j
      · rw [if_pos h3, if_pos h3, if_neg (by omega)]; ring
      · by_cases h4 : i = j
        · subst h4; rw [if_neg h3, if_pos rfl, if_neg h3, if_pos rfl]; ring
        · rw [if_neg h3, if_neg h4, if_neg h3, if_neg h4]; ring
    rw [Finset.sum_congr rfl e1, Finset.sum_add_distrib, Finset.sum_ite_eq, if_pos (Finset.mem_range.2 hi), ← Finset.sum_filter]
    have : (range κ).filter (fun j => i < j) = Ico (i + 1) κ := by
      ext j; simp only [Finset.mem_filter, Finset.mem_range, Finset.mem_Ico]; omega
    rw [this, ← Finset.sum_mul]
    ring
  rw [h'.coefficient hi hκ, hsq, if_neg h0, hc, hp, h.product (by omega) hκ, if_pos hi, ← sub_mul, mul_div_assoc, div_self h0]
  ring

/-- The effect on the potential of an exchange of consecutive columns. -/
theorem potential_swap {m n k : ℕ} {A A' : Mat K} {s : Mat K × Mat K} (hs : GS m n A s) (hk0 : 0 < k) (hk : k < n)
    (hA : ∀ l q, l < m → q < n → A' l q = if q = k - 1 then A l k else if q = k then A l (k - 1) else A l q) (hd : (gram m n A).det ≠ 0)
    (hlt : squares m s.1 k + s.2 (k - 1) k ^ 2 * squares m s.1 (k - 1) < squares m s.1 (k - 1)) : (gram m n A').det ≠ 0 ∧ potential m n A' < potential m n A := by
  have hsw : ∀ i ≤ n, i ≠ k → (gram m i A').det = (gram m i A).det := fun i hi hik => det_gram_swap hk hk0 hi hik hA
  have hdn : (gram m n A').det ≠ 0 := by rw [hsw n (le_refl n) (by omega)]; exact hd
  refine ⟨hdn, ?_⟩
  have hgs := unitriangularGramSchmidt_gs m n A' (fun _ _ => 0) (fun _ _ => 0)
  generalize unitriangularGramSchmidt m n A' (fun _ _ => 0) (fun _ _ => 0) = s' at hgs
  obtain ⟨h1, -, h3⟩ := hs.swap hgs hk0 hk hA
  have hlt' : (gram m k A').det < (gram m k A).det := by
    rw [det_gram hgs hk.le, det_gram hs hk.le]
    obtain ⟨c, rfl⟩ := Nat.exists_eq_succ_of_ne_zero (by omega : k ≠ 0)
    rw [Finset.prod_range_succ, Finset.prod_range_succ]
    simp only [Nat.succ_eq_add_one, Nat.add_sub_cancel] at h1 h3 hlt
    have h4 : ∏ j ∈ range c, squares m s'.1 j = ∏ j ∈ range c, squares m s.1 j :=
      Finset.prod_congr rfl fun j hj => by rw [Finset.mem_range] at hj; exact squares_congr fun l hl => h1 j hj l hl
    rw [h4, h3]
    exact mul_lt_mul_of_pos_left hlt (Finset.prod_pos fun j hj => squares_pos hs hd (by rw [Finset.mem_range] at hj; omega))
  unfold potential
  refine Finset.prod_lt_prod (fun i hi => det_gram_pos hdn (by rw [Finset.mem_range] at hi; omega)) (fun i hi => ?_) ⟨k, Finset.mem_range.2 (by omega), hlt'⟩
  rw [Finset.mem_range] at hi
  by_cases hik : i = k
  · subst hik; exact hlt'.le
  · rw [hsw i (by omega) hik]

/-- The effect on the potential of the insertion of a column. -/
theorem potential_insert {m n κ : ℕ} {A : Mat K} {s : Mat K × Mat K} (hs : GS m n A s) (hκ : κ < n) (hd : (gram m n A).det ≠ 0) :
    ∀ c ≤ κ, (∀ p, κ - c < p → p ≤ κ → rem m A s κ (p - 1) < squares m s.1 (p - 1)) →
      (gram m n fun l q => A l (rot κ (κ - c) q)).det ≠ 0 ∧ (c = 0 ∨ potential m n (fun l q => A l (rot κ (κ - c) q)) < potential m n A) ∧
        potential m n (fun l q => A l (rot κ (κ - c) q)) ≤ potential m n A
  | 0, _, _ => by
    have : (fun l q => A l (rot κ (κ - 0) q)) = A := by
      funext l q
      congr 1
      unfold rot
      split_ifs <;> omega
    rw [this]
    exact ⟨hd, Or.inl rfl, le_refl _⟩
  | c + 1, hc, hp => by
    obtain ⟨h1, h2, h3⟩ := potential_insert hs hκ hd c (by omega) fun p hp1 hp2 => hp p (by omega) hp2
    obtain ⟨k, hk⟩ : ∃ k, k = κ - c := ⟨_, rfl⟩
    rw [← hk] at h1 h2 h3
    rw [show κ - (c + 1) = k - 1 by omega]
    have hgk := unitriangularGramSchmidt_gs m n (fun l q => A l (rot κ k q)) (fun _ _ => 0) (fun _ _ => 0)
    have hgp := unitriangularGramSchmidt_gs m n (fun l q => A l (rot κ (k - 1) q)) (fun _ _ => 0) (fun _ _ => 0)
    generalize unitriangularGramSchmidt m n (fun l q => A l (rot κ k q)) (fun _ _ => 0) (fun _ _ => 0) = sk at hgk
    generalize unitriangularGramSchmidt m n (fun l q => A l (rot κ (k - 1) q)) (fun _ _ => 0) (fun _ _ => 0) = sp at hgp
    have hA : ∀ l q, l < m → q < n → (fun l q => A l (rot κ (k - 1) q)) l q =
        if q = k - 1 then (fun l q => A l (rot κ k q)) l k else if q = k then (fun l q => A l (rot κ k q)) l (k - 1) else (fun l q => A l (rot κ k q)) l q := by
      intro l q _ _
      beta_reduce
      unfold rot
      by_cases e1 : q = k - 1
      · rw [if_pos e1, if_pos e1, if_pos rfl]
      · rw [if_neg e1, if_neg e1]
        by_cases e2 : q = k
        · rw [if_pos e2, if_pos (by omega), if_neg (by omega), if_neg (by omega), e2]
        · rw [if_neg e2, if_neg e2]
          by_cases e3 : k < q ∧ q ≤ κ
          · rw [if_pos (by omega), if_pos e3]
          · rw [if_neg (by omega), if_neg e3]
    obtain ⟨-, -, hsw⟩ := hgk.swap hgp (k := k) (by omega) (by omega) hA
    obtain ⟨-, -, hin⟩ := hs.insert hgp (k := k - 1) (κ := κ) (by omega) hκ (fun q hq l _ => by unfold rot; rw [if_neg (by omega), if_neg (by omega)])
      (fun l _ => by unfold rot; rw [if_pos rfl])
    obtain ⟨⟨hpre, -⟩, -⟩ := hs.insert hgk (k := k) (κ := κ) (by omega) hκ (fun q hq l _ => by unfold rot; rw [if_neg (by omega), if_neg (by omega)])
      (fun l _ => by unfold rot; rw [if_pos rfl])
    have hsq : squares m sk.1 (k - 1) = squares m s.1 (k - 1) := squares_congr fun l hl => hpre (k - 1) (by omega) l hl
    obtain ⟨h4, h5⟩ := potential_swap hgk (k := k) (by omega) (by omega) hA h1 (by rw [← hsw, hin, hsq]; exact hp k (by omega) (by omega))
    exact ⟨h4, Or.inr (lt_of_lt_of_le h5 h3), (lt_of_lt_of_le h5 h3).le⟩

end

/-! ## Independence -/

theorem independent_of_lattice {n d : ℕ} {A B : Matrix (Fin n) (Fin d) ℚ} (h : lattice A = lattice B) (hB : Independent B) : Independent A := by
  have key : ∀ C : Matrix (Fin n) (Fin d) ℚ, Independent C ↔ LinearIndependent ℚ fun j : Fin d => fun i => C i j := fun C => by
    rw [Fintype.linearIndependent_iff]
    unfold Independent
    constructor
    · intro hC g hg j
      have := hC g (by
        rw [← hg]
        funext i
        rw [Matrix.mulVec, dotProduct, Finset.sum_apply]
        exact Finset.sum_congr rfl fun j _ => by rw [Pi.smul_apply, smul_eq_mul, mul_comm])
      rw [this]; rfl
    · intro hC x hx
      funext j
      refine hC x ?_ j
      rw [← hx]
      funext i
      rw [Matrix.mulVec, dotProduct, Finset.sum_apply]
      exact Finset.sum_congr rfl fun j _ => by rw [Pi.smul_apply, smul_eq_mul, mul_comm]
  have hspan : ∀ C : Matrix (Fin n) (Fin d) ℚ, Submodule.span ℚ (Set.range fun j : Fin d => fun i => C i j) = Submodule.span ℚ (lattice C : Set (Fin n → ℚ)) := fun C => by
    refine le_antisymm (Submodule.span_mono Submodule.subset_span) ?_
    rw [Submodule.span_le]
    intro x hx
    have h1 : lattice C ≤ (Submodule.span ℚ (Set.range fun j : Fin d => fun i => C i j)).restrictScalars ℤ := by
      unfold lattice
      rw [Submodule.span_le]
      intro y hy
      exact Submodule.subset_span hy
    exact h1 hx
  rw [key] at hB ⊢
  rw [linearIndependent_iff_card_eq_finrank_span] at hB ⊢
  rw [hB, Set.finrank, Set.finrank, hspan, hspan, h]

end Principia.Numerics.Lattices
