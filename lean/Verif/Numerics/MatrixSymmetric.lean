import Verif.Numerics.MatrixLemmas
import Verif.Numerics.MatrixSpec

/-!
The decompositions of symmetric matrices.
-/

set_option linter.unusedSimpArgs false
set_option linter.unusedVariables false
set_option linter.unusedSectionVars false

namespace Principia.Numerics.Matrices

open Finset

section Field

variable {K : Type} [Field K] [LinearOrder K]

/-- The elements of the first `j` rows of `S` are those of `ᵗR D R`. -/
def Rows (n : ℕ) (S R : Mat K) (d : Vec K) (j : ℕ) : Prop := ∀ p q, p < j → p ≤ q → q < n → S p q = ∑ k ∈ range (p + 1), R k p * R k q * d k

/-- If the elements of the first `j` rows of `S` that are not to the right of column `j` are those of `ᵗR D R`, some value of the form `S` is the next pivot. -/
theorem pivot_form {n j : ℕ} {S R : Mat K} {d : Vec K} (hj : j < n) (hS : ∀ p q, p < n → q < n → S p q = S q p) (hR : ∀ p < j, R p p ≠ 0)
    (h : ∀ p q, p < j → p ≤ q → q ≤ j → S p q = ∑ k ∈ range (p + 1), R k p * R k q * d k) :
    ∃ x : ℕ → K, x j = 1 ∧ ∑ p ∈ range n, ∑ q ∈ range n, x p * S p q * x q = S j j - ∑ k ∈ range j, R k j ^ 2 * d k := by
  obtain ⟨y, hy⟩ : ∃ y : Vec K, Back j R (fun p => -R p j) 0 y := by
    by_cases h0 : j = 0
    · exact ⟨fun _ => 0, fun p _ hp => by omega⟩
    · obtain ⟨y, -, hy⟩ := backSubstitution_exists (fun p => -R p j) (fun _ => 0) h0 hR
      exact ⟨y, hy⟩
  let x : ℕ → K := fun q => if q < j then y q else if q = j then 1 else 0
  let R' : Mat K := fun k p => if k ≤ p ∧ p ≤ j then R k p else 0
  let c : K := S j j - ∑ k ∈ range j, R k j ^ 2 * d k
  refine ⟨x, by simp [x], ?_⟩
  have hlow : ∀ p q, p < j → p ≤ q → q ≤ j → S p q = ∑ k ∈ range j, R' k p * R' k q * d k := by
    intro p q hp hpq hq
    rw [h p q hp hpq hq]
    have hsub : range (p + 1) ⊆ range j := fun k hk => by rw [Finset.mem_range] at *; omega
    rw [← Finset.sum_subset hsub (fun k hk hk' => ?_)]
    · refine Finset.sum_congr rfl fun k hk => ?_
      rw [Finset.mem_range] at hk
      simp only [R']
      rw [if_pos ⟨by omega, by omega⟩, if_pos ⟨by omega, hq⟩]
    · rw [Finset.mem_range] at hk hk'
      simp only [R']
      rw [if_neg (by omega)]
      ring
  have hterm : ∀ p ∈ range n, ∀ q ∈ range n, x p * S p q * x q = ∑ k ∈ range j, (R' k p * x p) * (R' k q * x q) * d k + if p = j then (if q = j then c else 0) else 0 := by
    intro p hp q hq
    rw [Finset.mem_range] at hp hq
    by_cases hpj : j < p
    · have hx : x p = 0 := by simp only [x]; rw [if_neg (by omega), if_neg (by omega)]
      rw [if_neg (by omega), hx]
      simp
    by_cases hqj : j < q
    · have hx : x q = 0 := by simp only [x]; rw [if_neg (by omega), if_neg (by omega)]
      rw [hx, if_neg (show q ≠ j by omega)]
      simp
    have hsum : ∀ e : K, (∑ k ∈ range j, (R' k p * x p) * (R' k q * x q) * d k) + e = x p * (∑ k ∈ range j, R' k p * R' k q * d k) * x q + e := by
      intro e
      rw [Finset.mul_sum, Finset.sum_mul]
      congr 1
      exact Finset.sum_congr rfl fun k _ => by ring
    rw [hsum]
    rcases Nat.lt_or_eq_of_le (Nat.le_of_not_lt hpj) with hlt | rfl
    · rw [if_neg (by omega)]
      rcases Nat.le_total p q with hle | hle
      · rw [hlow p q hlt hle (by omega)]; ring
      · by_cases hql : q < j
        · rw [hS p q hp hq, hlow q p hql hle (by omega), add_zero]
          congr 2
          exact Finset.sum_congr rfl fun k _ => by ring
        · rw [hlow p q hlt (by omega) (by omega)]; ring
    · rw [if_pos rfl]
      rcases Nat.lt_or_eq_of_le (Nat.le_of_not_lt hqj) with hlt | rfl
      · rw [if_neg (by omega), hS p q hp hq, hlow q p hlt (by omega) (by omega), add_zero]
        congr 2
        exact Finset.sum_congr rfl fun k _ => by ring
      · rw [if_pos rfl]
        have hx : x q = 1 := by simp [x]
        have hs : ∑ k ∈ range q, R' k q * R' k q * d k = ∑ k ∈ range q, R k q ^ 2 * d k := by
          refine Finset.sum_congr rfl fun k hk => ?_
          rw [Finset.mem_range] at hk
          simp only [R']
          rw [if_pos ⟨by omega, le_refl _⟩]
          ring
        rw [hx, hs]
        simp only [c]
        ring
  rw [Finset.sum_congr rfl fun p hp => Finset.sum_congr rfl (hterm p hp)]
  simp only [Finset.sum_add_distrib]
  have hc : ∑ p ∈ range n, ∑ q ∈ range n, (if p = j then (if q = j then c else 0) else 0) = c := by
    rw [Finset.sum_eq_single j (fun p _ hp => by simp [hp]) (fun hn => absurd (Finset.mem_range.2 hj) hn)]
    simp [hj]
  have hz : ∑ p ∈ range n, ∑ q ∈ range n, ∑ k ∈ range j, (R' k p * x p) * (R' k q * x q) * d k = 0 := by
    rw [Finset.sum_congr rfl fun p _ => Finset.sum_comm, Finset.sum_comm]
    refine Finset.sum_eq_zero fun k hk => ?_
    rw [Finset.mem_range] at hk
    have hzero : ∑ q ∈ range n, R' k q * x q = 0 := by
      have hsub : Ico k (j + 1) ⊆ range n := fun q hq => by rw [Finset.mem_Ico] at hq; rw [Finset.mem_range]; omega
      rw [← Finset.sum_subset hsub (fun q hq hq' => ?_)]
      · rw [Finset.sum_Ico_succ_top (by omega), Finset.sum_congr rfl (g := fun q => R k q * y q) (fun q hq => ?_), hy k (Nat.zero_le _) hk]
        · simp only [R', x]
          rw [if_pos ⟨by omega, le_refl _⟩, if_neg (by omega)]
          simp
        · rw [Finset.mem_Ico] at hq
          simp only [R', x]
          rw [if_pos ⟨hq.1, by omega⟩, if_pos hq.2]
      · rw [Finset.mem_Ico] at hq'
        simp only [R']
        rw [if_neg (by omega)]
        ring
    have : ∀ p ∈ range n, ∑ q ∈ range n, (R' k p * x p) * (R' k q * x q) * d k = 0 := by
      intro p _
      rw [Finset.sum_congr rfl (g := fun q => (R' k p * x p * d k) * (R' k q * x q)) (fun q _ => by ring), ← Finset.mul_sum, hzero, mul_zero]
    exact Finset.sum_eq_zero this
  rw [hz, hc]
  ring

end Field

/-! ## The Cholesky decomposition -/

/-- The elements of the first `j` columns of `S` are those of `ᵗR R`. -/
def Columns (S R : Mat ℝ) (j : ℕ) : Prop := ∀ q < j, (∀ p ≤ q, S p q = ∑ k ∈ range (p + 1), R k p * R k q) ∧ 0 ≤ R q q

theorem cholesky_column {S R R' : Mat ℝ} {j : ℕ} (hr : Columns S R j)
    (h : loop 0 j (fun i (R : Mat ℝ) => (quotient (S i j - sum 0 i fun k => R k i * R k j) (R i i)).map fun x => R.set i j x) R = some R') :
    (∀ p q, q ≠ j → R' p q = R p q) ∧ (∀ p < j, S p j = ∑ k ∈ range (p + 1), R' k p * R' k j) ∧ ∀ p < j, R p p ≠ 0 := by
  refine loop_some (fun i (R' : Mat ℝ) => (∀ p q, q ≠ j → R' p q = R p q) ∧ (∀ p < i, S p j = ∑ k ∈ range (p + 1), R' k p * R' k j) ∧ ∀ p < i, R p p ≠ 0) 0 j _ (Nat.zero_le _)
    (fun i s s' _ hi ⟨h1, h2, h3⟩ hs => ?_) ⟨fun _ _ _ => rfl, fun p hp => by omega, fun p hp => by omega⟩ h
  rw [Option.map_eq_some_iff] at hs
  obtain ⟨z, hz, rfl⟩ := hs
  obtain ⟨h4, h5⟩ := quotient_some hz
  rw [sum_zero_eq] at h5
  refine ⟨fun p q hq => ?_, fun p hp => ?_, fun p hp => ?_⟩
  · rw [Mat.set_ne _ _ (by omega)]
    exact h1 p q hq
  · rcases Nat.lt_or_eq_of_le (Nat.le_of_lt_succ hp) with hlt | rfl
    · rw [h2 p hlt]
      refine Finset.sum_congr rfl fun k hk => ?_
      rw [Finset.mem_range] at hk
      rw [Mat.set_ne _ _ (by omega), Mat.set_ne _ _ (by omega)]
    · rw [Finset.sum_range_succ, Mat.set_eq, Mat.set_ne _ _ (by omega), Finset.sum_congr rfl (g := fun k => s k p * s k j) (fun k hk => by
        rw [Finset.mem_range] at hk; rw [Mat.set_ne _ _ (by omega), Mat.set_ne _ _ (by omega)])]
      linear_combination -h5
  · rcases Nat.lt_or_eq_of_le (Nat.le_of_lt_succ hp) with hlt | rfl
    · exact h3 p hlt
    · rwa [h1 p p (by omega)] at h4

theorem cholesky_column_exists {S R : Mat ℝ} {j : ℕ} (hr : ∀ p < j, R p p ≠ 0) :
    ∃ R', loop 0 j (fun i (R : Mat ℝ) => (quotient (S i j - sum 0 i fun k => R k i * R k j) (R i i)).map fun x => R.set i j x) R = some R' := by
  obtain ⟨R', h, -⟩ := loop_exists (fun i (R' : Mat ℝ) => ∀ p q, q ≠ j → R' p q = R p q) 0 j
    (fun i (R : Mat ℝ) => (quotient (S i j - sum 0 i fun k => R k i * R k j) (R i i)).map fun x => R.set i j x) (Nat.zero_le _) (fun i s _ hi h1 => by
      rw [quotient_eq (by rw [h1 i i (by omega)]; exact hr i hi)]
      exact ⟨_, rfl, fun p q hq => by beta_reduce; rw [Mat.set_ne _ _ (by omega)]; exact h1 p q hq⟩) (s := R) (fun _ _ _ => rfl)
  exact ⟨R', h⟩

theorem Columns.next {S R R' : Mat ℝ} {j : ℕ} {x : ℝ} (hr : Columns S R j) (h1 : ∀ p q, q ≠ j → R' p q = R p q) (h2 : ∀ p < j, S p j = ∑ k ∈ range (p + 1), R' k p * R' k j)
    (hx : 0 ≤ x) (he : x * x = S j j - ∑ k ∈ range j, R' k j ^ 2) : Columns S (R'.set j j x) (j + 1) := by
  intro q hq
  rcases Nat.lt_or_eq_of_le (Nat.le_of_lt_succ hq) with hlt | rfl
  · refine ⟨fun p hp => ?_, ?_⟩
    · rw [(hr q hlt).1 p hp]
      refine Finset.sum_congr rfl fun k hk => ?_
      rw [Mat.set_ne _ _ (by omega), Mat.set_ne _ _ (by omega), h1 k p (by omega), h1 k q (by omega)]
    · rw [Mat.set_ne _ _ (by omega), h1 q q (by omega)]
      exact (hr q hlt).2
  · refine ⟨fun p hp => ?_, by rw [Mat.set_eq]; exact hx⟩
    rcases Nat.lt_or_eq_of_le hp with hlt | rfl
    · rw [h2 p hlt]
      refine Finset.sum_congr rfl fun k hk => ?_
      rw [Finset.mem_range] at hk
      rw [Mat.set_ne _ _ (by omega), Mat.set_ne _ _ (by omega)]
    · rw [Finset.sum_range_succ, Mat.set_eq, Finset.sum_congr rfl (g := fun k => R' k p ^ 2) (fun k hk => by
        rw [Finset.mem_range] at hk; rw [Mat.set_ne _ _ (by omega)]; ring)]
      linear_combination -he

theorem cholesky_some {n : ℕ} {S u R : Mat ℝ} (h : cholesky n S u = some R) : Columns S R n := by
  refine loop_some (fun j R => Columns S R j) 0 n _ (Nat.zero_le _) (fun j s s' _ hj hc hs => ?_) (fun q hq => by omega) h
  rw [Option.bind_eq_some_iff] at hs
  obtain ⟨R', hR', hs⟩ := hs
  obtain ⟨h1, h2, -⟩ := cholesky_column hc hR'
  rw [Option.map_eq_some_iff] at hs
  obtain ⟨x, hx, rfl⟩ := hs
  unfold squareRoot at hx
  rw [sum_zero_eq] at hx
  by_cases hneg : S j j - ∑ k ∈ range j, R' k j ^ 2 < 0
  · rw [if_pos hneg] at hx; simp at hx
  · rw [if_neg hneg, Option.some.injEq] at hx
    refine hc.next h1 h2 (by rw [← hx]; exact Real.sqrt_nonneg _) ?_
    rw [← hx]
    exact Real.mul_self_sqrt (not_lt.1 hneg)

theorem cholesky_exists {n : ℕ} {S u : Mat ℝ} (hS : ∀ p q, p < n → q < n → S p q = S q p)
    (hp : ∀ x : ℕ → ℝ, (∃ i < n, x i ≠ 0) → 0 < ∑ p ∈ range n, ∑ q ∈ range n, x p * S p q * x q) :
    ∃ R, cholesky n S u = some R ∧ Columns S R n ∧ ∀ j < n, 0 < R j j := by
  refine loop_exists (fun j R => Columns S R j ∧ ∀ q < j, 0 < R q q) 0 n _ (Nat.zero_le _) (fun j s _ hj ⟨hc, hs⟩ => ?_) ⟨fun q hq => by omega, fun q hq => by omega⟩
  obtain ⟨R', hR'⟩ := cholesky_column_exists (S := S) (R := s) (j := j) (fun p hp => (hs p hp).ne')
  obtain ⟨h1, h2, -⟩ := cholesky_column hc hR'
  obtain ⟨x, hx, he⟩ := pivot_form (n := n) (j := j) (S := S) (R := R') (d := fun _ => 1) hj hS (fun p hp => by rw [h1 p p (by omega)]; exact (hs p hp).ne') (fun p q hp hpq hq => by
    simp only [mul_one]
    rcases Nat.lt_or_eq_of_le hq with hlt | rfl
    · rw [(hc q hlt).1 p hpq]
      exact Finset.sum_congr rfl fun k hk => by rw [h1 k p (by omega), h1 k q (by omega)]
    · exact h2 p hp)
  simp only [mul_one] at he
  have hpos : 0 < S j j - ∑ k ∈ range j, R' k j ^ 2 := by rw [← he]; exact hp x ⟨j, hj, by rw [hx]; exact one_ne_zero⟩
  refine ⟨R'.set j j √(S j j - ∑ k ∈ range j, R' k j ^ 2), ?_, hc.next h1 h2 (Real.sqrt_nonneg _) (Real.mul_self_sqrt hpos.le), fun q hq => ?_⟩
  · rw [hR', Option.bind_some, sum_zero_eq, squareRoot, if_neg (not_lt.2 hpos.le)]
    rfl
  · rcases Nat.lt_or_eq_of_le (Nat.le_of_lt_succ hq) with hlt | rfl
    · rw [Mat.set_ne _ _ (by omega), h1 q q (by omega)]
      exact hs q hlt
    · rw [Mat.set_eq]
      exact Real.sqrt_pos.2 hpos

/-! ## The `ᵗRDR` decomposition -/

section Field

variable {K : Type} [Field K] [LinearOrder K]

theorem rdr_row {n i : ℕ} {S R R' : Mat K} {D : Vec K} (hi : i < n)
    (h : loop (i + 1) n (fun j (R : Mat K) => (quotient (S i j - sum 0 i fun k => R k i * R k j * D k) (D i)).map fun x => R.set i j x) R = some R') :
    (∀ p q, ¬(p = i ∧ i < q) → R' p q = R p q) ∧ (∀ q, i < q → q < n → S i q = ∑ k ∈ range i, R k i * R k q * D k + R' i q * D i) := by
  have := loop_some (fun j (R' : Mat K) => (∀ p q, ¬(p = i ∧ i < q) → R' p q = R p q) ∧ ∀ q, i < q → q < j → S i q = ∑ k ∈ range i, R k i * R k q * D k + R' i q * D i)
    (i + 1) n _ (by omega) (fun j s s' hij hj ⟨h1, h2⟩ hs => ?_) ⟨fun _ _ _ => rfl, fun q h1 h2 => by omega⟩ h
  · exact this
  · rw [Option.map_eq_some_iff] at hs
    obtain ⟨z, hz, rfl⟩ := hs
    obtain ⟨h4, h5⟩ := quotient_some hz
    rw [sum_zero_eq] at h5
    refine ⟨fun p q hq => ?_, fun q hq hqj => ?_⟩
    · rw [Mat.set_ne _ _ (by omega)]
      exact h1 p q hq
    · rcases Nat.lt_or_eq_of_le (Nat.le_of_lt_succ hqj) with hlt | rfl
      · rw [Mat.set_ne _ _ (by omega)]
        exact h2 q hq hlt
      · have hsum : ∑ k ∈ range i, s k i * s k q * D k = ∑ k ∈ range i, R k i * R k q * D k := Finset.sum_congr rfl fun k hk => by
          rw [Finset.mem_range] at hk; rw [h1 k i (by omega), h1 k q (by omega)]
        rw [Mat.set_eq, h5, hsum]
        ring

theorem rdr_row_exists {n i : ℕ} {S R : Mat K} {D : Vec K} (hi : i < n) (hD : D i ≠ 0) :
    ∃ R', loop (i + 1) n (fun j (R : Mat K) => (quotient (S i j - sum 0 i fun k => R k i * R k j * D k) (D i)).map fun x => R.set i j x) R = some R' := by
  obtain ⟨R', h, -⟩ := loop_exists (fun _ _ => True) (i + 1) n (fun j (R : Mat K) => (quotient (S i j - sum 0 i fun k => R k i * R k j * D k) (D i)).map fun x => R.set i j x)
    (by omega) (fun j s _ _ _ => by rw [quotient_eq hD]; exact ⟨_, rfl, trivial⟩) (s := R) trivial
  exact ⟨R', h⟩

/-- What an iteration establishes. -/
structure Rdr (n : ℕ) (S : Mat K) (i : ℕ) (s : Mat K × Vec K) : Prop where
  rows : Rows n S s.1 s.2 i
  unit : ∀ p < i, s.1 p p = 1

theorem Rdr.next {n i : ℕ} {S R R' : Mat K} {D : Vec K} (hi : i < n) (hr : Rdr n S i (R, D)) (h1 : ∀ p q, ¬(p = i ∧ i < q) → R' p q = R p q)
    (h2 : ∀ q, i < q → q < n → S i q = ∑ k ∈ range i, R k i * R k q * D k + R' i q * (S i i - ∑ k ∈ range i, R k i ^ 2 * D k)) :
    Rdr n S (i + 1) (R'.set i i 1, D.set i (S i i - ∑ k ∈ range i, R k i ^ 2 * D k)) := by
  refine ⟨fun p q hp hpq hq => ?_, fun p hp => ?_⟩
  · simp only
    rcases Nat.lt_or_eq_of_le (Nat.le_of_lt_succ hp) with hlt | rfl
    · rw [hr.rows p q hlt hpq hq]
      refine Finset.sum_congr rfl fun k hk => ?_
      rw [Finset.mem_range] at hk
      rw [Mat.set_ne _ _ (by omega), Mat.set_ne _ _ (by omega), Vec.set_ne _ _ (by omega), h1 k p (by omega), h1 k q (by omega)]
    · rw [Finset.sum_range_succ, Vec.set_eq, Mat.set_eq, Finset.sum_congr rfl (g := fun k => R k p * R k q * D k) (fun k hk => by
        rw [Finset.mem_range] at hk
        rw [Mat.set_ne _ _ (by omega), Mat.set_ne _ _ (by omega), Vec.set_ne _ _ (by omega), h1 k p (by omega), h1 k q (by omega)])]
      rcases Nat.lt_or_eq_of_le hpq with hlt | rfl
      · rw [Mat.set_ne _ _ (by omega), h2 q hlt hq]
        ring
      · rw [Mat.set_eq, Finset.sum_congr rfl (g := fun k => R k p ^ 2 * D k) (fun k _ => by ring)]
        ring
  · simp only
    rcases Nat.lt_or_eq_of_le (Nat.le_of_lt_succ hp) with hlt | rfl
    · rw [Mat.set_ne _ _ (by omega), h1 p p (by omega)]
      exact hr.unit p hlt
    · rw [Mat.set_eq]

theorem rdr_some {n : ℕ} {S u : Mat K} {v : Vec K} {r : Mat K × Vec K} (h : rdr n S u v = some r) : Rdr n S n r := by
  refine loop_some (fun i s => Rdr n S i s) 0 n _ (Nat.zero_le _) (fun i s s' _ hi hr hs => ?_) ⟨fun p q hp => by omega, fun p hp => by omega⟩ h
  rw [Option.map_eq_some_iff] at hs
  obtain ⟨R', hR', rfl⟩ := hs
  obtain ⟨h1, h2⟩ := rdr_row hi hR'
  rw [sum_zero_eq] at h2 ⊢
  refine Rdr.next (R := s.1) (D := s.2) hi hr h1 fun q hq hqn => ?_
  rw [h2 q hq hqn, Vec.set_eq]
  congr 1
  exact Finset.sum_congr rfl fun k hk => by rw [Finset.mem_range] at hk; rw [Vec.set_ne _ _ (by omega)]

variable [IsStrictOrderedRing K]

theorem rdr_exists {n : ℕ} {S u : Mat K} {v : Vec K} (hS : ∀ p q, p < n → q < n → S p q = S q p)
    (hp : ∀ x : ℕ → K, (∃ i < n, x i ≠ 0) → 0 < ∑ p ∈ range n, ∑ q ∈ range n, x p * S p q * x q) :
    ∃ r, rdr n S u v = some r ∧ Rdr n S n r ∧ ∀ j < n, 0 < r.2 j := by
  refine loop_exists (fun i s => Rdr n S i s ∧ ∀ q < i, 0 < s.2 q) 0 n _ (Nat.zero_le _) (fun i s _ hi ⟨hr, hd⟩ => ?_)
    ⟨⟨fun p q hp => by omega, fun p hp => by omega⟩, fun q hq => by omega⟩
  obtain ⟨x, hx, he⟩ := pivot_form (n := n) (j := i) (S := S) (R := s.1) (d := s.2) hi hS (fun p hp => by rw [hr.unit p hp]; exact one_ne_zero)
    (fun p q hp hpq hq => hr.rows p q hp hpq (by omega))
  have hpos : 0 < S i i - ∑ k ∈ range i, s.1 k i ^ 2 * s.2 k := by rw [← he]; exact hp x ⟨i, hi, by rw [hx]; exact one_ne_zero⟩
  obtain ⟨R', hR'⟩ := rdr_row_exists (S := S) (R := s.1) (D := s.2.set i (S i i - ∑ k ∈ range i, s.1 k i ^ 2 * s.2 k)) hi (by rw [Vec.set_eq]; exact hpos.ne')
  obtain ⟨h1, h2⟩ := rdr_row hi hR'
  refine ⟨(R'.set i i 1, s.2.set i (S i i - ∑ k ∈ range i, s.1 k i ^ 2 * s.2 k)), ?_, Rdr.next (R := s.1) (D := s.2) hi hr h1 (fun q hq hqn => ?_), fun q hq => ?_⟩
  · simp only [sum_zero_eq] at hR' ⊢
    rw [hR']
    rfl
  · rw [h2 q hq hqn, Vec.set_eq]
    congr 1
    exact Finset.sum_congr rfl fun k hk => by rw [Finset.mem_range] at hk; rw [Vec.set_ne _ _ (by omega)]
  · simp only
    rcases Nat.lt_or_eq_of_le (Nat.le_of_lt_succ hq) with hlt | rfl
    · rw [Vec.set_ne _ _ (by omega)]
      exact hd q hlt
    · rw [Vec.set_eq]
      exact hpos

end Field

end Principia.Numerics.Matrices
