import Verif.Numerics.MatrixLemmas
import Verif.Numerics.MatrixSpec
import Mathlib.Algebra.Order.BigOperators.Ring.Finset
import Mathlib.Algebra.Order.Field.Basic
import Mathlib.Logic.Equiv.Basic

/-!
The resolution of linear systems.
-/

set_option linter.unusedSimpArgs false
set_option linter.unusedVariables false
set_option linter.unusedSectionVars false

namespace Principia.Numerics.Matrices

open Finset

variable {K : Type} [Field K] [LinearOrder K] [IsStrictOrderedRing K]

theorem pivot_spec {n k : ℕ} (A : Mat K) (h : k < n) : ∃ r, (pivot n A k).1 = some r ∧ k ≤ r ∧ r < n ∧ ∀ i, k ≤ i → i < n → |A i k| ≤ |A r k| := by
  have := sweep_inv (fun i (s : Option ℕ × K) => (i = k ∧ s = (none, 0)) ∨ ∃ r, s = (some r, |A r k|) ∧ k ≤ r ∧ r < i ∧ ∀ p, k ≤ p → p < i → |A p k| ≤ |A r k|) k n
    (fun i (s : Option ℕ × K) => if s.2 ≤ |A i k| then (some i, |A i k|) else s) h.le (fun i s hi hin hs => ?_) (s := (none, 0)) (Or.inl ⟨rfl, rfl⟩)
  · rcases this with ⟨h1, -⟩ | ⟨r, h1, h2, h3, h4⟩
    · omega
    · exact ⟨r, by unfold pivot; rw [h1], h2, h3, h4⟩
  · right
    rcases hs with ⟨rfl, rfl⟩ | ⟨r, rfl, h2, h3, h4⟩
    · refine ⟨i, ?_, le_refl _, by omega, fun p hp hpi => ?_⟩
      · simp
      · obtain rfl : p = i := by omega
        exact le_refl _
    · by_cases hle : |A r k| ≤ |A i k|
      · refine ⟨i, by simp [hle], hi, by omega, fun p hp hpi => ?_⟩
        rcases Nat.lt_or_eq_of_le (Nat.le_of_lt_succ hpi) with hlt | rfl
        · exact (h4 p hp hlt).trans hle
        · exact le_refl _
      · refine ⟨r, by simp [hle], h2, by omega, fun p hp hpi => ?_⟩
        rcases Nat.lt_or_eq_of_le (Nat.le_of_lt_succ hpi) with hlt | rfl
        · exact h4 p hp hlt
        · exact (lt_of_not_ge hle).le

theorem swapRows_apply (A : Mat K) {lo hi k r : ℕ} (h : lo ≤ hi) (p q : ℕ) : swapRows A lo hi k r p q = if lo ≤ q ∧ q < hi then A (Equiv.swap k r p) q else A p q := by
  have := sweep_inv (fun i (B : Mat K) => ∀ p q, B p q = if lo ≤ q ∧ q < i then A (Equiv.swap k r p) q else A p q) lo hi
    (fun i (A : Mat K) => (A.set k i (A r i)).set r i (A k i)) h (fun i B hi hih hB p q => ?_) (s := A) (fun p q => by rw [if_neg (by omega)])
  · exact this p q
  · by_cases hq : q = i
    · subst hq
      rw [if_pos ⟨hi, by omega⟩]
      by_cases hr : p = r
      · subst hr
        rw [Mat.set_eq, Equiv.swap_apply_right, hB, if_neg (by omega)]
      · rw [Mat.set_ne _ _ (by omega)]
        by_cases hk : p = k
        · subst hk
          rw [Mat.set_eq, Equiv.swap_apply_left, hB, if_neg (by omega)]
        · rw [Mat.set_ne _ _ (by omega), Equiv.swap_apply_of_ne_of_ne hk hr, hB, if_neg (by omega)]
    · rw [Mat.set_ne _ _ (by omega), Mat.set_ne _ _ (by omega), hB]
      by_cases h1 : lo ≤ q ∧ q < i
      · rw [if_pos h1, if_pos (by omega)]
      · rw [if_neg h1, if_neg (by omega)]

theorem Vec.swap_apply (b : Vec K) (k r p : ℕ) : b.swap k r p = b (Equiv.swap k r p) := by
  unfold Vec.swap
  by_cases hr : p = r
  · subst hr
    rw [Vec.set_eq, Equiv.swap_apply_right]
  · rw [Vec.set_ne _ _ hr]
    by_cases hk : p = k
    · subst hk
      rw [Vec.set_eq, Equiv.swap_apply_left]
    · rw [Vec.set_ne _ _ hk, Equiv.swap_apply_of_ne_of_ne hk hr]

/-- The row `k` of `U`. -/
theorem upper_row (A L U : Mat K) {n k : ℕ} (h : k ≤ n) (p q : ℕ) :
    sweep k n (fun j (U : Mat K) => U.set k j (subtract (A k j) 0 k fun i => L k i * U i j)) U p q =
      if p = k ∧ k ≤ q ∧ q < n then A k q - ∑ i ∈ range k, L k i * U i q else U p q := by
  have := sweep_inv (fun j (U' : Mat K) => ∀ p q, U' p q = if p = k ∧ k ≤ q ∧ q < j then A k q - ∑ i ∈ range k, L k i * U i q else U p q) k n
    (fun j (U : Mat K) => U.set k j (subtract (A k j) 0 k fun i => L k i * U i j)) h (fun j U' hj hjn hU p q => ?_) (s := U) (fun p q => by rw [if_neg (by omega)])
  · exact this p q
  · by_cases hc : p = k ∧ q = j
    · obtain ⟨rfl, rfl⟩ := hc
      rw [Mat.set_eq, if_pos ⟨rfl, hj, by omega⟩, subtract_zero_eq]
      congr 1
      exact Finset.sum_congr rfl fun i hi => by rw [Finset.mem_range] at hi; rw [hU, if_neg (by omega)]
    · rw [Mat.set_ne _ _ hc, hU]
      by_cases h1 : p = k ∧ k ≤ q ∧ q < j
      · rw [if_pos h1, if_pos (by omega)]
      · rw [if_neg h1, if_neg (by omega)]

/-- The column `k` of `L`. -/
theorem lower_column {A L U L' : Mat K} {n k : ℕ} (hk : k < n)
    (h : loop (k + 1) n (fun i (L : Mat K) => (quotient (subtract (A i k) 0 k fun j => L i j * U j k) (U k k)).map fun x => L.set i k x) L = some L') :
    (∀ p q, ¬(k < p ∧ p < n ∧ q = k) → L' p q = L p q) ∧ (∀ i, k < i → i < n → U k k ≠ 0 ∧ L' i k * U k k = A i k - ∑ j ∈ range k, L i j * U j k) := by
  have := loop_some (fun i (L' : Mat K) => (∀ p q, ¬(k < p ∧ p < i ∧ q = k) → L' p q = L p q) ∧
    (∀ p, k < p → p < i → U k k ≠ 0 ∧ L' p k * U k k = A p k - ∑ j ∈ range k, L p j * U j k)) (k + 1) n _ (by omega) (fun i M M' hi hin ⟨h1, h2⟩ hs => ?_)
    ⟨fun _ _ _ => rfl, fun p hp hp' => by omega⟩ h
  · exact this
  · rw [Option.map_eq_some_iff] at hs
    obtain ⟨z, hz, rfl⟩ := hs
    obtain ⟨h4, h5⟩ := quotient_some hz
    rw [subtract_zero_eq] at h5
    refine ⟨fun p q hq => ?_, fun p hp hpi => ⟨h4, ?_⟩⟩
    · rw [Mat.set_ne _ _ (by omega)]
      exact h1 p q (by omega)
    · rcases Nat.lt_or_eq_of_le (Nat.le_of_lt_succ hpi) with hlt | rfl
      · rw [Mat.set_ne _ _ (by omega)]
        exact (h2 p hp hlt).2
      · rw [Mat.set_eq, h5]
        congr 1
        exact Finset.sum_congr rfl fun j hj => by rw [Finset.mem_range] at hj; rw [h1 p j (by omega)]

theorem lower_column_exists {A L U : Mat K} {n k : ℕ} (hk : k < n) (hU : k + 1 < n → U k k ≠ 0) :
    ∃ L', loop (k + 1) n (fun i (L : Mat K) => (quotient (subtract (A i k) 0 k fun j => L i j * U j k) (U k k)).map fun x => L.set i k x) L = some L' := by
  obtain ⟨L', h, -⟩ := loop_exists (fun _ _ => True) (k + 1) n
    (fun i (L : Mat K) => (quotient (subtract (A i k) 0 k fun j => L i j * U j k) (U k k)).map fun x => L.set i k x) (by omega)
    (fun i s hi hin _ => by rw [quotient_eq (hU (by omega))]; exact ⟨_, rfl, trivial⟩) (s := L) trivial
  exact ⟨L', h⟩

/-- `x` is a solution of the system. -/
def Solves (n : ℕ) (A : Mat K) (b x : Vec K) : Prop := ∀ i < n, ∑ j ∈ range n, A i j * x j = b i

/-- The state before iteration `k`. -/
structure Decomposed (n : ℕ) (A : Mat K) (b : Vec K) (k : ℕ) (s : LU K) : Prop where
  solutions : ∀ x, Solves n s.A s.b x ↔ Solves n A b x
  elements : ∀ i j, i < n → j < n → (i < k ∨ j < k) → s.A i j = ∑ l ∈ range (min i j + 1), s.L i l * s.U l j
  unit : ∀ i < k, s.L i i = 1

theorem Decomposed.next {n : ℕ} {A : Mat K} {b : Vec K} {k : ℕ} {s s' : LU K} (hk : k < n) (h : Decomposed n A b k s) (hs : luStep n k s = some s') : Decomposed n A b (k + 1) s' := by
  obtain ⟨r, hr, hkr, hrn, -⟩ := pivot_spec s.A hk
  unfold luStep at hs
  rw [hr, Option.bind_some, Option.map_eq_some_iff] at hs
  obtain ⟨L', hL, rfl⟩ := hs
  obtain ⟨h1, h2⟩ := lower_column hk hL
  have hτ : ∀ p, p < n → Equiv.swap k r p < n := fun p hp => by
    rw [Equiv.swap_apply_def]; split_ifs <;> omega
  have hτk : ∀ p, p < k → Equiv.swap k r p = p := fun p hp => Equiv.swap_apply_of_ne_of_ne (by omega) (by omega)
  have hτk' : ∀ p, k ≤ p → k ≤ Equiv.swap k r p := fun p hp => by
    rw [Equiv.swap_apply_def]; split_ifs <;> omega
  have hA : ∀ p q, q < n → swapRows s.A 0 n k r p q = s.A (Equiv.swap k r p) q := fun p q hq => by
    rw [swapRows_apply _ (Nat.zero_le _), if_pos ⟨Nat.zero_le _, hq⟩]
  have hLs : ∀ p q, q < k → swapRows s.L 0 k k r p q = s.L (Equiv.swap k r p) q := fun p q hq => by
    rw [swapRows_apply _ (Nat.zero_le _), if_pos ⟨Nat.zero_le _, hq⟩]
  -- The elements for the previous values of `k`, after the swap.
  have hold : ∀ i j, i < n → j < n → (i < k ∨ j < k) → swapRows s.A 0 n k r i j = ∑ l ∈ range (min i j + 1), swapRows s.L 0 k k r i l * s.U l j := by
    intro i j hi hj hij
    rw [hA i j hj]
    have hmin : min (Equiv.swap k r i) j = min i j := by
      rcases Nat.lt_or_ge i k with hik | hik
      · rw [hτk i hik]
      · have := hτk' i hik
        rcases hij with hij | hij
        · omega
        · rw [Nat.min_eq_right (by omega), Nat.min_eq_right (by omega)]
    rw [h.elements _ j (hτ i hi) hj (by
      rcases Nat.lt_or_ge i k with hik | hik
      · exact Or.inl (by rw [hτk i hik]; exact hik)
      · exact Or.inr (by omega)), hmin]
    refine Finset.sum_congr rfl fun l hl => ?_
    rw [Finset.mem_range] at hl
    rw [hLs i l (by omega)]
  refine ⟨fun x => ?_, fun i j hi hj hij => ?_, fun i hi => ?_⟩
  · rw [← h.solutions x]
    unfold Solves
    simp only
    refine ⟨fun hx i hi => ?_, fun hx i hi => ?_⟩
    · have := hx (Equiv.swap k r i) (hτ i hi)
      rw [Vec.swap_apply, Equiv.swap_apply_self] at this
      rw [← this]
      exact Finset.sum_congr rfl fun j hj => by rw [Finset.mem_range] at hj; rw [hA _ j hj, Equiv.swap_apply_self]
    · have := hx (Equiv.swap k r i) (hτ i hi)
      rw [Vec.swap_apply, ← this]
      exact Finset.sum_congr rfl fun j hj => by rw [Finset.mem_range] at hj; rw [hA _ j hj]
  · simp only
    by_cases hprev : i < k ∨ j < k
    · rw [hold i j hi hj hprev]
      refine Finset.sum_congr rfl fun l hl => ?_
      rw [Finset.mem_range] at hl
      have hLl : (L'.set k k 1) i l = swapRows s.L 0 k k r i l := by
        rw [Mat.set_ne _ _ (by omega), h1 i l (by omega)]
      rw [hLl, upper_row _ _ _ hk.le, if_neg (by omega)]
    · push Not at hprev
      rcases Nat.lt_or_ge k i with hki | hki
      · -- Column `k`, below the diagonal.
        obtain rfl : j = k := by omega
        have hmin : min i j = j := by omega
        have hl := (h2 i hki hi).2
        rw [hmin, Finset.sum_range_succ, Mat.set_ne _ _ (by omega), hl, Finset.sum_congr rfl (g := fun l => swapRows s.L 0 j j r i l *
          sweep j n (fun j_1 (U : Mat K) => U.set j j_1 (subtract (swapRows s.A 0 n j r j j_1) 0 j fun i => swapRows s.L 0 j j r j i * U i j_1)) s.U l j) (fun l hl => by
            rw [Finset.mem_range] at hl; rw [Mat.set_ne _ _ (by omega), h1 i l (by omega)])]
        ring
      · -- Row `k`.
        obtain rfl : i = k := by omega
        have hmin : min i j = i := by omega
        rw [hmin, Finset.sum_range_succ, Mat.set_eq, upper_row _ _ _ hk.le, if_pos ⟨rfl, hprev.2, hj⟩, Finset.sum_congr rfl (g := fun l => swapRows s.L 0 i i r i l * s.U l j) (fun l hl => by
            rw [Finset.mem_range] at hl; rw [Mat.set_ne _ _ (by omega), h1 i l (by omega), upper_row _ _ _ hk.le, if_neg (by omega)])]
        ring
  · simp only
    rcases Nat.lt_or_eq_of_le (Nat.le_of_lt_succ hi) with hlt | rfl
    · rw [Mat.set_ne _ _ (by omega), h1 i i (by omega), hLs i i hlt, hτk i hlt]
      exact h.unit i hlt
    · rw [Mat.set_eq]

/-- The product of `L U` by a vector. -/
theorem lu_mul {n : ℕ} {A L U : Mat K} (h : ∀ i j, i < n → j < n → A i j = ∑ l ∈ range (min i j + 1), L i l * U l j) (x : Vec K) {i : ℕ} (hi : i < n) :
    ∑ j ∈ range n, A i j * x j = ∑ l ∈ range (i + 1), L i l * ∑ j ∈ Ico l n, U l j * x j := by
  have h1 : ∀ j ∈ range n, A i j * x j = ∑ l ∈ range (i + 1), if l ≤ j then L i l * (U l j * x j) else 0 := by
    intro j hj
    rw [Finset.mem_range] at hj
    rw [h i j hi hj, Finset.sum_mul]
    have hsub : range (min i j + 1) ⊆ range (i + 1) := fun l hl => by rw [Finset.mem_range] at *; omega
    rw [← Finset.sum_subset hsub (fun l hl hl' => ?_)]
    · refine Finset.sum_congr rfl fun l hl => ?_
      rw [Finset.mem_range] at hl
      rw [if_pos (by omega)]
      ring
    · rw [Finset.mem_range] at hl hl'
      rw [if_neg (by omega)]
  rw [Finset.sum_congr rfl h1, Finset.sum_comm]
  refine Finset.sum_congr rfl fun l hl => ?_
  rw [Finset.mem_range] at hl
  rw [Finset.mul_sum]
  have hsub : Ico l n ⊆ range n := fun j hj => by rw [Finset.mem_Ico] at hj; rw [Finset.mem_range]; omega
  rw [← Finset.sum_subset hsub (fun j hj hj' => ?_)]
  · refine Finset.sum_congr rfl fun j hj => ?_
    rw [Finset.mem_Ico] at hj
    rw [if_pos hj.1]
  · rw [Finset.mem_Ico] at hj'
    rw [Finset.mem_range] at hj
    rw [if_neg (by omega)]

theorem solve_some {n : ℕ} {A L U : Mat K} {b x y z : Vec K} (h : solve n A b L U x y = some z) (w : Vec K) : Solves n A b w ↔ ∀ i < n, w i = z i := by
  unfold solve at h
  rw [Option.bind_eq_some_iff] at h
  obtain ⟨s, hs, h⟩ := h
  rw [Option.bind_eq_some_iff] at h
  obtain ⟨y', hy, h⟩ := h
  have hd : Decomposed n A b n s := loop_some (fun k s => Decomposed n A b k s) 0 n _ (Nat.zero_le _) (fun k s s' _ hk hd hs => hd.next hk hs)
    ⟨fun _ => Iff.rfl, fun i j _ _ h => by omega, fun i hi => by omega⟩ hs
  obtain ⟨-, hL, hf⟩ := forwardSubstitution_some hy
  obtain ⟨-, hU, hb⟩ := backSubstitution_some h
  have hmul := fun x i (hi : i < n) => lu_mul (A := s.A) (L := s.L) (U := s.U) (fun i j hi hj => hd.elements i j hi hj (Or.inl hi)) x hi
  rw [← hd.solutions w]
  constructor
  · intro hw
    have hf' : Forward s.L s.b n (fun l => ∑ j ∈ Ico l n, s.U l j * w j) := fun i hi => by rw [← hmul w i hi]; exact hw i hi
    have hyw := Forward.unique hL hf' hf
    exact Back.unique hU (fun i h0 hi => hyw i hi) hb
  · intro hw i hi
    rw [hmul w i hi, ← hf i hi]
    refine Finset.sum_congr rfl fun l hl => ?_
    rw [Finset.mem_range] at hl
    rw [← hb l (Nat.zero_le _) (by omega)]
    congr 1
    exact Finset.sum_congr rfl fun j hj => by rw [Finset.mem_Ico] at hj; rw [hw j hj.2]

/-! ## Diagonally dominant matrices -/

/-- The element of the Schur complement. -/
def schur (s : LU K) (k i j : ℕ) : K := s.A i j - ∑ l ∈ range k, s.L i l * s.U l j

/-- The Schur complement is strictly diagonally dominant by columns. -/
def Dominant (n : ℕ) (k : ℕ) (S : Mat K) : Prop := ∀ j, k ≤ j → j < n → ∑ i ∈ (Ico k n).erase j, |S i j| < |S j j|

theorem Dominant.ne_zero {n k : ℕ} {S : Mat K} (h : Dominant n k S) {j : ℕ} (hk : k ≤ j) (hj : j < n) : S j j ≠ 0 := by
  have h1 : 0 ≤ ∑ i ∈ (Ico k n).erase j, |S i j| := Finset.sum_nonneg fun i _ => abs_nonneg _
  have := h j hk hj
  intro h0
  rw [h0, abs_zero] at this
  linarith

theorem Dominant.next {n k : ℕ} {S S' : Mat K} (hk : k < n) (h : Dominant n k S) (hS : ∀ i j, k < i → i < n → k < j → j < n → S' i j = S i j - S i k * S k j / S k k) :
    Dominant n (k + 1) S' := by
  intro j hj hjn
  have hkk := h.ne_zero (le_refl k) hk
  have hpos : 0 < |S k k| := abs_pos.2 hkk
  have h1 := h j (by omega) hjn
  have h2 := h k (le_refl k) hk
  -- Separate the row `k` in the first sum, and the row `j` in the second one.
  have hkmem : k ∈ (Ico k n).erase j := Finset.mem_erase.2 ⟨by omega, Finset.mem_Ico.2 ⟨le_refl _, hk⟩⟩
  have hjmem : j ∈ (Ico k n).erase k := Finset.mem_erase.2 ⟨by omega, Finset.mem_Ico.2 ⟨by omega, hjn⟩⟩
  have hset1 : ((Ico k n).erase j).erase k = (Ico (k + 1) n).erase j := by
    ext i; simp only [Finset.mem_erase, Finset.mem_Ico]; omega
  have hset2 : ((Ico k n).erase k).erase j = (Ico (k + 1) n).erase j := by
    ext i; simp only [Finset.mem_erase, Finset.mem_Ico]; omega
  rw [← Finset.add_sum_erase _ _ hkmem, hset1] at h1
  rw [← Finset.add_sum_erase _ _ hjmem, hset2] at h2
  have hsum : ∑ i ∈ (Ico (k + 1) n).erase j, |S' i j| ≤ ∑ i ∈ (Ico (k + 1) n).erase j, (|S i j| + |S i k| * (|S k j| / |S k k|)) := by
    refine Finset.sum_le_sum fun i hi => ?_
    rw [Finset.mem_erase, Finset.mem_Ico] at hi
    rw [hS i j (by omega) hi.2.2 (by omega) hjn]
    refine (abs_sub _ _).trans ?_
    rw [abs_div, abs_mul, mul_div_assoc]
  rw [Finset.sum_add_distrib, ← Finset.sum_mul] at hsum
  have hlow : |S j j| - |S j k| * (|S k j| / |S k k|) ≤ |S' j j| := by
    rw [hS j j (by omega) hjn (by omega) hjn]
    refine le_trans (le_of_eq ?_) (abs_sub_abs_le_abs_sub _ _)
    rw [abs_div, abs_mul, mul_div_assoc]
  have hc : 0 ≤ |S k j| / |S k k| := by positivity
  have h3 : (∑ i ∈ (Ico (k + 1) n).erase j, |S i k|) * (|S k j| / |S k k|) ≤ (|S k k| - |S j k|) * (|S k j| / |S k k|) := mul_le_mul_of_nonneg_right (by linarith) hc
  have h4 : |S k k| * (|S k j| / |S k k|) = |S k j| := by field_simp
  linarith [sub_mul (|S k k|) (|S j k|) (|S k j| / |S k k|)]

/-- Without swaps, the Schur complement stays dominant. -/
structure NoSwap (n : ℕ) (A : Mat K) (k : ℕ) (s : LU K) : Prop where
  same : ∀ i j, i < n → j < n → s.A i j = A i j
  dominant : Dominant n k (schur s k)
  unit : ∀ i < k, s.L i i = 1
  upper : ∀ i < k, s.U i i ≠ 0

theorem pivot_dominant {n k : ℕ} {A : Mat K} (hk : k < n) (h : ∀ i, k ≤ i → i < n → i ≠ k → |A i k| < |A k k|) : (pivot n A k).1 = some k := by
  obtain ⟨r, hr, hkr, hrn, hmax⟩ := pivot_spec A hk
  rw [hr]
  by_contra hne
  have hne : r ≠ k := fun h => hne (by rw [h])
  exact absurd (hmax k (le_refl _) hk) (not_le.2 (h r hkr hrn hne))

theorem NoSwap.next {n : ℕ} {A : Mat K} {k : ℕ} {s : LU K} (hk : k < n) (hA : Dominant n 0 A) (h : NoSwap n A k s) : ∃ s', luStep n k s = some s' ∧ NoSwap n A (k + 1) s' := by
  have hp : (pivot n s.A k).1 = some k := by
    refine pivot_dominant hk fun i hki hi hne => ?_
    rw [h.same i k hi hk, h.same k k hk hk]
    refine lt_of_le_of_lt ?_ (hA k (Nat.zero_le _) hk)
    exact Finset.single_le_sum (f := fun i => |A i k|) (fun i _ => abs_nonneg _) (Finset.mem_erase.2 ⟨hne, Finset.mem_Ico.2 ⟨Nat.zero_le _, hi⟩⟩)
  have hsA : ∀ p q, swapRows s.A 0 n k k p q = s.A p q := fun p q => by
    rw [swapRows_apply _ (Nat.zero_le _)]; simp
  have hsL : ∀ p q, swapRows s.L 0 k k k p q = s.L p q := fun p q => by
    rw [swapRows_apply _ (Nat.zero_le _)]; simp
  have hsA' : swapRows s.A 0 n k k = s.A := by funext p q; exact hsA p q
  have hsL' : swapRows s.L 0 k k k = s.L := by funext p q; exact hsL p q
  unfold luStep
  rw [hp, Option.bind_some]
  simp only [hsA', hsL']
  have hU := upper_row s.A s.L s.U (n := n) (k := k) hk.le
  generalize hUe : sweep k n (fun j (U : Mat K) => U.set k j (subtract (s.A k j) 0 k fun i => s.L k i * U i j)) s.U = U' at hU ⊢
  have hUk : ∀ j, k ≤ j → j < n → U' k j = schur s k k j := fun j hj hjn => by rw [hU, if_pos ⟨rfl, hj, hjn⟩]; rfl
  have hne : U' k k ≠ 0 := by rw [hUk k (le_refl _) hk]; exact h.dominant.ne_zero (le_refl _) hk
  obtain ⟨L', hL⟩ := lower_column_exists (A := s.A) (L := s.L) (U := U') hk (fun _ => hne)
  obtain ⟨h1, h2⟩ := lower_column hk hL
  rw [hL]
  refine ⟨_, rfl, h.same, ?_, fun i hi => ?_, fun i hi => ?_⟩
  · refine h.dominant.next hk fun i j hi hin hj hjn => ?_
    have hLi : L' i k * U' k k = schur s k i k := by
      rw [(h2 i hi hin).2]
      unfold schur
      congr 1
      exact Finset.sum_congr rfl fun l hl => by rw [Finset.mem_range] at hl; rw [hU, if_neg (by omega)]
    have hLq : L' i k = schur s k i k / schur s k k k := by
      rw [← hLi, hUk k (le_refl _) hk]
      rw [hUk k (le_refl _) hk] at hne
      field_simp
    have hval : schur ⟨s.A, L'.set k k 1, U', s.b.swap k k⟩ (k + 1) i j = schur s k i j - L' i k * U' k j := by
      unfold schur
      simp only
      rw [Finset.sum_range_succ, Mat.set_ne _ _ (by omega), Finset.sum_congr rfl (g := fun l => s.L i l * s.U l j) (fun l hl => by
        rw [Finset.mem_range] at hl; rw [Mat.set_ne _ _ (by omega), h1 i l (by omega), hU, if_neg (by omega)])]
      ring
    rw [hval, hLq, hUk j (by omega) hjn]
    ring
  · simp only
    rcases Nat.lt_or_eq_of_le (Nat.le_of_lt_succ hi) with hlt | rfl
    · rw [Mat.set_ne _ _ (by omega), h1 i i (by omega)]
      exact h.unit i hlt
    · rw [Mat.set_eq]
  · simp only
    rcases Nat.lt_or_eq_of_le (Nat.le_of_lt_succ hi) with hlt | rfl
    · rw [hU, if_neg (by omega)]
      exact h.upper i hlt
    · exact hne

theorem solve_dominant {n : ℕ} {A : Mat K} (hn : n ≠ 0) (h : Dominant n 0 A) (b : Vec K) (L U : Mat K) (x y : Vec K) : ∃ z, solve n A b L U x y = some z := by
  obtain ⟨s, hs, hns⟩ := loop_exists (fun k s => NoSwap n A k s) 0 n (luStep n) (Nat.zero_le _) (fun k s _ hk hs => hs.next hk h) (s := ⟨A, L, U, b⟩)
    ⟨fun _ _ _ _ => rfl, fun j hj hjn => by simpa [schur] using h j hj hjn, fun i hi => by omega, fun i hi => by omega⟩
  obtain ⟨y', hy⟩ := forwardSubstitution_exists (L := s.L) s.b y hn (fun i hi => by rw [hns.unit i hi]; exact one_ne_zero)
  obtain ⟨z, hz, -⟩ := backSubstitution_exists (U := s.U) y' x hn hns.upper
  exact ⟨z, by unfold solve; rw [hs, Option.bind_some, hy, Option.bind_some, hz]⟩

end Principia.Numerics.Matrices
