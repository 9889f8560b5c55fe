import Verif.Numerics.MatrixModel
import Mathlib.Algebra.BigOperators.Intervals
import Mathlib.Algebra.BigOperators.Field
import Mathlib.Algebra.BigOperators.Fin
import Mathlib.Algebra.Order.BigOperators.Group.Finset
import Mathlib.Tactic.Ring
import Mathlib.Tactic.Linarith
import Mathlib.Tactic.FieldSimp
import Mathlib.Tactic.LinearCombination
import Mathlib.Tactic.ByContra

/-!
Lemmas on the loops and on the resolution of triangular systems.
-/

set_option linter.unusedSimpArgs false
set_option linter.unusedVariables false
set_option linter.unusedSectionVars false

namespace Principia.Numerics.Matrices

open Finset

/-! ## Loops -/

section Loops

variable {σ : Type}

theorem loop_some (P : ℕ → σ → Prop) (lo hi : ℕ) (body : ℕ → σ → Option σ) (h : lo ≤ hi)
    (step : ∀ i s s', lo ≤ i → i < hi → P i s → body i s = some s' → P (i + 1) s') {s s' : σ} (h0 : P lo s) (he : loop lo hi body s = some s') : P hi s' := by
  unfold loop at he
  obtain ⟨c, rfl⟩ := Nat.exists_eq_add_of_le h
  rw [Nat.add_sub_cancel_left] at he
  induction c generalizing lo s with
  | zero => simp at he; subst he; exact h0
  | succ c ih =>
    rw [List.range'_succ, List.foldlM_cons] at he
    rcases hb : body lo s with _ | s1
    · rw [hb] at he; simp at he
    · rw [hb] at he
      have h1 := step lo s s1 (le_refl _) (by omega) h0 hb
      have := ih (lo + 1) h1 (by omega) (fun i t t' h2 h3 => step i t t' (by omega) (by omega)) he
      rwa [show lo + 1 + c = lo + (c + 1) by omega] at this

theorem loop_exists (P : ℕ → σ → Prop) (lo hi : ℕ) (body : ℕ → σ → Option σ) (h : lo ≤ hi)
    (step : ∀ i s, lo ≤ i → i < hi → P i s → ∃ s', body i s = some s' ∧ P (i + 1) s') {s : σ} (h0 : P lo s) : ∃ s', loop lo hi body s = some s' ∧ P hi s' := by
  unfold loop
  obtain ⟨c, rfl⟩ := Nat.exists_eq_add_of_le h
  rw [Nat.add_sub_cancel_left]
  induction c generalizing lo s with
  | zero => exact ⟨s, by simp, h0⟩
  | succ c ih =>
    obtain ⟨s1, hb, h1⟩ := step lo s (le_refl _) (by omega) h0
    obtain ⟨s', h2, h3⟩ := ih (lo + 1) h1 (by omega) (fun i t h2 h3 => step i t (by omega) (by omega))
    refine ⟨s', ?_, by rwa [show lo + 1 + c = lo + (c + 1) by omega] at h3⟩
    rw [List.range'_succ, List.foldlM_cons, hb]
    exact h2

theorem sweep_inv (P : ℕ → σ → Prop) (lo hi : ℕ) (body : ℕ → σ → σ) (h : lo ≤ hi) (step : ∀ i s, lo ≤ i → i < hi → P i s → P (i + 1) (body i s)) {s : σ} (h0 : P lo s) :
    P hi (sweep lo hi body s) := by
  unfold sweep
  obtain ⟨c, rfl⟩ := Nat.exists_eq_add_of_le h
  rw [Nat.add_sub_cancel_left]
  induction c generalizing lo s with
  | zero => exact h0
  | succ c ih =>
    have := ih (lo + 1) (step lo s (le_refl _) (by omega) h0) (by omega) (fun i t h2 h3 => step i t (by omega) (by omega))
    rw [show lo + 1 + c = lo + (c + 1) by omega] at this
    rw [List.range'_succ, List.foldl_cons]
    exact this

theorem down_some (P : ℕ → σ → Prop) (m : ℕ) (body : σ → ℕ → Option σ) (step : ∀ i s s', i < m → P (i + 1) s → body s i = some s' → P i s') {s s' : σ} (h0 : P m s)
    (he : (List.range m).reverse.foldlM body s = some s') : P 0 s' := by
  induction m generalizing s with
  | zero => simp at he; subst he; exact h0
  | succ m ih =>
    rw [List.range_succ, List.reverse_append, List.reverse_singleton, List.singleton_append, List.foldlM_cons] at he
    rcases hb : body s m with _ | s1
    · rw [hb] at he; simp at he
    · rw [hb] at he
      exact ih (fun i t t' h => step i t t' (by omega)) (step m s s1 (by omega) h0 hb) he

theorem down_exists (P : ℕ → σ → Prop) (m : ℕ) (body : σ → ℕ → Option σ) (step : ∀ i s, i < m → P (i + 1) s → ∃ s', body s i = some s' ∧ P i s') {s : σ} (h0 : P m s) :
    ∃ s', (List.range m).reverse.foldlM body s = some s' ∧ P 0 s' := by
  induction m generalizing s with
  | zero => exact ⟨s, by simp, h0⟩
  | succ m ih =>
    obtain ⟨s1, hb, h1⟩ := step m s (by omega) h0
    obtain ⟨s', h2, h3⟩ := ih (fun i t h => step i t (by omega)) h1
    refine ⟨s', ?_, h3⟩
    rw [List.range_succ, List.reverse_append, List.reverse_singleton, List.singleton_append, List.foldlM_cons, hb]
    exact h2

end Loops

section Field

variable {K : Type} [Field K] [LinearOrder K]

theorem sum_eq (lo hi : ℕ) (h : lo ≤ hi) (g : ℕ → K) : sum lo hi g = ∑ k ∈ Ico lo hi, g k := by
  refine sweep_inv (fun i s => s = ∑ k ∈ Ico lo i, g k) lo hi _ h (fun i s h1 h2 h3 => ?_) (by simp)
  rw [h3, Finset.sum_Ico_succ_top h1]

theorem sum_zero_eq (hi : ℕ) (g : ℕ → K) : sum 0 hi g = ∑ k ∈ range hi, g k := by
  rw [sum_eq 0 hi (Nat.zero_le _), Finset.range_eq_Ico]

theorem subtract_eq (s : K) (lo hi : ℕ) (h : lo ≤ hi) (g : ℕ → K) : subtract s lo hi g = s - ∑ k ∈ Ico lo hi, g k := by
  refine sweep_inv (fun i t => t = s - ∑ k ∈ Ico lo i, g k) lo hi _ h (fun i t h1 h2 h3 => ?_) (by simp)
  rw [h3, Finset.sum_Ico_succ_top h1]
  ring

theorem subtract_zero_eq (s : K) (hi : ℕ) (g : ℕ → K) : subtract s 0 hi g = s - ∑ k ∈ range hi, g k := by
  rw [subtract_eq s 0 hi (Nat.zero_le _), Finset.range_eq_Ico]

theorem quotient_some {x y z : K} (h : quotient x y = some z) : y ≠ 0 ∧ z * y = x := by
  unfold quotient at h
  by_cases hy : y = 0
  · rw [if_pos hy] at h; simp at h
  · rw [if_neg hy] at h
    simp only [Option.some.injEq] at h
    exact ⟨hy, by rw [← h]; field_simp⟩

theorem quotient_eq {x y : K} (h : y ≠ 0) : quotient x y = some (x / y) := if_neg h

theorem Mat.set_eq (A : Mat K) (i j : ℕ) (x : K) : A.set i j x i j = x := if_pos ⟨rfl, rfl⟩

theorem Mat.set_ne (A : Mat K) {i j p q : ℕ} (x : K) (h : ¬(p = i ∧ q = j)) : A.set i j x p q = A p q := if_neg h

theorem Vec.set_eq (b : Vec K) (i : ℕ) (x : K) : b.set i x i = x := if_pos rfl

theorem Vec.set_ne (b : Vec K) {i p : ℕ} (x : K) (h : p ≠ i) : b.set i x p = b p := if_neg h

/-! ## Triangular systems -/

/-- The equations of rows `lo` to `n` of an upper triangular system. -/
def Back (n : ℕ) (U : Mat K) (b : Vec K) (lo : ℕ) (x : Vec K) : Prop := ∀ i, lo ≤ i → i < n → ∑ j ∈ Ico i n, U i j * x j = b i

/-- The equations of the first rows of a lower triangular system. -/
def Forward (L : Mat K) (b : Vec K) (hi : ℕ) (x : Vec K) : Prop := ∀ i < hi, ∑ j ∈ range (i + 1), L i j * x j = b i

theorem Back.set {n : ℕ} {U : Mat K} {b : Vec K} {i : ℕ} {x : Vec K} {y : K} (hi : i < n) (h : Back n U b (i + 1) x) (hy : U i i ≠ 0)
    (he : y * U i i = b i - ∑ j ∈ Ico (i + 1) n, U i j * x j) : Back n U b i (x.set i y) := by
  intro p hp hpn
  rcases Nat.eq_or_lt_of_le hp with rfl | hlt
  · rw [Finset.sum_eq_sum_Ico_succ_bot hi, Vec.set_eq, Finset.sum_congr rfl (g := fun j => U i j * x j) (fun j hj => by
      rw [Vec.set_ne]; rw [Finset.mem_Ico] at hj; omega)]
    linear_combination he
  · rw [← h p hlt hpn]
    refine Finset.sum_congr rfl fun j hj => ?_
    rw [Vec.set_ne]; rw [Finset.mem_Ico] at hj; omega

theorem Forward.set {L : Mat K} {b : Vec K} {i : ℕ} {x : Vec K} {y : K} (h : Forward L b i x) (he : y * L i i = b i - ∑ j ∈ range i, L i j * x j) :
    Forward L b (i + 1) (x.set i y) := by
  intro p hp
  rcases Nat.lt_or_eq_of_le (Nat.le_of_lt_succ hp) with hlt | rfl
  · rw [← h p hlt]
    refine Finset.sum_congr rfl fun j hj => ?_
    rw [Vec.set_ne]; rw [Finset.mem_range] at hj; omega
  · rw [Finset.sum_range_succ, Vec.set_eq, Finset.sum_congr rfl (g := fun j => L p j * x j) (fun j hj => by
      rw [Vec.set_ne]; rw [Finset.mem_range] at hj; omega)]
    linear_combination he

theorem backSubstitution_some {n : ℕ} {U : Mat K} {b x x' : Vec K} (h : backSubstitution n U b x = some x') : n ≠ 0 ∧ (∀ i < n, U i i ≠ 0) ∧ Back n U b 0 x' := by
  unfold backSubstitution at h
  by_cases hn : n = 0
  · rw [if_pos hn] at h; simp at h
  rw [if_neg hn] at h
  rcases hq : quotient (b (n - 1)) (U (n - 1) (n - 1)) with _ | y
  · rw [hq] at h; simp at h
  rw [hq, Option.bind_some] at h
  obtain ⟨hy, he⟩ := quotient_some hq
  obtain ⟨m, rfl⟩ : ∃ m, n = m + 1 := ⟨n - 1, by omega⟩
  have := down_some (fun i x => (∀ p, i ≤ p → p < m + 1 → U p p ≠ 0) ∧ Back (m + 1) U b i x) m _ (fun i s s' hi ⟨h1, h2⟩ h3 => ?_) ⟨?_, ?_⟩ h
  · exact ⟨hn, fun i hi => this.1 i (Nat.zero_le _) hi, this.2⟩
  · rw [Option.map_eq_some_iff] at h3
    obtain ⟨z, h3, rfl⟩ := h3
    obtain ⟨h4, h5⟩ := quotient_some h3
    rw [subtract_eq _ _ _ (by omega)] at h5
    refine ⟨fun p hp hpn => ?_, h2.set (by omega) h4 h5⟩
    rcases Nat.eq_or_lt_of_le hp with rfl | hlt
    · exact h4
    · exact h1 p hlt hpn
  · intro p hp hpn
    obtain rfl : p = m := by omega
    exact hy
  · refine Back.set (by omega) (fun p hp hpn => by omega) hy ?_
    simp only [Nat.add_sub_cancel] at he
    simp [he]

theorem backSubstitution_exists {n : ℕ} {U : Mat K} (b x : Vec K) (hn : n ≠ 0) (hU : ∀ i < n, U i i ≠ 0) : ∃ x', backSubstitution n U b x = some x' ∧ Back n U b 0 x' := by
  suffices h : ∃ x', backSubstitution n U b x = some x' by
    obtain ⟨x', h⟩ := h
    exact ⟨x', h, (backSubstitution_some h).2.2⟩
  unfold backSubstitution
  rw [if_neg hn, quotient_eq (hU (n - 1) (by omega)), Option.bind_some]
  obtain ⟨x', h, _⟩ := down_exists (fun _ _ => True) (n - 1) (fun (x : Vec K) i =>
    (quotient (subtract (b i) (i + 1) n fun j => U i j * x j) (U i i)).map fun y => x.set i y) (fun i s hi _ => by
      rw [quotient_eq (hU i (by omega))]; exact ⟨_, rfl, trivial⟩) (s := x.set (n - 1) (b (n - 1) / U (n - 1) (n - 1))) trivial
  exact ⟨x', h⟩

theorem forwardSubstitution_some {n : ℕ} {L : Mat K} {b x x' : Vec K} (h : forwardSubstitution n L b x = some x') : n ≠ 0 ∧ (∀ i < n, L i i ≠ 0) ∧ Forward L b n x' := by
  unfold forwardSubstitution at h
  by_cases hn : n = 0
  · rw [if_pos hn] at h; simp at h
  rw [if_neg hn] at h
  rcases hq : quotient (b 0) (L 0 0) with _ | y
  · rw [hq] at h; simp at h
  rw [hq, Option.bind_some] at h
  obtain ⟨hy, he⟩ := quotient_some hq
  have := loop_some (fun i x => (∀ p < i, L p p ≠ 0) ∧ Forward L b i x) 1 n _ (by omega) (fun i s s' hi hi' ⟨h1, h2⟩ h3 => ?_) ⟨?_, ?_⟩ h
  · exact ⟨hn, this.1, this.2⟩
  · rw [Option.map_eq_some_iff] at h3
    obtain ⟨z, h3, rfl⟩ := h3
    obtain ⟨h4, h5⟩ := quotient_some h3
    rw [subtract_zero_eq] at h5
    refine ⟨fun p hp => ?_, h2.set h5⟩
    rcases Nat.lt_or_eq_of_le (Nat.le_of_lt_succ hp) with hlt | rfl
    · exact h1 p hlt
    · exact h4
  · intro p hp
    obtain rfl : p = 0 := by omega
    exact hy
  · exact Forward.set (i := 0) (fun p hp => by omega) (by simp [he])

theorem forwardSubstitution_exists {n : ℕ} {L : Mat K} (b x : Vec K) (hn : n ≠ 0) (hL : ∀ i < n, L i i ≠ 0) : ∃ x', forwardSubstitution n L b x = some x' := by
  unfold forwardSubstitution
  rw [if_neg hn, quotient_eq (hL 0 (by omega)), Option.bind_some]
  obtain ⟨x', h, _⟩ := loop_exists (fun _ _ => True) 1 n (fun i (x : Vec K) => (quotient (subtract (b i) 0 i fun j => L i j * x j) (L i i)).map fun y => x.set i y) (by omega)
    (fun i s hi hi' _ => by rw [quotient_eq (hL i (by omega))]; exact ⟨_, rfl, trivial⟩) (s := x.set 0 (b 0 / L 0 0)) trivial
  exact ⟨x', h⟩

/-- An upper triangular system has at most one solution. -/
theorem Back.unique {n : ℕ} {U : Mat K} {b x y : Vec K} (hU : ∀ i < n, U i i ≠ 0) (hx : Back n U b 0 x) (hy : Back n U b 0 y) : ∀ i < n, x i = y i := by
  by_contra h
  push Not at h
  obtain ⟨i, hi, hne⟩ := h
  -- The last index where they differ.
  have hex : ∃ c, ∃ i < n, x i ≠ y i ∧ n - 1 - i = c := ⟨_, i, hi, hne, rfl⟩
  classical
  obtain ⟨i, hi, hne, hc⟩ := Nat.find_spec hex
  have hmin := fun m (hm : m < Nat.find hex) => Nat.find_min hex hm
  have hafter : ∀ j, i < j → j < n → x j = y j := by
    intro j hj hjn
    by_contra hcon
    exact hmin (n - 1 - j) (by omega) ⟨j, hjn, hcon, rfl⟩
  have h1 := hx i (Nat.zero_le _) hi
  have h2 := hy i (Nat.zero_le _) hi
  rw [Finset.sum_eq_sum_Ico_succ_bot hi] at h1 h2
  rw [Finset.sum_congr rfl (g := fun j => U i j * y j) (fun j hj => by rw [Finset.mem_Ico] at hj; rw [hafter j (by omega) hj.2])] at h1
  exact hne (mul_left_cancel₀ (hU i hi) (by linear_combination h1 - h2))

theorem Forward.unique {n : ℕ} {L : Mat K} {b x y : Vec K} (hL : ∀ i < n, L i i ≠ 0) (hx : Forward L b n x) (hy : Forward L b n y) : ∀ i < n, x i = y i := by
  intro i
  induction i using Nat.strong_induction_on with
  | _ i ih =>
    intro hi
    have h1 := hx i hi
    have h2 := hy i hi
    rw [Finset.sum_range_succ] at h1 h2
    rw [Finset.sum_congr rfl (g := fun j => L i j * y j) (fun j hj => by rw [Finset.mem_range] at hj; rw [ih j hj (by omega)])] at h1
    exact mul_left_cancel₀ (hL i hi) (by linear_combination h1 - h2)

end Field

end Principia.Numerics.Matrices
