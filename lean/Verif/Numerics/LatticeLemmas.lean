import Verif.Numerics.LatticeGramSchmidt

/-!
The steps of the algorithm of Lenstra, Lenstra and Lovász.
-/

set_option linter.unusedSimpArgs false
set_option linter.unusedVariables false
set_option linter.unusedSectionVars false

namespace Principia.Numerics.Lattices

open Principia.Numerics.Matrices Finset

theorem down_inv {σ : Type} (P : ℕ → σ → Prop) (k : ℕ) (body : σ → ℕ → σ) (step : ∀ i s, i < k → P (i + 1) s → P i (body s i)) {s : σ} (h0 : P k s) :
    P 0 ((List.range k).reverse.foldl body s) := by
  induction k generalizing s with
  | zero => exact h0
  | succ k ih =>
    rw [List.range_succ, List.reverse_append]
    simp only [List.reverse_cons, List.reverse_nil, List.nil_append, List.cons_append, List.foldl_cons]
    exact ih (fun i s hi => step i s (by omega)) (step k s (by omega) h0)

variable {K : Type} [Field K] [LinearOrder K]

theorem subtractColumn_apply (m : ℕ) (v : Mat K) {k j : ℕ} (x : K) (hjk : j ≠ k) (p q : ℕ) : subtractColumn m v k j x p q = if p < m ∧ q = k then v p k - x * v p j else v p q := by
  have := sweep_inv (fun i (w : Mat K) => ∀ p q, w p q = if p < i ∧ q = k then v p k - x * v p j else v p q) 0 m (fun i (w : Mat K) => w.set i k (w i k - x * v i j)) (Nat.zero_le _)
    (fun i w _ hi hw p q => ?_) (s := v) (fun p q => by rw [if_neg (by omega)])
  · exact this p q
  · by_cases hc : p = i ∧ q = k
    · obtain ⟨rfl, rfl⟩ := hc
      rw [Mat.set_eq, if_pos ⟨by omega, rfl⟩, hw, if_neg (by omega)]
    · rw [Mat.set_ne _ _ hc, hw]
      by_cases h1 : p < i ∧ q = k
      · rw [if_pos h1, if_pos (by omega)]
      · rw [if_neg h1, if_neg (by omega)]

theorem swapColumns_apply (m : ℕ) (v : Mat K) {j k : ℕ} (hjk : j ≠ k) (p q : ℕ) (hp : p < m) : swapColumns m v j k p q = if q = j then v p k else if q = k then v p j else v p q := by
  have := sweep_inv (fun i (w : Mat K) => ∀ p q, w p q = if p < i then (if q = j then v p k else if q = k then v p j else v p q) else v p q) 0 m
    (fun i (v : Mat K) => (v.set i j (v i k)).set i k (v i j)) (Nat.zero_le _) (fun i w _ hi hw p q => ?_) (s := v) (fun p q => by rw [if_neg (by omega)])
  · have h := this p q
    rw [if_pos hp] at h
    exact h
  · by_cases hpi : p = i
    · subst hpi
      rw [if_pos (by omega)]
      by_cases hk : q = k
      · rw [hk, Mat.set_eq, if_neg (Ne.symm hjk), if_pos rfl, hw, if_neg (by omega)]
      · rw [Mat.set_ne _ _ (by omega)]
        by_cases hj : q = j
        · rw [hj, Mat.set_eq, if_pos rfl, hw, if_neg (by omega)]
        · rw [Mat.set_ne _ _ (by omega), hw, if_neg (by omega), if_neg hj, if_neg hk]
    · rw [Mat.set_ne _ _ (by omega), Mat.set_ne _ _ (by omega), hw]
      by_cases h1 : p < i
      · rw [if_pos h1, if_pos (show p < i + 1 by omega)]
      · rw [if_neg h1, if_neg (show ¬p < i + 1 by omega)]

/-! ## Lattices -/

theorem lattice_le {m n : ℕ} {B B' : Matrix (Fin m) (Fin n) K} (h : ∀ j, (fun i => B' i j) ∈ lattice B) : lattice B' ≤ lattice B := by
  unfold lattice
  rw [Submodule.span_le]
  rintro _ ⟨j, rfl⟩
  exact h j

theorem column_mem {m n : ℕ} (B : Matrix (Fin m) (Fin n) K) (j : Fin n) : (fun i => B i j) ∈ lattice B := Submodule.subset_span ⟨j, rfl⟩

theorem lattice_subtract {m n : ℕ} {B B' : Matrix (Fin m) (Fin n) K} {k j : Fin n} (hjk : j ≠ k) (z : ℤ) (h : ∀ i q, B' i q = if q = k then B i k - z * B i j else B i q) :
    lattice B' = lattice B := by
  refine le_antisymm (lattice_le fun q => ?_) (lattice_le fun q => ?_)
  · by_cases hq : q = k
    · have : (fun i => B' i q) = (fun i => B i k) - z • fun i => B i j := by
        funext i
        rw [h, if_pos hq, Pi.sub_apply, Pi.smul_apply, zsmul_eq_mul]
      rw [this]
      exact Submodule.sub_mem _ (column_mem B k) (Submodule.smul_mem _ z (column_mem B j))
    · have : (fun i => B' i q) = fun i => B i q := by
        funext i
        rw [h, if_neg hq]
      rw [this]
      exact column_mem B q
  · by_cases hq : q = k
    · have : (fun i => B i q) = (fun i => B' i k) + z • fun i => B' i j := by
        funext i
        rw [Pi.add_apply, Pi.smul_apply, zsmul_eq_mul, h, h, if_pos rfl, if_neg hjk, hq]
        ring
      rw [this]
      exact Submodule.add_mem _ (column_mem B' k) (Submodule.smul_mem _ z (column_mem B' j))
    · have : (fun i => B i q) = fun i => B' i q := by
        funext i
        rw [h, if_neg hq]
      rw [this]
      exact column_mem B' q

theorem lattice_swap {m n : ℕ} {B B' : Matrix (Fin m) (Fin n) K} (σ : Equiv.Perm (Fin n)) (h : ∀ i q, B' i q = B i (σ q)) : lattice B' = lattice B := by
  refine le_antisymm (lattice_le fun q => ?_) (lattice_le fun q => ?_)
  · rw [show (fun i => B' i q) = fun i => B i (σ q) from funext fun i => h i q]
    exact column_mem B (σ q)
  · rw [show (fun i => B i q) = fun i => B' i (σ.symm q) from funext fun i => by rw [h, Equiv.apply_symm_apply]]
    exact column_mem B' (σ.symm q)

theorem lattice_subtractColumn {m n : ℕ} (v : Mat K) {k j : ℕ} (hj : j < k) (hk : k < n) (z : ℤ) : lattice (matrix m n (subtractColumn m v k j z)) = lattice (matrix m n v) := by
  refine lattice_subtract (k := ⟨k, hk⟩) (j := ⟨j, by omega⟩) (fun he => by have := congrArg Fin.val he; simp only at this; omega) z fun i q => ?_
  change subtractColumn m v k j z i q = if q = ⟨k, hk⟩ then v i k - z * v i j else v i q
  rw [subtractColumn_apply m v (z : K) (by omega : j ≠ k)]
  by_cases hq : q = ⟨k, hk⟩
  · rw [if_pos hq, if_pos ⟨i.2, congrArg Fin.val hq⟩]
  · rw [if_neg hq, if_neg (fun hc => hq (Fin.ext hc.2))]

theorem lattice_swapColumns {m n : ℕ} (v : Mat K) {k : ℕ} (hk0 : 0 < k) (hk : k < n) : lattice (matrix m n (swapColumns m v (k - 1) k)) = lattice (matrix m n v) := by
  refine lattice_swap (Equiv.swap (⟨k - 1, by omega⟩ : Fin n) ⟨k, hk⟩) fun i q => ?_
  change swapColumns m v (k - 1) k i q = v i (Equiv.swap (⟨k - 1, by omega⟩ : Fin n) ⟨k, hk⟩ q)
  rw [swapColumns_apply m v (by omega) i q i.2]
  by_cases h1 : (q : ℕ) = k - 1
  · rw [if_pos h1, show q = ⟨k - 1, by omega⟩ from Fin.ext h1, Equiv.swap_apply_left]
  · rw [if_neg h1]
    by_cases h2 : (q : ℕ) = k
    · rw [if_pos h2, show q = ⟨k, hk⟩ from Fin.ext h2, Equiv.swap_apply_right]
    · rw [if_neg h2, Equiv.swap_apply_of_ne_of_ne (fun he => h1 (congrArg Fin.val he)) (fun he => h2 (congrArg Fin.val he))]

/-! ## The reduction of a column -/

/-- The lattice is preserved, whatever the rounding function. -/
theorem reduceColumn_lattice (round : K → ℤ) {m n : ℕ} (u w : Mat K) {k : ℕ} (hk : k < n) (v : Mat K) :
    lattice (matrix m n (reduceColumn round m n u w k v).1) = lattice (matrix m n v) := by
  refine down_inv (fun _ (s : Mat K × Mat K × Mat K) => lattice (matrix m n s.1) = lattice (matrix m n v)) k _ (fun j s hj hs => ?_) rfl
  simp only
  by_cases hr : round (s.2.2 j k) ≠ 0
  · rw [if_pos hr, ← hs]
    exact lattice_subtractColumn s.1 hj hk _
  · rw [if_neg hr]
    exact hs

theorem advance_lattice {m n k : ℕ} (hk0 : 0 < k) (hk : k < n) (s : Mat K × Mat K × Mat K) : lattice (matrix m n (advance m k s).2) = lattice (matrix m n s.1) := by
  unfold advance
  simp only
  split_ifs
  · rfl
  · exact lattice_swapColumns s.1 hk0 hk

theorem advance_pos {m k : ℕ} (s : Mat K × Mat K × Mat K) : 0 < (advance m k s).1 := by
  unfold advance
  simp only
  split_ifs
  · exact Nat.succ_pos k
  · exact lt_of_lt_of_le Nat.one_pos (le_max_right _ _)

theorem lllLoop_lattice (round : K → ℤ) {m n : ℕ} (u w : Mat K) : ∀ (fuel k : ℕ) (v B : Mat K), 0 < k → lllLoop round m n u w fuel k v = some B →
    lattice (matrix m n B) = lattice (matrix m n v)
  | 0, k, v, B, _, h => by simp [lllLoop] at h
  | fuel + 1, k, v, B, hk0, h => by
    rw [lllLoop] at h
    by_cases hk : k < n
    · rw [if_pos hk] at h
      rw [lllLoop_lattice round u w fuel _ _ B (advance_pos _) h, advance_lattice hk0 hk, reduceColumn_lattice round u w hk]
    · rw [if_neg hk, Option.some.injEq] at h
      rw [h]

variable [IsStrictOrderedRing K]

structure ColumnReduced (m n : ℕ) (u w v : Mat K) (k j : ℕ) (s : Mat K × Mat K × Mat K) : Prop where
  gs : GS m n s.1 s.2
  others : ∀ l q, l < m → q < n → q ≠ k → s.1 l q = v l q
  columns : ∀ l q, l < m → q < n → s.2.1 l q = (unitriangularGramSchmidt m n v u w).1 l q
  coefficients : ∀ p q, p < q → q < n → q ≠ k → s.2.2 p q = (unitriangularGramSchmidt m n v u w).2 p q
  size : ∀ i, j ≤ i → i < k → |s.2.2 i k| ≤ 1 / 2
  integral : (∀ l q, l < m → q < n → ∃ z : ℤ, v l q = z) → ∀ l q, l < m → q < n → ∃ z : ℤ, s.1 l q = z

theorem reduceColumn_spec {round : K → ℤ} (hround : ∀ x, |x - round x| ≤ 1 / 2) {m n : ℕ} (u w : Mat K) {k : ℕ} (hk : k < n) (v : Mat K) :
    ColumnReduced m n u w v k 0 (reduceColumn round m n u w k v) := by
  refine down_inv (fun j (s : Mat K × Mat K × Mat K) => ColumnReduced m n u w v k j s) k _ (fun j s hj hs => ?_)
    ⟨unitriangularGramSchmidt_gs m n v u w, fun _ _ _ _ _ => rfl, fun _ _ _ _ => rfl, fun _ _ _ _ _ => rfl, fun i h1 h2 => by omega, fun h => h⟩
  simp only
  by_cases hr : round (s.2.2 j k) ≠ 0
  · rw [if_pos hr]
    have hA : ∀ l q, l < m → q < n → subtractColumn m s.1 k j (round (s.2.2 j k)) l q = if q = k then s.1 l k - (round (s.2.2 j k) : K) * s.1 l j else s.1 l q := by
      intro l q hl hq
      rw [subtractColumn_apply m s.1 _ (by omega)]
      by_cases h1 : q = k
      · rw [if_pos ⟨hl, h1⟩, if_pos h1]
      · rw [if_neg (fun hc => h1 hc.2), if_neg h1]
    have hgs := unitriangularGramSchmidt_gs m n (subtractColumn m s.1 k j (round (s.2.2 j k))) u w
    obtain ⟨h1, h2, h3, h4, h5⟩ := hs.gs.subtract hgs hj hk hA
    refine ⟨hgs, fun l q hl hq hne => ?_, fun l q hl hq => ?_, fun p q hpq hq hne => ?_, fun i hji hik => ?_, fun hv l q hl hq => ?_⟩
    · simp only
      rw [hA l q hl hq, if_neg hne]
      exact hs.others l q hl hq hne
    · simp only
      rw [h1 q hq l hl]
      exact hs.columns l q hl hq
    · simp only
      rw [h2 p q hpq hq hne]
      exact hs.coefficients p q hpq hq hne
    · simp only
      rcases Nat.eq_or_lt_of_le hji with rfl | hlt
      · by_cases h0 : squares m s.2.1 j = 0
        · rw [h5 h0, abs_zero]
          positivity
        · rw [h4 h0]
          exact hround _
      · rw [h3 i hlt hik]
        exact hs.size i hlt hik
    · simp only
      rw [hA l q hl hq]
      by_cases h1 : q = k
      · rw [if_pos h1]
        obtain ⟨a, ha⟩ := hs.integral hv l k hl hk
        obtain ⟨b, hb⟩ := hs.integral hv l j hl (by omega)
        exact ⟨a - round (s.2.2 j k) * b, by rw [ha, hb]; push_cast; ring⟩
      · rw [if_neg h1]
        exact hs.integral hv l q hl hq
  · rw [if_neg hr]
    refine ⟨hs.gs, hs.others, hs.columns, hs.coefficients, fun i hji hik => ?_, hs.integral⟩
    rcases Nat.eq_or_lt_of_le hji with rfl | hlt
    · have := hround (s.2.2 j k)
      push Not at hr
      rw [hr, Int.cast_zero, sub_zero] at this
      exact this
    · exact hs.size i hlt hik

/-! ## The loop -/

/-- The columns before `k` are reduced. -/
def Good (m n : ℕ) (k : ℕ) (v : Mat K) : Prop :=
  ∀ s, GS m n v s → (∀ i j, i < j → j < k → j < n → |s.2 i j| ≤ 1 / 2) ∧ ∀ j, 0 < j → j < k → j < n → (3 / 4 - s.2 (j - 1) j ^ 2) * squares m s.1 (j - 1) ≤ squares m s.1 j

theorem squares_congr {m : ℕ} {Q Q' : Mat K} {q : ℕ} (h : ∀ l < m, Q' l q = Q l q) : squares m Q' q = squares m Q q :=
  Finset.sum_congr rfl fun l hl => by rw [Finset.mem_range] at hl; rw [h l hl]

/-- Being reduced only depends on the first columns. -/
theorem Good.congr {m n k : ℕ} {v v' : Mat K} (hk : k ≤ n) (h : Good m n k v) (hv : ∀ l q, l < m → q < k → v' l q = v l q) : Good m n k v' := by
  intro s' hs'
  have hs := unitriangularGramSchmidt_gs m n v (fun _ _ => 0) (fun _ _ => 0)
  obtain ⟨h1, h2⟩ := h _ hs
  obtain ⟨h3, h4⟩ := hs.prefix_columns hs' hk (fun q hq l hl => hv l q hl hq)
  refine ⟨fun i j hij hj hn => by rw [h4 i j hij hj]; exact h1 i j hij hj hn, fun j hj0 hj hn => ?_⟩
  rw [squares_congr (fun l hl => h3 j hj l hl), squares_congr (fun l hl => h3 (j - 1) (by omega) l hl), h4 (j - 1) j (by omega) hj]
  exact h2 j hj0 hj hn

theorem Good.step {round : K → ℤ} (hround : ∀ x, |x - round x| ≤ 1 / 2) {m n : ℕ} (u w : Mat K) {k : ℕ} (hk0 : 0 < k) (hk : k < n) {v : Mat K} (h : Good m n k v) :
    Good m n (advance m k (reduceColumn round m n u w k v)).1 (advance m k (reduceColumn round m n u w k v)).2 := by
  have hr := reduceColumn_spec hround (m := m) u w hk v
  generalize reduceColumn round m n u w k v = r at hr
  have hg : Good m n k r.1 := h.congr hk.le (fun l q hl hq => hr.others l q hl (by omega) (by omega))
  unfold advance
  simp only [sum_zero_eq]
  by_cases hc : ∑ l ∈ range m, r.2.1 l k * r.2.1 l k ≥ (3 / 4 - r.2.2 (k - 1) k ^ 2) * ∑ l ∈ range m, r.2.1 l (k - 1) * r.2.1 l (k - 1)
  · rw [if_pos hc]
    intro s hs
    obtain ⟨h1, h2⟩ := hg s hs
    obtain ⟨h3, h4⟩ := hr.gs.prefix_columns hs (c := n) (le_refl n) (fun q _ l _ => rfl)
    refine ⟨fun i j hij hj hn => ?_, fun j hj0 hj hn => ?_⟩
    · rcases Nat.lt_or_eq_of_le (Nat.le_of_lt_succ hj) with hlt | rfl
      · exact h1 i j hij hlt hn
      · rw [h4 i j hij hn]
        exact hr.size i (Nat.zero_le _) hij
    · rcases Nat.lt_or_eq_of_le (Nat.le_of_lt_succ hj) with hlt | rfl
      · exact h2 j hj0 hlt hn
      · rw [squares_congr (fun l hl => h3 j hn l hl), squares_congr (fun l hl => h3 (j - 1) (by omega) l hl), h4 (j - 1) j (by omega) hn]
        exact hc
  · rw [if_neg hc]
    by_cases h1 : k = 1
    · subst h1
      exact fun s hs => ⟨fun i j hij hj hn => by simp at hj; omega, fun j hj0 hj hn => by simp at hj; omega⟩
    · rw [show max (k - 1) 1 = k - 1 by omega]
      have hg' : Good m n (k - 1) r.1 := fun s hs => ⟨fun i j hij hj hn => (hg s hs).1 i j hij (by omega) hn, fun j hj0 hj hn => (hg s hs).2 j hj0 (by omega) hn⟩
      refine hg'.congr (by omega) fun l q hl hq => ?_
      simp only at hq ⊢
      rw [swapColumns_apply m r.1 (by omega) l q hl, if_neg (by omega), if_neg (by omega)]

theorem lllLoop_good {round : K → ℤ} (hround : ∀ x, |x - round x| ≤ 1 / 2) {m n : ℕ} (u w : Mat K) : ∀ (fuel k : ℕ) (v B : Mat K), 0 < k → Good m n k v →
    lllLoop round m n u w fuel k v = some B → Good m n n B
  | 0, k, v, B, _, _, h => by simp [lllLoop] at h
  | fuel + 1, k, v, B, hk0, hg, h => by
    rw [lllLoop] at h
    by_cases hk : k < n
    · rw [if_pos hk] at h
      exact lllLoop_good hround u w fuel _ _ B (advance_pos _) (hg.step hround u w hk0 hk) h
    · rw [if_neg hk, Option.some.injEq] at h
      subst h
      exact fun s hs => ⟨fun i j hij hj hn => (hg s hs).1 i j hij (by omega) hn, fun j hj0 hj hn => (hg s hs).2 j hj0 (by omega) hn⟩

/-! ## Termination -/

/-- The product of the Gram determinants. -/
def potential (m n : ℕ) (v : Mat K) : K := ∏ i ∈ range (n + 1), (gram m i v).det

def IntegralArray (m n : ℕ) (v : Mat K) : Prop := ∀ l q, l < m → q < n → ∃ z : ℤ, v l q = z

theorem squares_pos {m n : ℕ} {v : Mat K} {s : Mat K × Mat K} (hs : GS m n v s) (h : (gram m n v).det ≠ 0) {j : ℕ} (hj : j < n) : 0 < squares m s.1 j := by
  rw [det_gram hs (le_refl n)] at h
  exact lt_of_le_of_ne (squares_nonneg m s.1 j) (Ne.symm (Finset.prod_ne_zero_iff.1 h j (Finset.mem_range.2 hj)))

theorem det_gram_pos {m n i : ℕ} {v : Mat K} (h : (gram m n v).det ≠ 0) (hi : i ≤ n) : 0 < (gram m i v).det := by
  have hs := unitriangularGramSchmidt_gs m n v (fun _ _ => 0) (fun _ _ => 0)
  rw [det_gram hs hi]
  exact Finset.prod_pos fun j hj => squares_pos hs h (by rw [Finset.mem_range] at hj; omega)

theorem potential_pos {m n : ℕ} {v : Mat K} (h : (gram m n v).det ≠ 0) : 0 < potential m n v :=
  Finset.prod_pos fun i hi => det_gram_pos h (by rw [Finset.mem_range] at hi; omega)

theorem potential_natural {m n : ℕ} {v : Mat K} (h : (gram m n v).det ≠ 0) (hv : IntegralArray m n v) : ∃ N : ℕ, potential m n v = N := by
  have h1 : ∀ i : ℕ, ∃ z : ℤ, i ≤ n → (gram m i v).det = z := fun i => by
    by_cases hi : i ≤ n
    · obtain ⟨z, hz⟩ := det_gram_integral (m := m) (i := i) (A := v) (fun l q hl hq => hv l q hl (by omega))
      exact ⟨z, fun _ => hz⟩
    · exact ⟨0, fun h => absurd h hi⟩
  choose z hz using h1
  have h2 : potential m n v = ((∏ i ∈ range (n + 1), z i : ℤ) : K) := by
    unfold potential
    rw [Int.cast_prod]
    exact Finset.prod_congr rfl fun i hi => hz i (by rw [Finset.mem_range] at hi; omega)
  have h3 : 0 < ∏ i ∈ range (n + 1), z i := by
    have := potential_pos h
    rw [h2] at this
    exact_mod_cast this
  refine ⟨(∏ i ∈ range (n + 1), z i).toNat, ?_⟩
  rw [h2, ← Int.cast_natCast (R := K), Int.toNat_of_nonneg h3.le]

/-- The effect of an iteration on the potential. -/
theorem potential_step {round : K → ℤ} (hround : ∀ x, |x - round x| ≤ 1 / 2) {m n : ℕ} (u w : Mat K) {k : ℕ} (hk0 : 0 < k) (hk : k < n) {v : Mat K} (hd : (gram m n v).det ≠ 0)
    (hv : IntegralArray m n v) :
    let r := advance m k (reduceColumn round m n u w k v);
    (gram m n r.2).det ≠ 0 ∧ IntegralArray m n r.2 ∧ ((r.1 = k + 1 ∧ potential m n r.2 = potential m n v) ∨ potential m n r.2 < potential m n v) := by
  have hr := reduceColumn_spec hround (m := m) u w hk v
  generalize reduceColumn round m n u w k v = r at hr
  have hs := unitriangularGramSchmidt_gs m n v u w
  have hdet : ∀ i ≤ n, (gram m i r.1).det = (gram m i v).det := fun i hi => by
    rw [det_gram hr.gs hi, det_gram hs hi]
    exact Finset.prod_congr rfl fun j hj => by rw [Finset.mem_range] at hj; exact squares_congr fun l hl => hr.columns l j hl (by omega)
  have hpot : potential m n r.1 = potential m n v := Finset.prod_congr rfl fun i hi => hdet i (by rw [Finset.mem_range] at hi; omega)
  have hd' : (gram m n r.1).det ≠ 0 := by rw [hdet n (le_refl n)]; exact hd
  unfold advance
  simp only [sum_zero_eq]
  by_cases hc : ∑ l ∈ range m, r.2.1 l k * r.2.1 l k ≥ (3 / 4 - r.2.2 (k - 1) k ^ 2) * ∑ l ∈ range m, r.2.1 l (k - 1) * r.2.1 l (k - 1)
  · rw [if_pos hc]
    exact ⟨hd', hr.integral hv, Or.inl ⟨rfl, hpot⟩⟩
  · rw [if_neg hc]
    simp only
    have hA : ∀ l q, l < m → q < n → swapColumns m r.1 (k - 1) k l q = if q = k - 1 then r.1 l k else if q = k then r.1 l (k - 1) else r.1 l q :=
      fun l q hl _ => swapColumns_apply m r.1 (by omega) l q hl
    have hsw : ∀ i ≤ n, i ≠ k → (gram m i (swapColumns m r.1 (k - 1) k)).det = (gram m i r.1).det := fun i hi hik => det_gram_swap hk hk0 hi hik hA
    have hdn : (gram m n (swapColumns m r.1 (k - 1) k)).det ≠ 0 := by rw [hsw n (le_refl n) (by omega)]; exact hd'
    refine ⟨hdn, fun l q hl hq => ?_, Or.inr ?_⟩
    · rw [hA l q hl hq]
      split_ifs
      · exact hr.integral hv l k hl hk
      · exact hr.integral hv l (k - 1) hl (by omega)
      · exact hr.integral hv l q hl hq
    · rw [← hpot]
      have hgs := unitriangularGramSchmidt_gs m n (swapColumns m r.1 (k - 1) k) u w
      obtain ⟨h1, -, h3⟩ := hr.gs.swap hgs hk0 hk hA
      have hlt : (gram m k (swapColumns m r.1 (k - 1) k)).det < (gram m k r.1).det := by
        rw [det_gram hgs hk.le, det_gram hr.gs hk.le, show k = (k - 1) + 1 by omega, Finset.prod_range_succ, Finset.prod_range_succ]
        have h4 : ∏ j ∈ range (k - 1), squares m (unitriangularGramSchmidt m n (swapColumns m r.1 (k - 1 + 1 - 1) (k - 1 + 1)) u w).1 j = ∏ j ∈ range (k - 1), squares m r.2.1 j := by
          rw [show k - 1 + 1 = k by omega]
          exact Finset.prod_congr rfl fun j hj => by rw [Finset.mem_range] at hj; exact squares_congr fun l hl => h1 j hj l hl
        rw [h4, show k - 1 + 1 = k by omega, h3]
        refine mul_lt_mul_of_pos_left ?_ (Finset.prod_pos fun j hj => squares_pos hr.gs hd' (by rw [Finset.mem_range] at hj; omega))
        have h5 := squares_pos hr.gs hd' (j := k - 1) (by omega)
        have h6 : squares m r.2.1 k < (3 / 4 - r.2.2 (k - 1) k ^ 2) * squares m r.2.1 (k - 1) := not_le.1 hc
        linarith
      unfold potential
      refine Finset.prod_lt_prod (fun i hi => det_gram_pos hdn (by rw [Finset.mem_range] at hi; omega)) (fun i hi => ?_) ⟨k, Finset.mem_range.2 (by omega), hlt⟩
      rw [Finset.mem_range] at hi
      by_cases hik : i = k
      · subst hik; exact hlt.le
      · rw [hsw i (by omega) hik]

theorem lllLoop_terminates {round : K → ℤ} (hround : ∀ x, |x - round x| ≤ 1 / 2) {m n : ℕ} (u w : Mat K) (N : ℕ) : ∀ (d k : ℕ) (v : Mat K), n - k ≤ d → 0 < k → (gram m n v).det ≠ 0 →
    IntegralArray m n v → potential m n v = N → ∃ fuel B, lllLoop round m n u w fuel k v = some B := by
  induction N using Nat.strong_induction_on with
  | _ N ihN =>
    intro d
    induction d with
    | zero =>
      intro k v hd hk0 _ _ _
      exact ⟨1, v, by rw [lllLoop, if_neg (by omega)]⟩
    | succ d ih =>
      intro k v hd hk0 hdet hv hN
      by_cases hk : k < n
      · obtain ⟨h1, h2, h3⟩ := potential_step hround u w hk0 hk hdet hv
        rcases h3 with ⟨h3, h4⟩ | h3
        · obtain ⟨fuel, B, h5⟩ := ih (advance m k (reduceColumn round m n u w k v)).1 _ (by rw [h3]; omega) (by rw [h3]; omega) h1 h2 (by rw [h4, hN])
          exact ⟨fuel + 1, B, by rw [lllLoop, if_pos hk]; exact h5⟩
        · obtain ⟨N', hN'⟩ := potential_natural h1 h2
          rw [hN, hN', Nat.cast_lt] at h3
          obtain ⟨fuel, B, h5⟩ := ihN N' h3 (n - (advance m k (reduceColumn round m n u w k v)).1) (advance m k (reduceColumn round m n u w k v)).1 _ (le_refl _) (advance_pos _) h1 h2 hN'
          exact ⟨fuel + 1, B, by rw [lllLoop, if_pos hk]; exact h5⟩
      · exact ⟨1, v, by rw [lllLoop, if_neg hk]⟩

end Principia.Numerics.Lattices
