import Verif.Numerics.NguyenStehleModel
import Verif.Numerics.LatticeLemmas

/-!
The algorithm of Nguyễn and Stehlé preserves the lattice and keeps track of the Gram matrix, whatever the floating-point arithmetic.
-/

set_option linter.unusedSimpArgs false
set_option linter.unusedVariables false
set_option linter.unusedSectionVars false

namespace Principia.Numerics.Lattices

open Principia.Numerics.Matrices Finset

theorem mset_eq {K : Type} (A : Mat K) (i j : ℕ) (x : K) : A.set i j x i j = x := if_pos ⟨rfl, rfl⟩

theorem mset_ne {K : Type} (A : Mat K) {i j p q : ℕ} (x : K) (h : ¬(p = i ∧ q = j)) : A.set i j x p q = A p q := if_neg h

theorem vset_eq {K : Type} (b : Vec K) (i : ℕ) (x : K) : b.set i x i = x := if_pos rfl

theorem vset_ne {K : Type} (b : Vec K) {i p : ℕ} (x : K) (h : p ≠ i) : b.set i x p = b p := if_neg h

theorem sumInt_eq (hi : ℕ) (g : ℕ → ℤ) : sumInt 0 hi g = ∑ k ∈ range hi, g k := by
  have := sweep_inv (fun i s => s = ∑ k ∈ range i, g k) 0 hi (fun k s => s + g k) (Nat.zero_le _) (fun i s _ _ h => by rw [h, Finset.sum_range_succ]) (s := 0) (by simp)
  exact this

theorem down_inv' {σ : Type} (P : ℕ → σ → Prop) (lo c : ℕ) (body : σ → ℕ → σ) (step : ∀ i s, lo ≤ i → i < lo + c → P (i + 1) s → P i (body s i)) {s : σ} (h0 : P (lo + c) s) :
    P lo ((List.range' lo c).reverse.foldl body s) := by
  induction c generalizing s with
  | zero => exact h0
  | succ c ih =>
    rw [List.range'_1_concat, List.reverse_append]
    simp only [List.reverse_cons, List.reverse_nil, List.nil_append, List.cons_append, List.foldl_cons]
    exact ih (fun i s h1 h2 => step i s h1 (by omega)) (step (lo + c) s (by omega) (by omega) h0)

/-- The scalar product of two columns. -/
def dot (n : ℕ) (b : Mat ℤ) (i j : ℕ) : ℤ := ∑ l ∈ range n, b l i * b l j

theorem dot_comm (n : ℕ) (b : Mat ℤ) (i j : ℕ) : dot n b i j = dot n b j i := Finset.sum_congr rfl fun l _ => mul_comm _ _

/-- `G` is the Gram matrix of `b`. -/
def IsGram (n d : ℕ) (b G : Mat ℤ) : Prop := ∀ i j, i < d → j < d → G i j = dot n b i j

theorem gramMatrix_spec (n d : ℕ) (L u : Mat ℤ) : IsGram n d L (gramMatrix n d L u) := by
  refine sweep_inv (fun i (g : Mat ℤ) => ∀ p q, p < i → q < i → g p q = dot n L p q) 0 d _ (Nat.zero_le _) (fun i g _ hi hg => ?_) (fun p q hp => by omega)
  have h := sweep_inv (fun j (g : Mat ℤ) => (∀ p q, p < i → q < i → g p q = dot n L p q) ∧ ∀ q < j, g i q = dot n L i q ∧ g q i = dot n L q i) 0 (i + 1)
    (fun j (g : Mat ℤ) => (g.set i j (sumInt 0 n fun l => L l i * L l j)).set j i (sumInt 0 n fun l => L l i * L l j)) (Nat.zero_le _) (fun j g _ hj h => ?_) (s := g)
    ⟨hg, fun q hq => by omega⟩
  · intro p q hp hq
    rcases Nat.lt_or_eq_of_le (Nat.le_of_lt_succ hp) with hp | rfl
    · rcases Nat.lt_or_eq_of_le (Nat.le_of_lt_succ hq) with hq | rfl
      · exact h.1 p q hp hq
      · exact (h.2 p (by omega)).2
    · exact (h.2 q hq).1
  · rw [sumInt_eq]
    refine ⟨fun p q hp hq => ?_, fun q hq => ?_⟩
    · rw [mset_ne _ _ (by omega), mset_ne _ _ (by omega)]; exact h.1 p q hp hq
    · by_cases hqj : q = j
      · subst hqj
        refine ⟨?_, ?_⟩
        · by_cases hqi : q = i
          · subst hqi; rw [mset_eq]; rfl
          · rw [mset_ne _ _ (by omega), mset_eq]; rfl
        · rw [mset_eq, dot_comm]; rfl
      · obtain ⟨h1, h2⟩ := h.2 q (by omega)
        rw [mset_ne _ _ (by omega), mset_ne _ _ (by omega), mset_ne _ _ (by omega), mset_ne _ _ (by omega)]
        exact ⟨h1, h2⟩

/-- The permutation of the indices in an insertion. -/
def rot (fromIndex toIndex q : ℕ) : ℕ := if q = toIndex then fromIndex else if toIndex < q ∧ q ≤ fromIndex then q - 1 else q

def rotInv (fromIndex toIndex q : ℕ) : ℕ := if q = fromIndex then toIndex else if toIndex ≤ q ∧ q < fromIndex then q + 1 else q

theorem rot_rotInv {f t : ℕ} (h : t ≤ f) (q : ℕ) : rot f t (rotInv f t q) = q := by
  unfold rot rotInv; split_ifs <;> omega

theorem rotInv_rot {f t : ℕ} (h : t ≤ f) (q : ℕ) : rotInv f t (rot f t q) = q := by
  unfold rot rotInv; split_ifs <;> omega

theorem rot_lt {f t d q : ℕ} (h : t ≤ f) (hf : f < d) (hq : q < d) : rot f t q < d := by
  unfold rot; split_ifs <;> omega

theorem rotInv_lt {f t d q : ℕ} (h : t ≤ f) (hf : f < d) (hq : q < d) : rotInv f t q < d := by
  unfold rotInv; split_ifs <;> omega

theorem rotateColumns_apply (rows : ℕ) {f t : ℕ} (h : t ≤ f) (b : Mat ℤ) (p q : ℕ) (hp : p < rows) : rotateColumns rows f t b p q = b p (rot f t q) := by
  suffices this : ∀ p q, rotateColumns rows f t b p q = if p < rows then b p (rot f t q) else b p q by
    have h2 := this p q
    rw [if_pos hp] at h2
    exact h2
  refine sweep_inv (fun i (w : Mat ℤ) => ∀ p q, w p q = if p < i then b p (rot f t q) else b p q) 0 rows _ (Nat.zero_le _) (fun i w _ hi hw p q => ?_) (s := b)
    (fun p q => by rw [if_neg (by omega)])
  · have hin := down_inv' (fun j (v : Mat ℤ) => ∀ p q, v p q = if p = i ∧ j ≤ q ∧ q ≤ f then w i (q - 1) else w p q) (t + 1) (f - t)
      (fun (b : Mat ℤ) j => b.set i j (b i (j - 1))) (fun j v h1 h2 hv p q => ?_) (s := w) (fun p q => by rw [if_neg (by omega)])
    · have hwi : ∀ q, w i q = b i q := fun q => by rw [hw i q, if_neg (lt_irrefl i)]
      unfold Mat.set
      unfold Mat.set at hin
      rw [hin p q, hwi, hwi]
      unfold rot
      by_cases hpi : p = i
      · subst hpi
        by_cases hqt : q = t
        · rw [if_pos ⟨rfl, hqt⟩, if_pos (by omega), if_pos hqt]
        · rw [if_neg (by omega), if_pos (by omega : p < p + 1), if_neg hqt]
          by_cases hq : t < q ∧ q ≤ f
          · rw [if_pos (by omega), if_pos hq]
          · rw [if_neg (by omega), if_neg hq, hwi]
      · rw [if_neg (by omega), if_neg (by omega), hw p q]
        by_cases hpi2 : p < i
        · rw [if_pos hpi2, if_pos (by omega)]; rfl
        · rw [if_neg hpi2, if_neg (by omega)]
    · unfold Mat.set
      by_cases hc : p = i ∧ q = j
      · rw [if_pos hc, if_pos (by omega), hv i (j - 1), if_neg (by omega), hc.2]
      · rw [if_neg hc, hv p q]
        by_cases hc2 : p = i ∧ j + 1 ≤ q ∧ q ≤ f
        · rw [if_pos hc2, if_pos (by omega)]
        · rw [if_neg hc2, if_neg (by omega)]

theorem rotateRows_apply (columns : ℕ) {f t : ℕ} (h : t ≤ f) (G : Mat ℤ) (p q : ℕ) (hq : q < columns) : rotateRows columns f t G p q = G (rot f t p) q := by
  suffices this : ∀ p q, rotateRows columns f t G p q = if q < columns then G (rot f t p) q else G p q by
    have h2 := this p q
    rw [if_pos hq] at h2
    exact h2
  refine sweep_inv (fun j (w : Mat ℤ) => ∀ p q, w p q = if q < j then G (rot f t p) q else G p q) 0 columns _ (Nat.zero_le _) (fun j w _ hj hw p q => ?_) (s := G)
    (fun p q => by rw [if_neg (by omega)])
  · have hin := down_inv' (fun i (v : Mat ℤ) => ∀ p q, v p q = if q = j ∧ i ≤ p ∧ p ≤ f then w (p - 1) j else w p q) (t + 1) (f - t)
      (fun (b : Mat ℤ) i => b.set i j (b (i - 1) j)) (fun i v h1 h2 hv p q => ?_) (s := w) (fun p q => by rw [if_neg (by omega)])
    · have hwi : ∀ p, w p j = G p j := fun p => by rw [hw p j, if_neg (lt_irrefl j)]
      unfold Mat.set
      unfold Mat.set at hin
      rw [hin p q, hwi, hwi]
      unfold rot
      by_cases hpi : q = j
      · subst hpi
        by_cases hqt : p = t
        · rw [if_pos ⟨hqt, rfl⟩, if_pos (by omega), if_pos hqt]
        · rw [if_neg (by omega), if_pos (by omega : q < q + 1), if_neg hqt]
          by_cases hq : t < p ∧ p ≤ f
          · rw [if_pos (by omega), if_pos hq]
          · rw [if_neg (by omega), if_neg hq, hwi]
      · rw [if_neg (by omega), if_neg (by omega), hw p q]
        by_cases hpi2 : q < j
        · rw [if_pos hpi2, if_pos (by omega)]; rfl
        · rw [if_neg hpi2, if_neg (by omega)]
    · unfold Mat.set
      by_cases hc : p = i ∧ q = j
      · rw [if_pos hc, if_pos (by omega), hv (i - 1) j, if_neg (by omega), hc.1]
      · rw [if_neg hc, hv p q]
        by_cases hc2 : q = j ∧ i + 1 ≤ p ∧ p ≤ f
        · rw [if_pos hc2, if_pos (by omega)]
        · rw [if_neg hc2, if_neg (by omega)]

section

variable {F : Type}

theorem insertColumn_gram {n d f t : ℕ} (h : t ≤ f) (hf : f < d) {s : NS F} (hG : IsGram n d s.b s.G) : IsGram n d (insertColumn n d f t s).b (insertColumn n d f t s).G := by
  intro i j hi hj
  unfold insertColumn
  simp only
  rw [rotateRows_apply d h _ i j hj, rotateColumns_apply d h _ _ j (rot_lt h hf hi), hG _ _ (rot_lt h hf hi) (rot_lt h hf hj)]
  unfold dot
  refine Finset.sum_congr rfl fun l hl => ?_
  rw [Finset.mem_range] at hl
  rw [rotateColumns_apply n h _ l i hl, rotateColumns_apply n h _ l j hl]

/-! ## The reduction of a column -/

theorem subtractColumns_apply (n κ : ℕ) (X : Vec ℤ) (b : Mat ℤ) (l q : ℕ) :
    subtractColumns n κ X b l q = if l < n ∧ q = κ then b l κ - ∑ i ∈ range κ, X i * b l i else b l q := by
  have := sweep_inv (fun i (w : Mat ℤ) => ∀ l q, w l q = if l < n ∧ q = κ then b l κ - ∑ i ∈ range i, X i * b l i else b l q) 0 κ
    (fun i (b : Mat ℤ) => sweep 0 n (fun l (c : Mat ℤ) => c.set l κ (c l κ - X i * b l i)) b) (Nat.zero_le _) (fun i w _ hi hw l q => ?_) (s := b) (fun l q => ?_)
  · exact this l q
  · have hin := sweep_inv (fun p (c : Mat ℤ) => ∀ l q, c l q = if l < p ∧ q = κ then w l κ - X i * w l i else w l q) 0 n (fun l (c : Mat ℤ) => c.set l κ (c l κ - X i * w l i)) (Nat.zero_le _)
      (fun p c _ hp hc l q => ?_) (s := w) (fun l q => by rw [if_neg (by omega)])
    · unfold Mat.set at hin ⊢
      rw [hin l q]
      by_cases h : l < n ∧ q = κ
      · rw [if_pos h, if_pos h, hw l κ, if_pos ⟨h.1, rfl⟩, hw l i, if_neg (by omega), Finset.sum_range_succ]
        ring
      · rw [if_neg h, if_neg h, hw l q, if_neg h]
    · unfold Mat.set
      by_cases h : l = p ∧ q = κ
      · rw [if_pos h, if_pos (by omega), hc p κ, if_neg (by omega), h.1]
      · rw [if_neg h, hc l q]
        by_cases h2 : l < p ∧ q = κ
        · rw [if_pos h2, if_pos (by omega)]
        · rw [if_neg h2, if_neg (by omega)]
  · by_cases h : l < n ∧ q = κ
    · rw [if_pos h, Finset.sum_range_zero, sub_zero, h.2]
    · rw [if_neg h]

theorem square_sum (a : ℕ → ℤ) : ∀ κ, (∑ j ∈ range κ, a j) * (∑ j ∈ range κ, a j) = ∑ j ∈ range κ, a j * a j + 2 * ∑ j ∈ range κ, ∑ i ∈ range j, a i * a j
  | 0 => by simp
  | κ + 1 => by
    rw [Finset.sum_range_succ, Finset.sum_range_succ, Finset.sum_range_succ, ← Finset.sum_mul]
    have := square_sum a κ
    linear_combination this

theorem dot_new {n κ : ℕ} {X : Vec ℤ} {b : Mat ℤ} {i : ℕ} (hi : i ≠ κ) : dot n (subtractColumns n κ X b) i κ = dot n b i κ - ∑ j ∈ range κ, X j * dot n b i j := by
  unfold dot
  have h1 : ∀ l ∈ range n, subtractColumns n κ X b l i * subtractColumns n κ X b l κ = b l i * b l κ - ∑ j ∈ range κ, X j * (b l i * b l j) := fun l hl => by
    rw [Finset.mem_range] at hl
    rw [subtractColumns_apply, subtractColumns_apply, if_neg (by omega), if_pos ⟨hl, rfl⟩, mul_sub, Finset.mul_sum]
    congr 1
    exact Finset.sum_congr rfl fun j _ => by ring
  rw [Finset.sum_congr rfl h1, Finset.sum_sub_distrib, Finset.sum_comm]
  congr 1
  exact Finset.sum_congr rfl fun j _ => by rw [Finset.mul_sum]

theorem dot_new_self {n κ : ℕ} {X : Vec ℤ} {b : Mat ℤ} : dot n (subtractColumns n κ X b) κ κ =
    dot n b κ κ + (∑ j ∈ range κ, X j * (X j * dot n b j j) - 2 * ∑ j ∈ range κ, X j * dot n b j κ + 2 * ∑ j ∈ range κ, ∑ i ∈ range j, X i * (X j * dot n b i j)) := by
  unfold dot
  have h1 : ∀ l ∈ range n, subtractColumns n κ X b l κ * subtractColumns n κ X b l κ =
      b l κ * b l κ + (∑ j ∈ range κ, X j * (X j * (b l j * b l j)) - 2 * ∑ j ∈ range κ, X j * (b l j * b l κ) + 2 * ∑ j ∈ range κ, ∑ i ∈ range j, X i * (X j * (b l i * b l j))) :=
    fun l hl => by
    rw [Finset.mem_range] at hl
    rw [subtractColumns_apply, if_pos ⟨hl, rfl⟩]
    have h := square_sum (fun j => X j * b l j) κ
    have e1 : ∑ j ∈ range κ, X j * b l j * (X j * b l j) = ∑ j ∈ range κ, X j * (X j * (b l j * b l j)) := Finset.sum_congr rfl fun j _ => by ring
    have e2 : ∑ j ∈ range κ, ∑ i ∈ range j, X i * b l i * (X j * b l j) = ∑ j ∈ range κ, ∑ i ∈ range j, X i * (X j * (b l i * b l j)) :=
      Finset.sum_congr rfl fun j _ => Finset.sum_congr rfl fun i _ => by ring
    have e3 : ∑ j ∈ range κ, X j * (b l j * b l κ) = (∑ j ∈ range κ, X j * b l j) * b l κ := by
      rw [Finset.sum_mul]; exact Finset.sum_congr rfl fun j _ => by ring
    rw [e1, e2] at h
    rw [e3]
    linear_combination h
  rw [Finset.sum_congr rfl h1, Finset.sum_add_distrib, Finset.sum_add_distrib, Finset.sum_sub_distrib, ← Finset.mul_sum, ← Finset.mul_sum]
  have e1 : ∑ l ∈ range n, ∑ j ∈ range κ, X j * (X j * (b l j * b l j)) = ∑ j ∈ range κ, X j * (X j * ∑ l ∈ range n, b l j * b l j) := by
    rw [Finset.sum_comm]; exact Finset.sum_congr rfl fun j _ => by rw [Finset.mul_sum, Finset.mul_sum]
  have e2 : ∑ l ∈ range n, ∑ j ∈ range κ, X j * (b l j * b l κ) = ∑ j ∈ range κ, X j * ∑ l ∈ range n, b l j * b l κ := by
    rw [Finset.sum_comm]; exact Finset.sum_congr rfl fun j _ => by rw [Finset.mul_sum]
  have e3 : ∑ l ∈ range n, ∑ j ∈ range κ, ∑ i ∈ range j, X i * (X j * (b l i * b l j)) = ∑ j ∈ range κ, ∑ i ∈ range j, X i * (X j * ∑ l ∈ range n, b l i * b l j) := by
    rw [Finset.sum_comm]
    refine Finset.sum_congr rfl fun j _ => ?_
    rw [Finset.sum_comm]
    exact Finset.sum_congr rfl fun i _ => by rw [Finset.mul_sum, Finset.mul_sum]
  rw [e1, e2, e3]

theorem updateGram_spec {n d κ : ℕ} (hκ : κ < d) {X : Vec ℤ} {b G : Mat ℤ} (hG : IsGram n d b G) : IsGram n d (subtractColumns n κ X b) (updateGram d κ X G) := by
  have hold : ∀ p q, p ≠ κ → q ≠ κ → dot n (subtractColumns n κ X b) p q = dot n b p q := fun p q hp hq =>
    Finset.sum_congr rfl fun l _ => by rw [subtractColumns_apply, subtractColumns_apply, if_neg (by omega), if_neg (by omega)]
  unfold updateGram
  simp only
  have hκκ : G κ κ + (sumInt 0 κ (fun j => X j * (X j * G j j)) - 2 * sumInt 0 κ (fun j => X j * G j κ) + 2 * sumInt 0 κ fun j => sumInt 0 j fun i => X i * (X j * G i j)) =
      dot n (subtractColumns n κ X b) κ κ := by
    rw [sumInt_eq, sumInt_eq, sumInt_eq, dot_new_self, hG κ κ hκ hκ]
    congr 3
    · exact Finset.sum_congr rfl fun j hj => by rw [Finset.mem_range] at hj; rw [hG j j (by omega) (by omega)]
    · congr 1
      exact Finset.sum_congr rfl fun j hj => by rw [Finset.mem_range] at hj; rw [hG j κ (by omega) (by omega)]
    · refine Finset.sum_congr rfl fun j hj => ?_
      rw [Finset.mem_range] at hj
      rw [sumInt_eq]
      exact Finset.sum_congr rfl fun i hi => by rw [Finset.mem_range] at hi; rw [hG i j (by omega) (by omega)]
  rw [hκκ]
  have h := sweep_inv (fun p (W : Mat ℤ) => (∀ i j, i < d → j < d → i ≠ κ → j ≠ κ → W i j = dot n b i j) ∧ (∀ i, p ≤ i → i < d → i ≠ κ → W i κ = dot n b i κ) ∧
      W κ κ = dot n (subtractColumns n κ X b) κ κ ∧ ∀ i, i < p → i ≠ κ → W i κ = dot n (subtractColumns n κ X b) i κ ∧ W κ i = dot n (subtractColumns n κ X b) i κ) 0 d
    (fun i (G : Mat ℤ) =>
      if i ≠ κ then
        (G.set i κ (G i κ - sumInt 0 κ fun j => X j * G i j)).set κ i (G i κ - sumInt 0 κ fun j => X j * G i j)
      else G) (Nat.zero_le _) (fun p W _ hp ⟨h1, h2, h3, h4⟩ => ?_) (s := G.set κ κ (dot n (subtractColumns n κ X b) κ κ)) ⟨fun i j hi hj hiκ hjκ => ?_, fun i _ hi hiκ => ?_, ?_, fun i hi => by omega⟩
  · intro i j hi hj
    by_cases hiκ : i = κ
    · subst hiκ
      by_cases hji : j = i
      · subst hji; exact h.2.2.1
      · rw [dot_comm n _ i j]; exact (h.2.2.2 j hj hji).2
    · by_cases hjκ : j = κ
      · subst hjκ; exact (h.2.2.2 i hi hiκ).1
      · rw [hold i j hiκ hjκ]; exact h.1 i j hi hj hiκ hjκ
  · beta_reduce
    by_cases hpκ : p = κ
    · rw [if_neg (by omega)]
      exact ⟨h1, fun i hi hid => h2 i (by omega) hid, h3, fun i hi hiκ => h4 i (by omega) hiκ⟩
    · rw [if_pos hpκ]
      have hx : W p κ - sumInt 0 κ (fun j => X j * W p j) = dot n (subtractColumns n κ X b) p κ := by
        rw [dot_new hpκ, h2 p (le_refl p) hp hpκ, sumInt_eq]
        congr 1
        exact Finset.sum_congr rfl fun j hj => by rw [Finset.mem_range] at hj; rw [h1 p j hp (by omega) hpκ (by omega)]
      rw [hx]
      refine ⟨fun i j hi hj hiκ hjκ => ?_, fun i hi hid hiκ => ?_, ?_, fun i hi hiκ => ?_⟩
      · rw [mset_ne _ _ (by omega), mset_ne _ _ (by omega)]; exact h1 i j hi hj hiκ hjκ
      · rw [mset_ne _ _ (by omega), mset_ne _ _ (by omega)]; exact h2 i (by omega) hid hiκ
      · rw [mset_ne _ _ (by omega), mset_ne _ _ (by omega)]; exact h3
      · by_cases hip : i = p
        · subst hip
          refine ⟨?_, mset_eq _ _ _ _⟩
          rw [mset_ne _ _ (by omega), mset_eq]
        · obtain ⟨h5, h6⟩ := h4 i (by omega) hiκ
          rw [mset_ne _ _ (by omega), mset_ne _ _ (by omega), mset_ne _ _ (by omega), mset_ne _ _ (by omega)]
          exact ⟨h5, h6⟩
  · rw [mset_ne _ _ (by omega)]; exact hG i j hi hj
  · rw [mset_ne _ _ (by omega)]; exact hG i κ hi hκ
  · exact mset_eq _ _ _ _

/-! ## The lattice -/

/-- The same matrix, with rational elements. -/
def rational (A : Mat ℤ) : Mat ℚ := fun i j => A i j

theorem lattice_insert {n d f t : ℕ} (h : t ≤ f) (hf : f < d) {b b' : Mat ℤ} (hb : ∀ l q, l < n → b' l q = b l (rot f t q)) : lattice (matrix n d (rational b')) = lattice (matrix n d (rational b)) := by
  refine le_antisymm (lattice_le fun q => ?_) (lattice_le fun q => ?_)
  · have : (fun i => matrix n d (rational b') i q) = fun i => matrix n d (rational b) i ⟨rot f t q, rot_lt h hf q.2⟩ := by
      funext i
      exact congrArg (fun z : ℤ => (z : ℚ)) (hb i q i.2)
    rw [this]
    exact column_mem _ _
  · have : (fun i => matrix n d (rational b) i q) = fun i => matrix n d (rational b') i ⟨rotInv f t q, rotInv_lt h hf q.2⟩ := by
      funext i
      refine congrArg (fun z : ℤ => (z : ℚ)) ?_
      rw [hb i _ i.2, rot_rotInv h]
    rw [this]
    exact column_mem _ _

theorem lattice_subtractColumns {n d κ : ℕ} (hκ : κ < d) (X : Vec ℤ) (b : Mat ℤ) : lattice (matrix n d (rational (subtractColumns n κ X b))) = lattice (matrix n d (rational b)) := by
  have hcol : ∀ q : Fin d, (q : ℕ) ≠ κ → (fun i => matrix n d (rational (subtractColumns n κ X b)) i q) = fun i => matrix n d (rational b) i q := fun q hq => by
    funext i
    refine congrArg (fun z : ℤ => (z : ℚ)) ?_
    rw [subtractColumns_apply, if_neg (by omega)]
  have hnew : (fun i => matrix n d (rational (subtractColumns n κ X b)) i ⟨κ, hκ⟩) =
      (fun i => matrix n d (rational b) i ⟨κ, hκ⟩) - ∑ j : Fin κ, X j • fun i => matrix n d (rational b) i ⟨j, by omega⟩ := by
    funext i
    rw [Pi.sub_apply, Finset.sum_apply]
    change ((subtractColumns n κ X b i κ : ℤ) : ℚ) = (b i κ : ℚ) - ∑ j : Fin κ, (X j • fun i : Fin n => ((b i j : ℤ) : ℚ)) i
    rw [subtractColumns_apply, if_pos ⟨i.2, rfl⟩]
    push_cast
    congr 1
    rw [← Fin.sum_univ_eq_sum_range (fun j => (X j : ℚ) * (b i j : ℚ)) κ]
    exact Finset.sum_congr rfl fun j _ => by rw [Pi.smul_apply, zsmul_eq_mul]
  refine le_antisymm (lattice_le fun q => ?_) (lattice_le fun q => ?_)
  · by_cases hq : (q : ℕ) = κ
    · obtain rfl : q = ⟨κ, hκ⟩ := Fin.ext hq
      rw [hnew]
      exact Submodule.sub_mem _ (column_mem _ _) (Submodule.sum_mem _ fun j _ => Submodule.smul_mem _ _ (column_mem _ _))
    · rw [hcol q hq]; exact column_mem _ _
  · by_cases hq : (q : ℕ) = κ
    · obtain rfl : q = ⟨κ, hκ⟩ := Fin.ext hq
      have : (fun i => matrix n d (rational b) i ⟨κ, hκ⟩) = (fun i => matrix n d (rational (subtractColumns n κ X b)) i ⟨κ, hκ⟩) +
          ∑ j : Fin κ, X j • fun i => matrix n d (rational (subtractColumns n κ X b)) i ⟨j, by omega⟩ := by
        rw [hnew]
        have : ∀ j ∈ (Finset.univ : Finset (Fin κ)), (X j • fun i => matrix n d (rational (subtractColumns n κ X b)) i ⟨j, by omega⟩) =
            X j • fun i => matrix n d (rational b) i ⟨j, by omega⟩ := fun j _ => by rw [hcol ⟨j, by omega⟩ (by simp only; omega)]
        rw [Finset.sum_congr rfl this, sub_add_cancel]
      rw [this]
      exact Submodule.add_mem _ (column_mem _ _) (Submodule.sum_mem _ fun j _ => Submodule.smul_mem _ _ (column_mem _ _))
    · rw [← hcol q hq]; exact column_mem _ _

/-- What any arithmetic preserves. -/
structure Tracks (n d : ℕ) (L : Mat ℤ) (t : NS F) : Prop where
  gram : IsGram n d t.b t.G
  lattice : lattice (matrix n d (rational t.b)) = lattice (matrix n d (rational L))

variable (fl : Floats F)

theorem choleskyFactorization_same (κ : ℕ) (t : NS F) : (choleskyFactorization fl κ t).b = t.b ∧ (choleskyFactorization fl κ t).G = t.G := by
  refine sweep_inv (fun _ (u : NS F) => u.b = t.b ∧ u.G = t.G) 0 κ _ (Nat.zero_le _) (fun j u _ _ h => ?_) ⟨rfl, rfl⟩
  exact h

theorem Tracks.cholesky {n d : ℕ} {L : Mat ℤ} {t : NS F} (κ : ℕ) (h : Tracks n d L t) : Tracks n d L (choleskyFactorization fl κ t) := by
  obtain ⟨h1, h2⟩ := choleskyFactorization_same fl κ t
  refine ⟨?_, ?_⟩
  · rw [h1, h2]; exact h.gram
  · rw [h1]; exact h.lattice

theorem Tracks.sizeReduce {n d κ : ℕ} (hκ : κ < d) {L : Mat ℤ} : ∀ (fuel : ℕ) (t t' : NS F), Tracks n d L t → sizeReduce fl n d κ fuel t = some t' → Tracks n d L t'
  | 0, t, t', _, h => by simp [Lattices.sizeReduce] at h
  | fuel + 1, t, t', ht, h => by
    have hc := ht.cholesky fl κ
    rw [Lattices.sizeReduce] at h
    simp only at h
    generalize choleskyFactorization fl κ t = c at hc h
    split_ifs at h with h1 h2
    · simp only [Option.some.injEq] at h; rw [← h]; exact hc
    · refine Tracks.sizeReduce hκ fuel _ t' ?_ h
      exact ⟨updateGram_spec hκ hc.gram, (lattice_subtractColumns hκ _ _).trans hc.lattice⟩

theorem insertionIndex_le (ζ : ℕ) (t : NS F) : ∀ κ, insertionIndex fl ζ t κ ≤ κ
  | 0 => le_refl 0
  | κ + 1 => by
    rw [insertionIndex]
    split_ifs
    · have := insertionIndex_le ζ t κ; omega
    · exact le_refl _

theorem Tracks.insertionStep {n d κ ζ : ℕ} (hκ : κ < d) {L : Mat ℤ} {t : NS F} (h : Tracks n d L t) : Tracks n d L (insertionStep fl n d κ ζ t).2.2 := by
  unfold Lattices.insertionStep
  simp only
  have hle := insertionIndex_le fl ζ t κ
  generalize insertionIndex fl ζ t κ = k at hle
  split_ifs with hne
  · refine ⟨insertColumn_gram hle hκ h.gram, ?_⟩
    refine (lattice_insert hle hκ fun l q hl => ?_).trans h.lattice
    exact rotateColumns_apply n hle _ l q hl
  · exact ⟨h.gram, h.lattice⟩

theorem Tracks.nsLoop {n d inner : ℕ} {L : Mat ℤ} : ∀ (fuel κ ζ : ℕ) (t t' : NS F), Tracks n d L t → nsLoop fl n d inner fuel κ ζ t = some t' → Tracks n d L t'
  | 0, κ, ζ, t, t', _, h => by simp [Lattices.nsLoop] at h
  | fuel + 1, κ, ζ, t, t', ht, h => by
    rw [Lattices.nsLoop] at h
    split_ifs at h with hκ
    · rw [Option.bind_eq_some_iff] at h
      obtain ⟨u, hu, h⟩ := h
      exact Tracks.nsLoop fuel _ _ _ t' ((ht.sizeReduce fl hκ inner t u hu).insertionStep fl hκ) h
    · simp only [Option.some.injEq] at h; rw [← h]; exact ht

end

end Principia.Numerics.Lattices
