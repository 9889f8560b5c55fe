import Verif.Numerics.LatticeLemmas
import Verif.Numerics.MatrixProps
import Mathlib.LinearAlgebra.Finsupp.LinearCombination
import Mathlib.Algebra.Order.Field.Basic
import Mathlib.Algebra.Order.Floor.Ring
import Mathlib.Data.Rat.Floor
import Mathlib.Algebra.Order.Round
import Mathlib.Tactic.NormNum
import Mathlib.Tactic.Linarith
import Mathlib.Tactic.FinCases

/-!
C74: the reduction of lattices (algorithm of Lenstra, Lenstra and Lovász).
-/

set_option linter.unusedSimpArgs false
set_option linter.unusedVariables false
set_option linter.unusedSectionVars false

namespace Principia.Numerics.Lattices

open Principia.Numerics.Matrices Finset

variable {K : Type} [Field K] [LinearOrder K] [IsStrictOrderedRing K]

/-- The result generates the same lattice as the argument, whatever the rounding. -/
theorem C74_lll_lattice (round : K → ℤ) (m n fuel : ℕ) (u w L B : Mat K) (h : lenstraLenstraLovász fuel round m n u w L = some B) : lattice (matrix m n B) = lattice (matrix m n L) :=
  lllLoop_lattice round u w fuel 1 L B Nat.one_pos h

/-- The result is a reduced basis, if the rounding is to one of the nearest integers. -/
theorem C74_lll_reduced (round : K → ℤ) (hround : ∀ x, |x - round x| ≤ 1 / 2) (m n fuel : ℕ) (u w L B : Mat K) (h : lenstraLenstraLovász fuel round m n u w L = some B) :
    Reduced (matrix m n B) := by
  have hg := lllLoop_good hround u w fuel 1 L B Nat.one_pos (fun s hs => ⟨fun i j h1 h2 => by omega, fun j h1 h2 => by omega⟩) h
  have hs := unitriangularGramSchmidt_gs m n B (fun _ _ => 0) (fun _ _ => 0)
  obtain ⟨h1, h2⟩ := hg _ hs
  obtain ⟨h3, h4, h5⟩ := C73_unitriangular_gram_schmidt m n B (fun _ _ => 0) (fun _ _ => 0)
  generalize unitriangularGramSchmidt m n B (fun _ _ => 0) (fun _ _ => 0) = s at hs h1 h2 h3 h4 h5
  have hn : ∀ j : Fin n, norm2 (fun l => matrix m n s.1 l j) = squares m s.1 j := fun j => by
    unfold norm2 dotProduct squares columnProduct matrix
    simp only [Matrix.of_apply]
    exact Fin.sum_univ_eq_sum_range (fun l => s.1 l j * s.1 l j) m
  refine ⟨matrix m n s.1, upper n s.2, h3, h5, fun i j hij => ?_, fun j => ?_, fun i j hij => ?_, fun i j hij => ?_⟩
  · exact if_neg (not_le.2 hij)
  · exact (if_pos (le_refl j)).trans (h4 j)
  · rw [show upper n s.2 i j = s.2 i j from if_pos hij.le]
    exact h1 i j hij j.2 j.2
  · rw [hn, hn, show upper n s.2 i j = s.2 i j from if_pos (Fin.le_def.2 (by omega))]
    have := h2 j (by omega) j.2 j.2
    rw [← hij, Nat.add_sub_cancel] at this
    rw [← hij]
    exact this

/-- The algorithm terminates for a basis with integer coordinates, if the rounding is to one of the nearest integers. -/
theorem C74_lll_terminates (round : K → ℤ) (hround : ∀ x, |x - round x| ≤ 1 / 2) (m n : ℕ) (u w L : Mat K) (hi : Integral (matrix m n L)) (hL : Independent (matrix m n L)) :
    ∃ fuel B, lenstraLenstraLovász fuel round m n u w L = some B := by
  have hv : IntegralArray m n L := fun l q hl hq => hi ⟨l, hl⟩ ⟨q, hq⟩
  have hd := det_gram_ne_zero hL
  obtain ⟨N, hN⟩ := potential_natural hd hv
  exact lllLoop_terminates hround u w N (n - 1) 1 L (le_refl _) Nat.one_pos hd hv hN

/-! ## Short vectors -/

theorem norm2_nonneg {m : ℕ} (x : Fin m → K) : 0 ≤ norm2 x := by
  unfold norm2 dotProduct
  exact Finset.sum_nonneg fun l _ => mul_self_nonneg _

theorem first_le {δ η : K} {m n : ℕ} {B : Matrix (Fin m) (Fin (n + 1)) K} {α : K} (hα : 0 ≤ α) (hδ : 1 ≤ α * (δ - η ^ 2)) {Q : Matrix (Fin m) (Fin (n + 1)) K}
    {M : Matrix (Fin (n + 1)) (Fin (n + 1)) K} (hM : ∀ i j, i < j → |M i j| ≤ η)
    (hl : ∀ i j : Fin (n + 1), (i : ℕ) + 1 = j → (δ - M i j ^ 2) * norm2 (fun l => Q l i) ≤ norm2 (fun l => Q l j)) :
    ∀ k (hk : k < n + 1), norm2 (fun l => Q l 0) ≤ α ^ k * norm2 (fun l => Q l ⟨k, hk⟩)
  | 0, hk => by simp
  | k + 1, hk => by
    have ih := first_le (B := B) hα hδ hM hl k (by omega)
    have h1 := hl ⟨k, by omega⟩ ⟨k + 1, hk⟩ rfl
    have h2 := hM ⟨k, by omega⟩ ⟨k + 1, hk⟩ (Fin.lt_def.2 (Nat.lt_succ_self k))
    have h3 : M ⟨k, by omega⟩ ⟨k + 1, hk⟩ ^ 2 ≤ η ^ 2 := by
      rw [← sq_abs]
      exact pow_le_pow_left₀ (abs_nonneg _) h2 2
    have h0 : 0 ≤ norm2 (fun l => Q l ⟨k, by omega⟩) := norm2_nonneg _
    have h4 : (δ - η ^ 2) * norm2 (fun l => Q l ⟨k, by omega⟩) ≤ norm2 (fun l => Q l ⟨k + 1, hk⟩) :=
      le_trans (mul_le_mul_of_nonneg_right (by linarith) h0) h1
    calc norm2 (fun l => Q l 0) ≤ α ^ k * norm2 (fun l => Q l ⟨k, by omega⟩) := ih
      _ ≤ α ^ k * (α * norm2 (fun l => Q l ⟨k + 1, hk⟩)) := by
        refine mul_le_mul_of_nonneg_left ?_ (pow_nonneg hα k)
        calc norm2 (fun l => Q l ⟨k, by omega⟩) = 1 * norm2 (fun l => Q l ⟨k, by omega⟩) := (one_mul _).symm
          _ ≤ (α * (δ - η ^ 2)) * norm2 (fun l => Q l ⟨k, by omega⟩) := mul_le_mul_of_nonneg_right hδ h0
          _ = α * ((δ - η ^ 2) * norm2 (fun l => Q l ⟨k, by omega⟩)) := by ring
          _ ≤ _ := mul_le_mul_of_nonneg_left h4 hα
      _ = _ := by ring

/-- The first vector of a reduced basis is not much longer than the shortest vectors of the lattice. -/
theorem short_vector {δ η α : K} {m n : ℕ} (B : Matrix (Fin m) (Fin (n + 1)) K) (h : ReducedWith δ η B) (hα : 1 ≤ α) (hδ : 1 ≤ α * (δ - η ^ 2)) (x : Fin m → K) (hx : x ∈ lattice B)
    (hx0 : x ≠ 0) : norm2 (fun l => B l 0) ≤ α ^ n * norm2 x := by
  obtain ⟨Q, M, hB, hQ, hM0, hM1, hM, hl⟩ := h
  have hα0 : 0 ≤ α := by linarith
  unfold lattice at hx
  rw [Submodule.mem_span_range_iff_exists_fun] at hx
  obtain ⟨c, hc⟩ := hx
  have hcne : ∃ j, c j ≠ 0 := by
    by_contra hno
    push Not at hno
    refine hx0 ?_
    rw [← hc]
    exact Finset.sum_eq_zero fun j _ => by rw [hno j, zero_smul]
  obtain ⟨k, hk, hmax⟩ : ∃ k, c k ≠ 0 ∧ ∀ j, k < j → c j = 0 := by
    have hne : (Finset.univ.filter fun j => c j ≠ 0).Nonempty := by
      obtain ⟨j, hj⟩ := hcne
      exact ⟨j, by simp [hj]⟩
    refine ⟨(Finset.univ.filter fun j => c j ≠ 0).max' hne, ?_, fun j hj => ?_⟩
    · have := Finset.max'_mem _ hne
      simpa using this
    · by_contra h0
      have := Finset.le_max' (Finset.univ.filter fun j => c j ≠ 0) j (by simp [h0])
      exact absurd hj (not_lt.2 this)
  -- The coordinates on the orthogonal columns.
  have hxl : ∀ l, x l = ∑ i, (∑ j, M i j * c j) * Q l i := fun l => by
    rw [← hc, Finset.sum_apply]
    have h1 : ∀ j ∈ (Finset.univ : Finset (Fin (n + 1))), (c j • fun i => B i j) l = ∑ i, (M i j * c j) * Q l i := fun j _ => by
      rw [Pi.smul_apply, ← hB, Matrix.mul_apply, zsmul_eq_mul, Finset.mul_sum]
      exact Finset.sum_congr rfl fun i _ => by ring
    rw [Finset.sum_congr rfl h1, Finset.sum_comm]
    exact Finset.sum_congr rfl fun i _ => by rw [Finset.sum_mul]
  have hdiag : ∀ i j, i ≠ j → ∑ l, Q l i * Q l j = 0 := fun i j hij => by
    have : (Q.transpose * Q) i j = 0 := hQ hij
    rw [Matrix.mul_apply] at this
    exact this
  have hn2 : norm2 x = ∑ i, (∑ j, M i j * c j) ^ 2 * norm2 (fun l => Q l i) := by
    unfold norm2 dotProduct
    have h1 : ∀ l ∈ (Finset.univ : Finset (Fin m)), x l * x l = ∑ i, ∑ i', (∑ j, M i j * c j) * (∑ j, M i' j * c j) * (Q l i * Q l i') := fun l _ => by
      rw [hxl l, Finset.sum_mul_sum]
      exact Finset.sum_congr rfl fun i _ => Finset.sum_congr rfl fun i' _ => by ring
    rw [Finset.sum_congr rfl h1, Finset.sum_comm]
    refine Finset.sum_congr rfl fun i _ => ?_
    rw [Finset.sum_comm]
    rw [Finset.sum_eq_single i]
    · rw [← Finset.mul_sum]; ring
    · intro i' _ hne
      rw [← Finset.mul_sum, hdiag i i' (Ne.symm hne), mul_zero]
    · intro h; exact absurd (Finset.mem_univ i) h
  have hdk : ∑ j, M k j * c j = c k := by
    rw [Finset.sum_eq_single k]
    · rw [hM1, one_mul]
    · intro j _ hne
      rcases lt_or_gt_of_ne hne with hlt | hgt
      · rw [hM0 k j hlt, zero_mul]
      · rw [hmax j hgt, Int.cast_zero, mul_zero]
    · intro h; exact absurd (Finset.mem_univ k) h
  have hge : norm2 (fun l => Q l k) ≤ norm2 x := by
    have h0 : 0 ≤ norm2 (fun l => Q l k) := norm2_nonneg _
    have h1 : (1 : K) ≤ (c k : K) ^ 2 := by
      have : (1 : ℤ) ≤ c k ^ 2 := by
        have := pow_pos (abs_pos.2 hk) 2
        rw [sq_abs] at this
        omega
      exact_mod_cast this
    rw [hn2]
    calc norm2 (fun l => Q l k) = 1 * norm2 (fun l => Q l k) := (one_mul _).symm
      _ ≤ (∑ j, M k j * c j) ^ 2 * norm2 (fun l => Q l k) := by rw [hdk]; exact mul_le_mul_of_nonneg_right h1 h0
      _ ≤ _ := Finset.single_le_sum (f := fun i => (∑ j, M i j * c j) ^ 2 * norm2 (fun l => Q l i))
        (fun i _ => mul_nonneg (sq_nonneg _) (norm2_nonneg _)) (Finset.mem_univ k)
  have hfirst : (fun l => B l 0) = fun l => Q l 0 := by
    funext l
    rw [← hB, Matrix.mul_apply, Finset.sum_eq_single 0]
    · rw [hM1, mul_one]
    · intro i _ hi
      rw [hM0 i 0 (Fin.pos_iff_ne_zero.2 hi), mul_zero]
    · intro h; exact absurd (Finset.mem_univ _) h
  rw [hfirst]
  have hxn : 0 ≤ norm2 x := norm2_nonneg _
  calc norm2 (fun l => Q l 0) ≤ α ^ (k : ℕ) * norm2 (fun l => Q l k) := first_le (B := B) hα0 hδ hM hl k k.2
    _ ≤ α ^ (k : ℕ) * norm2 x := mul_le_mul_of_nonneg_left hge (pow_nonneg hα0 _)
    _ ≤ α ^ n * norm2 x := mul_le_mul_of_nonneg_right (pow_le_pow_right₀ hα (by omega)) hxn

/-- The first vector of the result is at most `2 ^ ((n - 1) / 2)` times longer than any vector of the lattice except 0. -/
theorem C74_lll_short (round : K → ℤ) (hround : ∀ x, |x - round x| ≤ 1 / 2) (m n fuel : ℕ) (u w L B : Mat K) (h : lenstraLenstraLovász fuel round m (n + 1) u w L = some B)
    (x : Fin m → K) (hx : x ∈ lattice (matrix m (n + 1) L)) (hx0 : x ≠ 0) : norm2 (fun l => matrix m (n + 1) B l 0) ≤ 2 ^ n * norm2 x := by
  rw [← C74_lll_lattice round m (n + 1) fuel u w L B h] at hx
  exact short_vector _ (C74_lll_reduced round hround m (n + 1) fuel u w L B h) (by norm_num) (by norm_num) x hx hx0

/-- A case where the rounding is to the nearest integer. -/
example : ∀ x : ℚ, |x - round x| ≤ 1 / 2 := abs_sub_round

/-- A case where the algorithm terminates. -/
example : ∃ fuel B, lenstraLenstraLovász fuel round 2 2 0 0 (fun i j => if i = j then 2 else if i < j then (3 : ℚ) else 5) = some B := by
  refine C74_lll_terminates round abs_sub_round 2 2 0 0 _ (fun i j => ?_) (fun x hx => ?_)
  · fin_cases i <;> fin_cases j
    · exact ⟨2, by simp [matrix]⟩
    · exact ⟨3, by simp [matrix]⟩
    · exact ⟨5, by simp [matrix]⟩
    · exact ⟨2, by simp [matrix]⟩
  · have h0 := congrFun hx 0
    have h1 := congrFun hx 1
    simp [Matrix.mulVec, dotProduct, matrix, Fin.sum_univ_two] at h0 h1
    funext i
    fin_cases i
    · change x 0 = 0; linarith
    · change x 1 = 0; linarith

/-! ## The rounding of the rational numbers -/

/-- The basis of the counterexample. -/
def counterL (N : ℤ) : Mat ℚ := fun i j => if i = j then 1 else if i < j then (N : ℚ) else 0

theorem counterL_run (round : ℚ → ℤ) (N : ℤ) (hN : N ≠ 0) (hr : round ((N : ℚ) + 1) = N) (u w : Mat ℚ) :
    ∃ B, lenstraLenstraLovász 2 round 2 2 u w (counterL (N + 1)) = some B ∧ ∀ l q, l < 2 → q < 2 → B l q = counterL 1 l q := by
  have hgs : ∀ M : ℤ, ∀ v : Mat ℚ, (∀ l q, l < 2 → q < 2 → v l q = counterL M l q) → ∀ s, GS 2 2 v s → s.2 0 1 = M ∧ squares 2 s.1 0 = 1 ∧ squares 2 s.1 1 = 1 := by
    intro M v hv s hs
    have c0 : ∀ l < 2, s.1 l 0 = counterL M l 0 := fun l hl => by rw [hs.column hl (by omega), Finset.sum_range_zero, sub_zero, hv l 0 hl (by omega)]
    have hsq : squares 2 s.1 0 = 1 := by
      unfold squares columnProduct
      rw [Finset.sum_range_succ, Finset.sum_range_succ, Finset.sum_range_zero, c0 0 (by omega), c0 1 (by omega)]
      simp [counterL]
    have hμ : s.2 0 1 = M := by
      rw [hs.coefficient (by omega) (by omega), if_neg (by rw [hsq]; norm_num), hsq, div_one]
      unfold columnProduct
      rw [Finset.sum_range_succ, Finset.sum_range_succ, Finset.sum_range_zero, c0 0 (by omega), c0 1 (by omega), hv 0 1 (by omega) (by omega), hv 1 1 (by omega) (by omega)]
      simp [counterL]
    refine ⟨hμ, hsq, ?_⟩
    unfold squares columnProduct
    rw [Finset.sum_range_succ, Finset.sum_range_succ, Finset.sum_range_zero, hs.column (by omega) (by omega : 1 < 2), hs.column (by omega) (by omega : 1 < 2), Finset.sum_range_one,
      Finset.sum_range_one, hμ, c0 0 (by omega), c0 1 (by omega), hv 0 1 (by omega) (by omega), hv 1 1 (by omega) (by omega)]
    simp [counterL]
  have h0 := hgs (N + 1) (counterL (N + 1)) (fun _ _ _ _ => rfl) _ (unitriangularGramSchmidt_gs 2 2 (counterL (N + 1)) u w)
  have hv : ∀ l q, l < 2 → q < 2 → subtractColumn 2 (counterL (N + 1)) 1 0 (N : ℚ) l q = counterL 1 l q := by
    intro l q hl hq
    rw [subtractColumn_apply 2 _ _ (by omega)]
    interval_cases l <;> interval_cases q <;> simp [counterL]
  have hred : reduceColumn round 2 2 u w 1 (counterL (N + 1)) =
      (subtractColumn 2 (counterL (N + 1)) 1 0 (N : ℚ), unitriangularGramSchmidt 2 2 (subtractColumn 2 (counterL (N + 1)) 1 0 (N : ℚ)) u w) := by
    unfold reduceColumn
    rw [show (List.range 1).reverse = [0] from rfl]
    simp only [List.foldl_cons, List.foldl_nil]
    rw [h0.1, Int.cast_add, Int.cast_one, hr, if_pos hN]
  have h1 := hgs 1 _ hv _ (unitriangularGramSchmidt_gs 2 2 (subtractColumn 2 (counterL (N + 1)) 1 0 (N : ℚ)) u w)
  refine ⟨_, ?_, hv⟩
  unfold lenstraLenstraLovász
  rw [lllLoop, if_pos (by omega), hred]
  simp only
  have hadv : ∀ t : Mat ℚ × Mat ℚ × Mat ℚ, t.2.2 0 1 = ((1 : ℤ) : ℚ) → squares 2 t.2.1 0 = 1 → squares 2 t.2.1 1 = 1 → advance 2 1 t = (2, t.1) := by
    intro t a b c
    unfold advance
    simp only
    rw [sum_zero_eq, sum_zero_eq, show (1 : ℕ) - 1 = 0 from rfl, a]
    unfold squares columnProduct at b c
    rw [b, c, if_pos (by norm_num)]
  rw [hadv _ h1.1 h1.2.1 h1.2.2, lllLoop, if_neg (by omega)]

theorem round_large {round : ℚ → ℤ} (h : RoundsThroughFloat 168 round) : round (2 ^ 170 + 1) = 2 ^ 170 := by
  obtain ⟨y, ⟨m, e, hm, hy⟩, hn, hk⟩ := h (2 ^ 170 + 1)
  have h1 := hn (2 ^ 170) ⟨1, 170, by norm_num, by norm_num⟩
  have h2 : |(2 : ℚ) ^ 170 + 1 - 2 ^ 170| = 1 := by norm_num
  rw [h2, abs_le] at h1
  have hy170 : y = 2 ^ 170 := by
    rcases le_or_gt e 2 with he | he
    · -- The floating-point number is too small.
      exfalso
      have h3 : (2 : ℚ) ^ e ≤ 2 ^ (2 : ℤ) := zpow_le_zpow_right₀ (by norm_num) he
      have h4 : (m : ℚ) ≤ 2 ^ 168 - 1 := by
        have : m ≤ 2 ^ 168 - 1 := by have := (abs_lt.1 hm).2; omega
        exact_mod_cast this
      have h5 : (0 : ℚ) < 2 ^ e := zpow_pos (by norm_num) e
      have h6 : y ≤ (2 ^ 168 - 1) * 2 ^ (2 : ℤ) := by
        rw [hy]
        calc (m : ℚ) * 2 ^ e ≤ (2 ^ 168 - 1) * 2 ^ e := mul_le_mul_of_nonneg_right h4 h5.le
          _ ≤ _ := mul_le_mul_of_nonneg_left h3 (by norm_num)
      norm_num at h6 h1
      linarith [h1.1, h1.2]
    · -- It is a multiple of 8.
      obtain ⟨f, hf⟩ := Int.eq_ofNat_of_zero_le (show 0 ≤ e - 3 by omega)
      obtain rfl : e = f + 3 := by omega
      have h3 : y = ((m * 2 ^ f * 8 : ℤ) : ℚ) := by
        rw [hy, zpow_add₀ (by norm_num), zpow_natCast]
        push_cast
        norm_num
        ring
      rw [h3] at h1 ⊢
      have h4 : m * 2 ^ f * 8 ≤ 2 ^ 170 + 2 := by
        have : ((m * 2 ^ f * 8 : ℤ) : ℚ) ≤ ((2 ^ 170 + 2 : ℤ) : ℚ) := by push_cast at h1 ⊢; linarith [h1.1]
        exact_mod_cast this
      have h5 : 2 ^ 170 ≤ m * 2 ^ f * 8 := by
        have : ((2 ^ 170 : ℤ) : ℚ) ≤ ((m * 2 ^ f * 8 : ℤ) : ℚ) := by push_cast at h1 ⊢; linarith [h1.2]
        exact_mod_cast this
      have h6 : m * 2 ^ f * 8 = 2 ^ 170 := by omega
      rw [h6]
      norm_num
  have h3 := hk (2 ^ 170)
  rw [hy170, show (((2 : ℤ) ^ 170 : ℤ) : ℚ) = 2 ^ 170 from by norm_num] at h3
  rw [sub_self, abs_zero] at h3
  have h4 := abs_eq_zero.1 (le_antisymm h3 (abs_nonneg _))
  have h5 : ((2 ^ 170 : ℤ) : ℚ) = (round (2 ^ 170 + 1) : ℚ) := by push_cast; linarith
  exact (Int.cast_injective h5).symm

/-- The code rounds the rational numbers by converting them to floating-point numbers with a significand of 168 bits: the result need not be reduced. -/
theorem C74_round_counterexample (round : ℚ → ℤ) (h : RoundsThroughFloat 168 round) (u w : Mat ℚ) :
    ∃ L B, Integral (matrix 2 2 L) ∧ Independent (matrix 2 2 L) ∧ lenstraLenstraLovász 2 round 2 2 u w L = some B ∧ ¬Reduced (matrix 2 2 B) := by
  obtain ⟨B, hB, hBv⟩ := counterL_run round (2 ^ 170) (by norm_num) (by push_cast; exact round_large h) u w
  refine ⟨counterL (2 ^ 170 + 1), B, fun i j => ?_, fun x hx => ?_, hB, ?_⟩
  · fin_cases i <;> fin_cases j
    · exact ⟨1, by simp [matrix, counterL]⟩
    · exact ⟨2 ^ 170 + 1, by simp [matrix, counterL]⟩
    · exact ⟨0, by simp [matrix, counterL]⟩
    · exact ⟨1, by simp [matrix, counterL]⟩
  · have h0 := congrFun hx 0
    have h1 := congrFun hx 1
    simp [Matrix.mulVec, dotProduct, matrix, counterL, Fin.sum_univ_two] at h0 h1
    rw [h1, mul_zero, add_zero] at h0
    funext i
    fin_cases i
    · exact h0
    · exact h1
  · rintro ⟨Q, M, hQM, hQ, hM0, hM1, hM, -⟩
    have e : ∀ l q : Fin 2, Q l 0 * M 0 q + Q l 1 * M 1 q = counterL 1 l q := fun l q => by
      rw [← hBv l q l.2 q.2]
      have := congrFun (congrFun hQM l) q
      rw [Matrix.mul_apply, Fin.sum_univ_two] at this
      exact this
    have h10 := hM0 1 0 (by decide)
    have e00 := e 0 0
    have e10 := e 1 0
    have e01 := e 0 1
    have e11 := e 1 1
    rw [hM1, h10] at e00 e10
    rw [hM1] at e01 e11
    simp [counterL] at e00 e10 e01 e11
    have ho : (Q.transpose * Q) 0 1 = 0 := hQ (show (0 : Fin 2) ≠ 1 by decide)
    rw [Matrix.mul_apply, Fin.sum_univ_two] at ho
    simp only [Matrix.transpose_apply] at ho
    rw [e00, e10] at ho
    rw [e00] at e01
    have hM01 : M 0 1 = 1 := by linarith
    have := hM 0 1 (by decide)
    rw [hM01] at this
    norm_num at this

end Principia.Numerics.Lattices
