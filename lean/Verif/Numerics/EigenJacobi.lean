import Verif.Numerics.EigenModel
import Verif.Numerics.MatrixSpec
import Verif.Numerics.MatrixLemmas
import Mathlib.LinearAlgebra.Matrix.Trace
import Mathlib.LinearAlgebra.Matrix.NonsingularInverse
import Mathlib.LinearAlgebra.Matrix.Notation
import Mathlib.Analysis.SpecificLimits.Basic
import Mathlib.Tactic.Positivity

/-!
Lemmas on Jacobi's method.
-/

set_option linter.unusedSimpArgs false
set_option linter.unusedVariables false
set_option linter.unusedSectionVars false

namespace Principia.Numerics.Matrices

open Finset

/-! ## Rotations -/

/-- The elements of a matrix multiplied by a rotation. -/
noncomputable def rotated (A : Mat ℝ) (J : Rotation) (i j : ℕ) : ℝ :=
  if j = J.p then J.cos * A i J.p - J.sin * A i J.q else if j = J.q then J.sin * A i J.p + J.cos * A i J.q else A i j

theorem postMultiplyByRotation_eq (n : ℕ) (A : Mat ℝ) {J : Rotation} (h : J.p ≠ J.q) (i j : ℕ) :
    postMultiplyByRotation n A J i j = if i < n then rotated A J i j else A i j := by
  unfold postMultiplyByRotation
  have := sweep_inv (fun k (B : Mat ℝ) => ∀ i j, B i j = if i < k then rotated A J i j else A i j) 0 n
    (fun j (A : Mat ℝ) => (A.set j J.p (J.cos * A j J.p - J.sin * A j J.q)).set j J.q (J.sin * A j J.p + J.cos * A j J.q)) (Nat.zero_le _) (fun k B _ hk hB i j => ?_)
    (s := A) (fun i j => by simp)
  · exact this i j
  · beta_reduce
    by_cases hi : i = k
    · subst hi
      rw [if_pos (by omega)]
      have hp := hB i J.p
      have hq := hB i J.q
      have hj := hB i j
      rw [if_neg (by omega)] at hp hq hj
      unfold rotated
      by_cases h1 : j = J.q
      · subst h1
        rw [Mat.set_eq, if_neg (Ne.symm h), if_pos rfl, hp, hq]
      · rw [Mat.set_ne _ _ (by tauto)]
        by_cases h2 : j = J.p
        · subst h2
          rw [Mat.set_eq, if_pos rfl, hp, hq]
        · rw [Mat.set_ne _ _ (by tauto), if_neg h2, if_neg h1, hj]
    · rw [Mat.set_ne _ _ (by tauto), Mat.set_ne _ _ (by tauto), hB]
      by_cases h1 : i < k
      · rw [if_pos h1, if_pos (by omega)]
      · rw [if_neg h1, if_neg (by omega)]

theorem premultiplyByTranspose_eq (n : ℕ) (A : Mat ℝ) {J : Rotation} (h : J.p ≠ J.q) (i j : ℕ) :
    premultiplyByTranspose J n A i j = if j < n then rotated (fun i j => A j i) J j i else A i j := by
  have e : premultiplyByTranspose J n A i j = postMultiplyByRotation n (fun i j => A j i) J j i := by
    unfold premultiplyByTranspose postMultiplyByRotation sweep
    generalize List.range' 0 (n - 0) = l
    induction l generalizing A with
    | nil => rfl
    | cons k l ih =>
      rw [List.foldl_cons, List.foldl_cons, ih]
      refine congrFun (congrFun (congrArg (fun B => List.foldl _ B l) ?_) j) i
      funext a b
      simp only [Mat.set]
      simp only [and_comm]
  rw [e, postMultiplyByRotation_eq n _ h]

/-- The matrix of a rotation. -/
noncomputable def rotationMatrix (n : ℕ) (J : Rotation) : Matrix (Fin n) (Fin n) ℝ := Matrix.of fun i j => rotated (fun i j => if i = j then 1 else 0) J i j

variable {n : ℕ}

theorem post_matrix (A : Mat ℝ) {J : Rotation} (h : J.p ≠ J.q) (hp : J.p < n) (hq : J.q < n) :
    matrix n n (postMultiplyByRotation n A J) = matrix n n A * rotationMatrix n J := by
  ext i j
  rw [Matrix.mul_apply]
  show postMultiplyByRotation n A J i j = ∑ k : Fin n, A i k * rotated (fun i j => if i = j then 1 else 0) J k j
  rw [postMultiplyByRotation_eq n A h, if_pos i.2, Fin.sum_univ_eq_sum_range (fun k => A i k * rotated (fun i j => if i = j then 1 else 0) J k j) n]
  unfold rotated
  by_cases h1 : (j : ℕ) = J.p
  · simp only [if_pos h1]
    simp only [mul_sub, mul_ite, mul_one, mul_zero, Finset.sum_sub_distrib, Finset.sum_ite_eq', Finset.mem_range, hp, hq, if_true]
    ring
  · simp only [if_neg h1]
    by_cases h2 : (j : ℕ) = J.q
    · simp only [if_pos h2]
      simp only [mul_add, mul_ite, mul_one, mul_zero, Finset.sum_add_distrib, Finset.sum_ite_eq', Finset.mem_range, hp, hq, if_true]
      ring
    · simp only [if_neg h2]
      simp only [mul_ite, mul_one, mul_zero, Finset.sum_ite_eq', Finset.mem_range, j.2, if_true]

theorem pre_matrix (A : Mat ℝ) {J : Rotation} (h : J.p ≠ J.q) (hp : J.p < n) (hq : J.q < n) :
    matrix n n (premultiplyByTranspose J n A) = (rotationMatrix n J).transpose * matrix n n A := by
  have e : matrix n n (premultiplyByTranspose J n A) = (matrix n n (postMultiplyByRotation n (fun i j => A j i) J)).transpose := by
    ext i j
    show premultiplyByTranspose J n A i j = postMultiplyByRotation n (fun i j => A j i) J j i
    rw [premultiplyByTranspose_eq n A h, postMultiplyByRotation_eq n _ h]
  rw [e, post_matrix _ h hp hq, Matrix.transpose_mul]
  rfl

theorem rotation_orthogonal {J : Rotation} (h : J.p ≠ J.q) (hp : J.p < n) (hq : J.q < n) (hu : J.cos ^ 2 + J.sin ^ 2 = 1) :
    (rotationMatrix n J).transpose * rotationMatrix n J = 1 := by
  have e : rotationMatrix n J = matrix n n (rotated (fun i j => if i = j then 1 else 0) J) := rfl
  rw [e, ← e, show (rotationMatrix n J).transpose * rotationMatrix n J = (rotationMatrix n J).transpose * matrix n n (rotated (fun i j => if i = j then 1 else 0) J) from rfl,
    ← pre_matrix _ h hp hq]
  ext i j
  show premultiplyByTranspose J n _ i j = _
  rw [premultiplyByTranspose_eq n _ h, if_pos j.2, Matrix.one_apply]
  simp only [← Fin.val_inj]
  have h' := Ne.symm h
  unfold rotated
  generalize (i : ℕ) = i
  generalize (j : ℕ) = j
  by_cases h1 : i = J.p
  · subst h1
    by_cases h2 : j = J.p
    · subst h2; simp [h, h']; nlinarith
    · by_cases h3 : j = J.q
      · subst h3; simp [h, h']; ring
      · have h2' := Ne.symm h2
        have h3' := Ne.symm h3
        simp [h, h', h2, h3, h2', h3']
  · by_cases h4 : i = J.q
    · subst h4
      by_cases h2 : j = J.p
      · subst h2; simp [h, h']; ring
      · by_cases h3 : j = J.q
        · subst h3; simp [h, h']; nlinarith
        · have h2' := Ne.symm h2
          have h3' := Ne.symm h3
          simp [h, h', h2, h3, h2', h3']
    · by_cases h2 : j = J.p
      · subst h2; simp [h, h', h1, h4]
      · by_cases h3 : j = J.q
        · subst h3; simp [h, h', h1, h4]
        · simp [h1, h4, h2, h3]

/-! ## The rotation that annihilates an element -/

theorem jacobi_unit (A : Mat ℝ) (p q : ℕ) : (jacobiRotation A p q).cos ^ 2 + (jacobiRotation A p q).sin ^ 2 = 1 ∧ (jacobiRotation A p q).p = p ∧ (jacobiRotation A p q).q = q := by
  unfold jacobiRotation
  by_cases h : A p q ≠ 0
  · rw [if_pos h]
    dsimp only
    refine ⟨?_, rfl, rfl⟩
    generalize (if 0 ≤ (A q q - A p p) / (2 * A p q) then 1 / ((A q q - A p p) / (2 * A p q) + √(1 + (A q q - A p p) / (2 * A p q) * ((A q q - A p p) / (2 * A p q))))
      else 1 / ((A q q - A p p) / (2 * A p q) - √(1 + (A q q - A p p) / (2 * A p q) * ((A q q - A p p) / (2 * A p q))))) = t
    have h1 : (0 : ℝ) < 1 + t * t := by nlinarith
    have h2 : √(1 + t * t) ^ 2 = 1 + t * t := Real.sq_sqrt h1.le
    have h3 : √(1 + t * t) ≠ 0 := (Real.sqrt_pos.2 h1).ne'
    rw [mul_pow, div_pow, h2]
    field_simp
  · rw [if_neg h]
    simp

/-- The element is annihilated. -/
theorem jacobi_annihilates (A : Mat ℝ) (p q : ℕ) :
    let J := jacobiRotation A p q
    (J.cos ^ 2 - J.sin ^ 2) * A p q + J.cos * J.sin * (A p p - A q q) = 0 := by
  unfold jacobiRotation
  by_cases h : A p q ≠ 0
  · rw [if_pos h]
    dsimp only
    set τ := (A q q - A p p) / (2 * A p q) with hτ
    set t := (if 0 ≤ τ then 1 / (τ + √(1 + τ * τ)) else 1 / (τ - √(1 + τ * τ))) with ht
    have hs0 : (0 : ℝ) < 1 + τ * τ := by nlinarith
    have hs : √(1 + τ * τ) ^ 2 = 1 + τ * τ := Real.sq_sqrt hs0.le
    have hsp : 0 < √(1 + τ * τ) := Real.sqrt_pos.2 hs0
    have key : t ^ 2 + 2 * τ * t - 1 = 0 := by
      rw [ht]
      generalize √(1 + τ * τ) = r at hs hsp ⊢
      by_cases h0 : 0 ≤ τ
      · rw [if_pos h0]
        have : τ + r ≠ 0 := by positivity
        have e : (1 / (τ + r)) ^ 2 + 2 * τ * (1 / (τ + r)) - 1 = (1 + 2 * τ * (τ + r) - (τ + r) ^ 2) / (τ + r) ^ 2 := by field_simp
        rw [e, show 1 + 2 * τ * (τ + r) - (τ + r) ^ 2 = 0 by linear_combination -hs, zero_div]
      · rw [if_neg h0]
        have : τ - r ≠ 0 := by nlinarith
        have e : (1 / (τ - r)) ^ 2 + 2 * τ * (1 / (τ - r)) - 1 = (1 + 2 * τ * (τ - r) - (τ - r) ^ 2) / (τ - r) ^ 2 := by field_simp
        rw [e, show 1 + 2 * τ * (τ - r) - (τ - r) ^ 2 = 0 by linear_combination -hs, zero_div]
    have hd : A p p - A q q = -(2 * τ * A p q) := by rw [hτ]; field_simp; ring
    rw [hd]
    linear_combination (-(1 / √(1 + t * t)) ^ 2 * A p q) * key
  · rw [if_neg h]
    simp only [ne_eq, not_not] at h
    simp [h]

/-! ## The elements off the diagonal -/

/-- The sum of the squares of the elements off the diagonal. -/
noncomputable def offDiagonal (M : Matrix (Fin n) (Fin n) ℝ) : ℝ := ∑ i, ∑ j, if i = j then 0 else M i j ^ 2

/-- The sum of the squares of the elements. -/
noncomputable def squares (M : Matrix (Fin n) (Fin n) ℝ) : ℝ := ∑ i, ∑ j, M i j ^ 2

theorem squares_eq (M : Matrix (Fin n) (Fin n) ℝ) : squares M = offDiagonal M + ∑ i, M i i ^ 2 := by
  unfold squares offDiagonal
  rw [← Finset.sum_add_distrib]
  refine Finset.sum_congr rfl fun i _ => ?_
  rw [show M i i ^ 2 = ∑ j, if i = j then M i j ^ 2 else 0 by rw [Finset.sum_ite_eq]; simp, ← Finset.sum_add_distrib]
  refine Finset.sum_congr rfl fun j _ => ?_
  by_cases h : i = j
  · simp [h]
  · simp [h]

theorem squares_trace (M : Matrix (Fin n) (Fin n) ℝ) : squares M = (M * M.transpose).trace := by
  unfold squares Matrix.trace
  refine Finset.sum_congr rfl fun i _ => ?_
  rw [Matrix.diag_apply, Matrix.mul_apply]
  exact Finset.sum_congr rfl fun j _ => by rw [Matrix.transpose_apply]; ring

theorem squares_conj (M R : Matrix (Fin n) (Fin n) ℝ) (h : R.transpose * R = 1) : squares (R.transpose * M * R) = squares M := by
  have h' : R * R.transpose = 1 := mul_eq_one_comm.1 h
  rw [squares_trace, squares_trace]
  have : R.transpose * M * R * (R.transpose * M * R).transpose = R.transpose * ((M * M.transpose) * R) := by
    simp only [Matrix.transpose_mul, Matrix.transpose_transpose]
    calc R.transpose * M * R * (R.transpose * (M.transpose * R)) = R.transpose * M * (R * R.transpose) * (M.transpose * R) := by simp only [Matrix.mul_assoc]
      _ = _ := by rw [h']; simp only [Matrix.mul_assoc, Matrix.one_mul, Matrix.mul_one]
  rw [this, Matrix.trace_mul_comm, Matrix.mul_assoc, h', Matrix.mul_one]

/-- An iteration of Jacobi's method. -/
theorem jacobi_step {D : Mat ℝ} (hD : (matrix n n D).transpose = matrix n n D) {p q : ℕ} (hpq : p < q) (hq : q < n) :
    let J := jacobiRotation D p q
    let D' := premultiplyByTranspose J n (postMultiplyByRotation n D J)
    matrix n n D' = (rotationMatrix n J).transpose * matrix n n D * rotationMatrix n J ∧
      offDiagonal (matrix n n D') = offDiagonal (matrix n n D) - 2 * D p q ^ 2 := by
  intro J D'
  obtain ⟨hu, hJp, hJq⟩ := jacobi_unit D p q
  have hann := jacobi_annihilates D p q
  change J.cos ^ 2 + J.sin ^ 2 = 1 at hu
  change (J.cos ^ 2 - J.sin ^ 2) * D p q + J.cos * J.sin * (D p p - D q q) = 0 at hann
  change J.p = p at hJp
  change J.q = q at hJq
  have hne : J.p ≠ J.q := by omega
  have e : matrix n n D' = (rotationMatrix n J).transpose * matrix n n D * rotationMatrix n J := by
    rw [pre_matrix _ hne (by omega) (by omega), post_matrix _ hne (by omega) (by omega), Matrix.mul_assoc]
  refine ⟨e, ?_⟩
  have hsq := squares_conj (matrix n n D) _ (rotation_orthogonal hne (by omega) (by omega) hu)
  rw [← e, squares_eq, squares_eq (matrix n n D)] at hsq
  have hsym : D q p = D p q := by
    have := congrFun (congrFun hD ⟨p, by omega⟩) ⟨q, hq⟩
    exact this
  have hd : ∀ i : Fin n, matrix n n D' i i = if (i : ℕ) = p then J.cos ^ 2 * D p p - 2 * J.cos * J.sin * D p q + J.sin ^ 2 * D q q
      else if (i : ℕ) = q then J.sin ^ 2 * D p p + 2 * J.cos * J.sin * D p q + J.cos ^ 2 * D q q else D i i := by
    intro i
    show premultiplyByTranspose J n (postMultiplyByRotation n D J) i i = _
    have hpn : p < n := by omega
    rw [premultiplyByTranspose_eq n _ hne, if_pos i.2]
    unfold rotated
    simp only [postMultiplyByRotation_eq n D hne, hJp, hJq, hpn, hq, i.2, if_true]
    unfold rotated
    rw [hJp, hJq]
    by_cases h1 : (i : ℕ) = p
    · simp only [if_pos h1, hsym]; ring
    · simp only [if_neg h1]
      by_cases h2 : (i : ℕ) = q
      · simp only [if_pos h2, hsym]; ring
      · simp only [if_neg h2]
  have hdiag : ∑ i, matrix n n D' i i ^ 2 = ∑ i, matrix n n D i i ^ 2 + 2 * D p q ^ 2 := by
    have hsplit : ∀ f : Fin n → ℝ, ∑ i, f i = f ⟨p, by omega⟩ + f ⟨q, hq⟩ + ∑ i ∈ (univ.erase ⟨p, by omega⟩).erase ⟨q, hq⟩, f i := by
      intro f
      rw [← Finset.add_sum_erase univ f (Finset.mem_univ ⟨p, by omega⟩),
        ← Finset.add_sum_erase (univ.erase (⟨p, by omega⟩ : Fin n)) f (a := ⟨q, hq⟩) (by simp [Fin.ext_iff]; omega), add_assoc]
    rw [hsplit, hsplit (fun i => matrix n n D i i ^ 2)]
    have hrest : ∑ i ∈ (univ.erase (⟨p, by omega⟩ : Fin n)).erase ⟨q, hq⟩, matrix n n D' i i ^ 2 =
        ∑ i ∈ (univ.erase (⟨p, by omega⟩ : Fin n)).erase ⟨q, hq⟩, matrix n n D i i ^ 2 := by
      refine Finset.sum_congr rfl fun i hi => ?_
      simp only [Finset.mem_erase, ne_eq, Fin.ext_iff, Finset.mem_univ, and_true] at hi
      rw [hd, if_neg hi.2, if_neg hi.1]
      rfl
    rw [hrest, hd ⟨p, by omega⟩, hd ⟨q, hq⟩, if_pos rfl, if_neg (by show ¬ q = p; omega), if_pos rfl]
    show _ = D p p ^ 2 + D q q ^ 2 + _ + _
    set a := D p p
    set b := D q q
    set x := D p q
    set c := J.cos
    set s := J.sin
    have h1 : ((c ^ 2 - s ^ 2) * x + c * s * (a - b)) ^ 2 = 0 := by rw [hann]; ring
    have hu2 : (c ^ 2 + s ^ 2) ^ 2 = 1 := by rw [hu]; ring
    have : (c ^ 2 * a - 2 * c * s * x + s ^ 2 * b) ^ 2 + (s ^ 2 * a + 2 * c * s * x + c ^ 2 * b) ^ 2 + 2 * ((c ^ 2 - s ^ 2) * x + c * s * (a - b)) ^ 2 =
        (c ^ 2 + s ^ 2) ^ 2 * (a ^ 2 + b ^ 2 + 2 * x ^ 2) := by ring
    rw [h1, hu2] at this
    linarith
  linarith

/-! ## The largest element -/

theorem largest_spec (n : ℕ) (A : Mat ℝ) :
    (∀ p q, p < q → q < n → |A p q| ≤ (largest n A).1) ∧
      (((largest n A).1 = 0 ∧ (largest n A).2 = none ∧ n ≤ 1) ∨ ∃ p q, p < q ∧ q < n ∧ (largest n A).2 = some (p, q) ∧ (largest n A).1 = |A p q|) := by
  unfold largest
  have := sweep_inv (fun k (s : ℝ × Option (ℕ × ℕ)) => 0 ≤ s.1 ∧ (∀ p q, p < k → p < q → q < n → |A p q| ≤ s.1) ∧
      ((s.1 = 0 ∧ s.2 = none ∧ (k = 0 ∨ n ≤ 1)) ∨ ∃ p q, p < q ∧ q < n ∧ s.2 = some (p, q) ∧ s.1 = |A p q|)) 0 n
    (fun p (s : ℝ × Option (ℕ × ℕ)) =>
      sweep (p + 1) n (fun q (s : ℝ × Option (ℕ × ℕ)) => if s.1 ≤ |A p q| then (|A p q|, some (p, q)) else s) s) (Nat.zero_le _) (fun k s _ hk hs => ?_)
    (s := ((0, none) : ℝ × Option (ℕ × ℕ))) ⟨le_refl _, fun p q h => by omega, Or.inl ⟨rfl, rfl, Or.inl rfl⟩⟩
  · obtain ⟨-, h1, h2⟩ := this
    refine ⟨fun p q hp hq => h1 p q (by omega) hp hq, ?_⟩
    rcases h2 with ⟨h2, h3, h4⟩ | h2
    · exact Or.inl ⟨h2, h3, by omega⟩
    · exact Or.inr h2
  · beta_reduce
    obtain ⟨h0, h1, h2⟩ := hs
    have := sweep_inv (fun l (t : ℝ × Option (ℕ × ℕ)) => 0 ≤ t.1 ∧ s.1 ≤ t.1 ∧ (∀ q, k < q → q < l → |A k q| ≤ t.1) ∧
        ((t.1 = 0 ∧ t.2 = none ∧ l = k + 1 ∧ (k = 0 ∨ n ≤ 1)) ∨ ∃ p q, p < q ∧ q < n ∧ t.2 = some (p, q) ∧ t.1 = |A p q|)) (k + 1) n
      (fun q (s : ℝ × Option (ℕ × ℕ)) => if s.1 ≤ |A k q| then (|A k q|, some (k, q)) else s) (by omega) (fun q t hq1 hq2 ht => ?_) (s := s)
      ⟨h0, le_refl _, fun q h h' => by omega, h2.imp (fun h => ⟨h.1, h.2.1, rfl, h.2.2⟩) id⟩
    · obtain ⟨g0, g1, g2, g3⟩ := this
      refine ⟨g0, fun p q hp hpq hq => ?_, ?_⟩
      · rcases Nat.lt_or_ge p k with h | h
        · exact (h1 p q h hpq hq).trans g1
        · obtain rfl : p = k := by omega
          exact g2 q hpq hq
      · rcases g3 with g | g
        · exact Or.inl ⟨g.1, g.2.1, Or.inr (by omega)⟩
        · exact Or.inr g
    · obtain ⟨g0, g1, g2, g3⟩ := ht
      beta_reduce
      by_cases hle : t.1 ≤ |A k q|
      · rw [if_pos hle]
        refine ⟨abs_nonneg _, g1.trans hle, fun q' h h' => ?_, Or.inr ⟨k, q, by omega, hq2, rfl, rfl⟩⟩
        rcases Nat.lt_or_ge q' q with h'' | h''
        · exact (g2 q' h h'').trans hle
        · obtain rfl : q' = q := by omega
          exact le_refl _
      · rw [if_neg hle]
        refine ⟨g0, g1, fun q' h h' => ?_, ?_⟩
        · rcases Nat.lt_or_ge q' q with h'' | h''
          · exact g2 q' h h''
          · obtain rfl : q' = q := by omega
            exact (not_le.1 hle).le
        · rcases g3 with g | g
          · exact absurd (abs_nonneg _) (by rw [← g.1]; exact hle)
          · exact Or.inr g

theorem offDiagonal_nonneg (M : Matrix (Fin n) (Fin n) ℝ) : 0 ≤ offDiagonal M :=
  Finset.sum_nonneg fun i _ => Finset.sum_nonneg fun j _ => by split <;> positivity

theorem offDiagonal_le (M : Matrix (Fin n) (Fin n) ℝ) (x : ℝ) (h : ∀ i j, i ≠ j → M i j ^ 2 ≤ x) : offDiagonal M ≤ n * (n - 1) * x := by
  have : ∀ i : Fin n, (∑ j, if i = j then 0 else M i j ^ 2) ≤ (n - 1) * x := by
    intro i
    calc (∑ j, if i = j then 0 else M i j ^ 2) ≤ ∑ j, (x - if i = j then x else 0) := by
          refine Finset.sum_le_sum fun j _ => ?_
          by_cases hij : i = j
          · simp [hij]
          · simp [hij, h i j hij]
      _ = (n - 1) * x := by rw [Finset.sum_sub_distrib, Finset.sum_ite_eq]; simp; ring
  calc offDiagonal M ≤ ∑ i : Fin n, (n - 1) * x := Finset.sum_le_sum fun i _ => this i
    _ = _ := by simp; ring

/-- The factor by which the sum of the squares of the elements off the diagonal decreases. -/
noncomputable def jacobiFactor (n : ℕ) : ℝ := 1 - 2 / (n * (n - 1))

theorem jacobiFactor_nonneg (hn : 2 ≤ n) : 0 ≤ jacobiFactor n ∧ jacobiFactor n < 1 := by
  unfold jacobiFactor
  have h : (2 : ℝ) ≤ n := by exact_mod_cast hn
  have h1 : (2 : ℝ) ≤ n * (n - 1) := by nlinarith
  constructor
  · rw [sub_nonneg, div_le_one (by linarith)]
    exact h1
  · have : 0 < 2 / ((n : ℝ) * (n - 1)) := by positivity
    linarith

/-- The state of Jacobi's method. -/
structure Diagonalizing (S : Matrix (Fin n) (Fin n) ℝ) (V D : Mat ℝ) : Prop where
  orthogonal : (matrix n n V).transpose * matrix n n V = 1
  conj : matrix n n D = (matrix n n V).transpose * S * matrix n n V

theorem Diagonalizing.symm {S : Matrix (Fin n) (Fin n) ℝ} (hS : S.transpose = S) {V D : Mat ℝ} (h : Diagonalizing S V D) : (matrix n n D).transpose = matrix n n D := by
  rw [h.conj]
  simp only [Matrix.transpose_mul, Matrix.transpose_transpose, hS, Matrix.mul_assoc]

theorem jacobiLoop_spec {S : Matrix (Fin n) (Fin n) ℝ} (hS : S.transpose = S) {tolerance : ℝ} (ht : 0 ≤ tolerance) (left : ℕ) (V D : Mat ℝ) (h : Diagonalizing S V D) :
    ∃ V' D', jacobiLoop n tolerance left V D = some (V', D') ∧ Diagonalizing S V' D' ∧ offDiagonal (matrix n n D') ≤ offDiagonal (matrix n n D) ∧
      ((∀ p q, p < q → q < n → |D' p q| ≤ tolerance) ∨ (2 ≤ n ∧ offDiagonal (matrix n n D') ≤ jacobiFactor n ^ left * offDiagonal (matrix n n D))) := by
  induction left generalizing V D with
  | zero =>
    refine ⟨V, D, rfl, h, le_refl _, ?_⟩
    rcases Nat.lt_or_ge n 2 with hn | hn
    · exact Or.inl fun p q hp hq => by omega
    · exact Or.inr ⟨hn, by simp⟩
  | succ left ih =>
    obtain ⟨hl1, hl2⟩ := largest_spec n D
    unfold jacobiLoop
    by_cases hle : (largest n D).1 ≤ tolerance
    · rw [if_pos hle]
      exact ⟨V, D, rfl, h, le_refl _, Or.inl fun p q hp hq => (hl1 p q hp hq).trans hle⟩
    · rw [if_neg hle]
      rcases hl2 with hl2 | ⟨p, q, hpq, hq, e1, e2⟩
      · exact absurd hl2.1 (by intro e; rw [e] at hle; exact hle ht)
      · rw [e1, Option.bind_some]
        dsimp only
        have hsym := h.symm hS
        obtain ⟨hu, hJp, hJq⟩ := jacobi_unit D p q
        obtain ⟨s1, s2⟩ := jacobi_step hsym hpq hq
        set J := jacobiRotation D p q with hJ
        have hne : J.p ≠ J.q := by omega
        have horth := rotation_orthogonal (n := n) hne (by omega) (by omega) hu
        have h' : Diagonalizing S (postMultiplyByRotation n V J) (premultiplyByTranspose J n (postMultiplyByRotation n D J)) := by
          refine ⟨?_, ?_⟩
          · rw [post_matrix _ hne (by omega) (by omega), Matrix.transpose_mul]
            calc (rotationMatrix n J).transpose * (matrix n n V).transpose * (matrix n n V * rotationMatrix n J)
                = (rotationMatrix n J).transpose * ((matrix n n V).transpose * matrix n n V) * rotationMatrix n J := by simp only [Matrix.mul_assoc]
              _ = 1 := by rw [h.orthogonal, Matrix.mul_one, horth]
          · rw [s1, post_matrix _ hne (by omega) (by omega), h.conj, Matrix.transpose_mul]
            simp only [Matrix.mul_assoc]
        obtain ⟨V', D', e, g1, g2, g3⟩ := ih _ _ h'
        have hx : ∀ i j : Fin n, i ≠ j → matrix n n D i j ^ 2 ≤ D p q ^ 2 := by
          intro i j hij
          have hij' : (i : ℕ) ≠ j := fun e => hij (Fin.ext e)
          have : |D i j| ≤ |D p q| := by
            rw [← e2]
            rcases Nat.lt_or_ge i j with hlt | hge
            · exact hl1 i j hlt j.2
            · have hs : D i j = D j i := congrFun (congrFun hsym j) i
              rw [hs]
              exact hl1 j i (by omega) i.2
          exact sq_le_sq.2 this
        have hoff := offDiagonal_le (matrix n n D) _ hx
        have hn : 2 ≤ n := by omega
        have hn' : (2 : ℝ) ≤ n := by exact_mod_cast hn
        have hnn : (2 : ℝ) ≤ n * (n - 1) := by nlinarith
        have hfac : offDiagonal (matrix n n D) - 2 * D p q ^ 2 ≤ jacobiFactor n * offDiagonal (matrix n n D) := by
          unfold jacobiFactor
          have : offDiagonal (matrix n n D) / (n * (n - 1)) ≤ D p q ^ 2 := by
            rw [div_le_iff₀ (by linarith)]
            linarith
          have e3 : (1 - 2 / ((n : ℝ) * (n - 1))) * offDiagonal (matrix n n D) = offDiagonal (matrix n n D) - 2 * (offDiagonal (matrix n n D) / (n * (n - 1))) := by ring
          rw [e3]
          linarith
        refine ⟨V', D', e, g1, ?_, ?_⟩
        · rw [s2] at g2
          nlinarith [sq_nonneg (D p q)]
        · rcases g3 with g3 | ⟨-, g3⟩
          · exact Or.inl g3
          · refine Or.inr ⟨hn, g3.trans ?_⟩
            rw [s2, pow_succ (jacobiFactor n), mul_assoc]
            exact mul_le_mul_of_nonneg_left hfac (pow_nonneg (jacobiFactor_nonneg hn).1 _)

theorem classicalJacobi_spec {A : Mat ℝ} (hA : (matrix n n A).transpose = matrix n n A) (N : ℕ) {ε : ℝ} (hε : 0 ≤ ε) :
    ∃ V D, classicalJacobi n A N ε = some (V, fun i => D i i) ∧ Diagonalizing (matrix n n A) V D ∧ offDiagonal (matrix n n D) ≤ offDiagonal (matrix n n A) ∧
      ((∀ p q, p < q → q < n → |D p q| ≤ ε * frobeniusNorm n A) ∨ (2 ≤ n ∧ offDiagonal (matrix n n D) ≤ jacobiFactor n ^ N * offDiagonal (matrix n n A))) := by
  have h1 : matrix n n (fun i j => if i = j then (1 : ℝ) else 0) = 1 := by
    ext i j
    rw [Matrix.one_apply]
    simp only [← Fin.val_inj]
    rfl
  obtain ⟨V, D, e, h2, h3, h4⟩ := jacobiLoop_spec hA (mul_nonneg hε (Real.sqrt_nonneg _) : 0 ≤ ε * frobeniusNorm n A) N (fun i j => if i = j then 1 else 0) A
    ⟨by rw [h1]; simp, by rw [h1]; simp⟩
  refine ⟨V, D, ?_, h2, h3, h4⟩
  unfold classicalJacobi
  rw [e]
  rfl

end Principia.Numerics.Matrices
