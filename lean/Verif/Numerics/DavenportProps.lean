import Verif.Numerics.DavenportModel
import Verif.Numerics.DavenportSpec
import Verif.Numerics.EigenProps
import Verif.Geometry.RotationProps
import Mathlib.Tactic.Linarith
import Mathlib.Tactic.LinearCombination
import Mathlib.Tactic.FinCases
import Mathlib.Tactic.NormNum
import Mathlib.Tactic.IntervalCases
import Mathlib.Algebra.Order.BigOperators.Ring.Finset

/-!
The rotation found by Davenport's Q method solves Wahba's problem, up to what the iterations of Jacobi's method leave out of the diagonal.
-/

set_option linter.unusedSimpArgs false
set_option linter.unusedVariables false

namespace Principia.Numerics.Davenport

open Principia.Geometry Principia.Numerics.Matrices

/-- The unit quaternion of a rotation, as a vector on which the matrix acts. -/
def coordinates (q : Quat ℝ) : Fin 4 → ℝ := ![-q.im.x, -q.im.y, -q.im.z, q.re]

/-- The quadratic form associated with the matrix. -/
def form (B : M3 ℝ) (q : Quat ℝ) : ℝ :=
  B.trace * (q.re ^ 2 - q.im.normSq) + 2 * (q.im.x * B.rowX.dot q.im + q.im.y * B.rowY.dot q.im + q.im.z * B.rowZ.dot q.im)
    - 2 * q.re * ((B.rowY.z - B.rowZ.y) * q.im.x + (B.rowZ.x - B.rowX.z) * q.im.y + (B.rowX.y - B.rowY.x) * q.im.z)

theorem k_symmetric (B : M3 ℝ) : (matrix 4 4 (kMatrix B)).transpose = matrix 4 4 (kMatrix B) := by
  ext i j
  fin_cases i <;> fin_cases j <;> simp [matrix, kMatrix, M3.at', M3.row, R3.get, M3.transpose, add_comm]

theorem k_form (B : M3 ℝ) (q : Quat ℝ) : coordinates q ⬝ᵥ (matrix 4 4 (kMatrix B)).mulVec (coordinates q) = form B q := by
  simp [dotProduct, Matrix.mulVec, Fin.sum_univ_four, coordinates, matrix, kMatrix, M3.at', M3.row, R3.get, M3.transpose, form, R3.dot, R3.normSq, M3.trace]
  ring

theorem k_squares (B : M3 ℝ) : (∑ i, ∑ j, matrix 4 4 (kMatrix B) i j ^ 2) = 4 * (B.rowX.normSq + B.rowY.normSq + B.rowZ.normSq) := by
  simp [Fin.sum_univ_four, matrix, kMatrix, M3.at', M3.row, R3.get, M3.transpose, R3.normSq, M3.trace]
  ring

theorem form_add (B C : M3 ℝ) (q : Quat ℝ) : form (B + C) q = form B q + form C q := by
  simp [form, M3.trace, R3.dot]
  ring

theorem form_term (a b : R3 ℝ) (w : ℝ) (r : Rotation ℝ) (hr : r.IsUnit) : form (w • M3.kronecker b a) r.quaternion = w * b.dot (r.apply a) := by
  have h : r.quaternion.re ^ 2 = 1 - r.quaternion.im.normSq := by
    unfold Rotation.IsUnit Quat.normSq at hr
    simp only [R3.normSq, R3.dot] at *
    linarith
  unfold form
  rw [h]
  simp [M3.trace, M3.kronecker, Rotation.apply, R3.dot, R3.cross, R3.normSq]
  ring

/-- The weighted sum of the dot products of the second vectors and of the images of the first ones. -/
def gain (l : List (R3 ℝ × R3 ℝ × ℝ)) (r : Rotation ℝ) : ℝ := (l.map fun t => t.2.2 * t.2.1.dot (r.apply t.1)).sum

theorem form_profile (l : List (R3 ℝ × R3 ℝ × ℝ)) (r : Rotation ℝ) (hr : r.IsUnit) : form (attitudeProfile l) r.quaternion = gain l r := by
  have key : ∀ (l : List (R3 ℝ × R3 ℝ × ℝ)) (B : M3 ℝ),
      form (l.foldl (fun B t => B + t.2.2 • M3.kronecker t.2.1 t.1) B) r.quaternion = form B r.quaternion + gain l r := by
    intro l
    induction l with
    | nil => intro B; simp [gain]
    | cons t l ih =>
      intro B
      rw [List.foldl_cons, ih, form_add, form_term _ _ _ _ hr]
      simp [gain]
      ring
  unfold attitudeProfile
  rw [key]
  simp [form, M3.trace, R3.dot]

theorem normSq_sub_apply (a b : R3 ℝ) (r : Rotation ℝ) (hr : r.IsUnit) : (b - r.apply a).normSq = b.normSq + a.normSq - 2 * b.dot (r.apply a) := by
  have h : (r.apply a).normSq = a.normSq := by
    have h : r.quaternion.re ^ 2 = 1 - r.quaternion.im.normSq := by
      unfold Rotation.IsUnit Quat.normSq at hr
      simp only [R3.normSq, R3.dot] at *
      linarith
    simp only [R3.normSq] at h
    simp [Rotation.apply, R3.normSq, R3.cross]
    set p := r.quaternion.re
    set x := r.quaternion.im.x
    set y := r.quaternion.im.y
    set z := r.quaternion.im.z
    linear_combination (4 * ((y * a.z - z * a.y) ^ 2 + (z * a.x - x * a.z) ^ 2 + (x * a.y - y * a.x) ^ 2)) * h
  simp only [R3.normSq, R3.dot, R3.sub_x, R3.sub_y, R3.sub_z] at *
  linarith

theorem loss_eq (l : List (R3 ℝ × R3 ℝ × ℝ)) (r : Rotation ℝ) (hr : r.IsUnit) :
    loss l r = (l.map fun t => t.2.2 * (t.2.1.normSq + t.1.normSq)).sum - 2 * gain l r := by
  unfold loss gain
  induction l with
  | nil => simp
  | cons t l ih =>
    simp only [List.map_cons, List.sum_cons]
    rw [ih, normSq_sub_apply _ _ _ hr]
    ring

/-- The sum of the squares of the elements. -/
def squareNorm (B : M3 ℝ) : ℝ := B.rowX.normSq + B.rowY.normSq + B.rowZ.normSq

/-- The sum of the products of the elements. -/
def product (B C : M3 ℝ) : ℝ := B.rowX.dot C.rowX + B.rowY.dot C.rowY + B.rowZ.dot C.rowZ

theorem normSq_nonneg' (v : R3 ℝ) : 0 ≤ v.normSq :=
  add_nonneg (add_nonneg (mul_self_nonneg _) (mul_self_nonneg _)) (mul_self_nonneg _)

theorem squareNorm_nonneg (B : M3 ℝ) : 0 ≤ squareNorm B := by
  unfold squareNorm
  have h1 := normSq_nonneg' B.rowX
  have h2 := normSq_nonneg' B.rowY
  have h3 := normSq_nonneg' B.rowZ
  linarith

theorem product_le (B C : M3 ℝ) : product B C ^ 2 ≤ squareNorm B * squareNorm C := by
  have := Finset.sum_mul_sq_le_sq_mul_sq Finset.univ
    (![B.rowX.x, B.rowX.y, B.rowX.z, B.rowY.x, B.rowY.y, B.rowY.z, B.rowZ.x, B.rowZ.y, B.rowZ.z] : Fin 9 → ℝ)
    (![C.rowX.x, C.rowX.y, C.rowX.z, C.rowY.x, C.rowY.y, C.rowY.z, C.rowZ.x, C.rowZ.y, C.rowZ.z] : Fin 9 → ℝ)
  simp [Fin.sum_univ_succ] at this
  simp only [product, squareNorm, R3.normSq, R3.dot]
  have e1 : ∀ a b c d e f g h i : ℝ, a * a + b * b + c * c + (d * d + e * e + f * f) + (g * g + h * h + i * i)
    = a ^ 2 + (b ^ 2 + (c ^ 2 + (d ^ 2 + (e ^ 2 + (f ^ 2 + (g ^ 2 + (h ^ 2 + i ^ 2))))))) := by intros; ring
  rw [e1, e1]
  refine le_trans (le_of_eq ?_) this
  ring

theorem product_term (B : M3 ℝ) (a b : R3 ℝ) (w : ℝ) : product B (w • M3.kronecker b a) ≤ √(squareNorm B) * (|w| * (a.norm * b.norm)) := by
  have h := product_le B (w • M3.kronecker b a)
  have e : squareNorm (w • M3.kronecker b a) = (|w| * (a.norm * b.norm)) ^ 2 := by
    unfold R3.norm
    have ha : 0 ≤ a.normSq := normSq_nonneg' _
    have hb : 0 ≤ b.normSq := normSq_nonneg' _
    rw [mul_pow, mul_pow, Real.sq_sqrt ha, Real.sq_sqrt hb, sq_abs]
    simp [squareNorm, M3.kronecker, R3.normSq]
    ring
  rw [e] at h
  have h0 : 0 ≤ |w| * (a.norm * b.norm) := by unfold R3.norm; positivity
  refine le_trans (le_abs_self _) (abs_le_of_sq_le_sq ?_ (by positivity))
  rw [mul_pow, Real.sq_sqrt (squareNorm_nonneg _)]
  exact h

theorem product_add (A B C : M3 ℝ) : product A (B + C) = product A B + product A C := by
  simp [product, R3.dot]
  ring

theorem profile_norm (l : List (R3 ℝ × R3 ℝ × ℝ)) : √(squareNorm (attitudeProfile l)) ≤ scale l := by
  have key : ∀ (A : M3 ℝ) (l : List (R3 ℝ × R3 ℝ × ℝ)) (B : M3 ℝ),
      product A (l.foldl (fun B t => B + t.2.2 • M3.kronecker t.2.1 t.1) B) ≤ product A B + √(squareNorm A) * scale l := by
    intro A l
    induction l with
    | nil => intro B; simp [scale]
    | cons t l ih =>
      intro B
      rw [List.foldl_cons]
      refine (ih _).trans ?_
      rw [product_add]
      have := product_term A t.1 t.2.1 t.2.2
      simp only [scale, List.map_cons, List.sum_cons]
      rw [mul_add]
      linarith
  have h := key (attitudeProfile l) l ⟨0, 0, 0⟩
  have e : product (attitudeProfile l) (attitudeProfile l) = squareNorm (attitudeProfile l) := by
    simp only [product, squareNorm, R3.dot, R3.normSq]
  have e0 : product (attitudeProfile l) ⟨0, 0, 0⟩ = 0 := by simp [product, R3.dot]
  have h2 : squareNorm (attitudeProfile l) ≤ √(squareNorm (attitudeProfile l)) * scale l := by
    rw [e0, zero_add] at h
    rw [← e]
    rw [e]
    exact (le_of_eq e.symm).trans h
  have hs : 0 ≤ scale l := by
    unfold scale R3.norm
    refine List.sum_nonneg ?_
    intro x hx
    obtain ⟨t, -, rfl⟩ := List.mem_map.1 hx
    positivity
  by_cases h0 : √(squareNorm (attitudeProfile l)) = 0
  · rw [h0]; exact hs
  · have hp : 0 < √(squareNorm (attitudeProfile l)) := lt_of_le_of_ne (Real.sqrt_nonneg _) (Ne.symm h0)
    have := Real.mul_self_sqrt (squareNorm_nonneg (attitudeProfile l))
    exact le_of_mul_le_mul_left (this.le.trans h2) hp

/-- The value of a quadratic form on a unit vector, in terms of an approximate diagonalization. -/
theorem quadratic_le {n : ℕ} {A : Matrix (Fin n) (Fin n) ℝ} {V : Matrix (Fin n) (Fin n) ℝ} {d : Fin n → ℝ} {E : Matrix (Fin n) (Fin n) ℝ} (hV : V.transpose * V = 1)
    (h : V.transpose * A * V = Matrix.diagonal d + E) {m : ℝ} (hm : ∀ i, d i ≤ m) {x : Fin n → ℝ} (hx : ∑ i, x i ^ 2 = 1) :
    x ⬝ᵥ A.mulVec x ≤ m + √(∑ i, ∑ j, E i j ^ 2) := by
  have hV' : V * V.transpose = 1 := mul_eq_one_comm.1 hV
  set y := V.transpose.mulVec x with hy
  have hxy : V.mulVec y = x := by rw [hy, Matrix.mulVec_mulVec, hV', Matrix.one_mulVec]
  have hy1 : ∑ i, y i ^ 2 = 1 := by
    have e : ∀ z : Fin n → ℝ, ∑ i, z i ^ 2 = z ⬝ᵥ z := by intro z; simp [dotProduct, sq]
    rw [e] at hx
    rw [e, hy, Matrix.dotProduct_mulVec, Matrix.vecMul_transpose, ← hy, hxy, hx]
  have hq : x ⬝ᵥ A.mulVec x = y ⬝ᵥ (Matrix.diagonal d + E).mulVec y := by
    rw [← h, ← Matrix.mulVec_mulVec, hxy, ← Matrix.mulVec_mulVec, Matrix.dotProduct_mulVec, Matrix.dotProduct_mulVec, Matrix.dotProduct_mulVec, Matrix.vecMul_transpose, hxy]
  rw [hq, Matrix.add_mulVec, dotProduct_add]
  refine add_le_add ?_ ?_
  · simp only [dotProduct, Matrix.mulVec_diagonal]
    calc ∑ i, y i * (d i * y i) ≤ ∑ i, m * y i ^ 2 := Finset.sum_le_sum fun i _ => by nlinarith [hm i, sq_nonneg (y i)]
      _ = m := by rw [← Finset.mul_sum, hy1, mul_one]
  · have e : y ⬝ᵥ E.mulVec y = ∑ p : Fin n × Fin n, (y p.1 * y p.2) * E p.1 p.2 := by
      rw [Fintype.sum_prod_type]
      simp only [dotProduct, Matrix.mulVec, Finset.mul_sum]
      exact Finset.sum_congr rfl fun i _ => Finset.sum_congr rfl fun j _ => by ring
    have hc := Finset.sum_mul_sq_le_sq_mul_sq Finset.univ (fun p : Fin n × Fin n => y p.1 * y p.2) (fun p => E p.1 p.2)
    rw [← e] at hc
    have e1 : ∑ p : Fin n × Fin n, (y p.1 * y p.2) ^ 2 = 1 := by
      rw [Fintype.sum_prod_type]
      simp only [mul_pow, ← Finset.mul_sum, hy1, mul_one]
    have e2 : ∑ p : Fin n × Fin n, E p.1 p.2 ^ 2 = ∑ i, ∑ j, E i j ^ 2 := Fintype.sum_prod_type _
    rw [e1, e2, one_mul] at hc
    exact Real.le_sqrt_of_sq_le hc

theorem mostPositive_spec (V : Mat ℝ) (d : Vec ℝ) :
    ∃ k : Fin 4, (∀ i : Fin 4, d i ≤ d k) ∧ (mostPositive V d).2 = ⟨V 3 k, ⟨V 0 k, V 1 k, V 2 k⟩⟩ := by
  have := sweep_inv (fun i (s : Option ℝ × Quat ℝ) => (i = 0 → s.1 = none) ∧ (0 < i → ∃ k < i, (∀ j < i, d j ≤ d k) ∧ s = (some (d k), ⟨V 3 k, ⟨V 0 k, V 1 k, V 2 k⟩⟩)))
    0 4 (fun i (s : Option ℝ × Quat ℝ) => if (∀ e, s.1 = some e → e < d i) then (some (d i), ⟨V 3 i, ⟨V 0 i, V 1 i, V 2 i⟩⟩) else s) (by omega) ?_
    (s := (none, ⟨0, 0⟩)) ⟨fun _ => rfl, fun h => by omega⟩
  · obtain ⟨k, hk, h1, h2⟩ := this.2 (by omega)
    refine ⟨⟨k, hk⟩, fun i => h1 i i.2, ?_⟩
    have e : mostPositive V d = (some (d k), ⟨V 3 k, ⟨V 0 k, V 1 k, V 2 k⟩⟩) := h2
    rw [e]
  · intro i s _ hi hs
    refine ⟨fun h => by omega, fun _ => ?_⟩
    beta_reduce
    by_cases hc : ∀ e, s.1 = some e → e < d i
    · rw [if_pos hc]
      refine ⟨i, by omega, ?_, rfl⟩
      intro j hj
      by_cases hji : j = i
      · rw [hji]
      · obtain ⟨k, hk, h1, h2⟩ := hs.2 (by omega)
        have := hc (d k) (by rw [h2])
        exact (h1 j (by omega)).trans this.le
    · rw [if_neg hc]
      by_cases h0 : i = 0
      · exfalso
        apply hc
        intro e he
        rw [hs.1 h0] at he
        cases he
      · obtain ⟨k, hk, h1, h2⟩ := hs.2 (by omega)
        refine ⟨k, by omega, ?_, h2⟩
        intro j hj
        by_cases hji : j = i
        · subst hji
          rw [h2] at hc
          push Not at hc
          obtain ⟨e, he, h3⟩ := hc
          cases he
          exact h3
        · exact h1 j (by omega)

/-- C76.  Given as many vectors of each kind and weights, the method returns a rotation which solves Wahba's problem: the sum of the weighted squares of the distances between the images of
the first vectors and the second ones is that of the best rotation, up to a term which is either of the order of the rounding errors of the sum, or less than a geometrically decreasing
function of the number of iterations, which is 20. -/
theorem C76_wahba (a b : List (R3 ℝ)) (weights : List ℝ) (hb : a.length = b.length) (hw : a.length = weights.length) :
    ∃ r, davenportQMethod a b weights = some r ∧ r.IsUnit ∧ ∃ δ : ℝ,
      (δ ≤ (12 * (2 ^ (-59 : ℤ)) ^ 2 : ℝ) ∨ δ ≤ ((5 : ℝ) / 6) ^ 20) ∧
      ∀ s : Rotation ℝ, s.IsUnit → loss (a.zip (b.zip weights)) r ≤ loss (a.zip (b.zip weights)) s + 4 * √δ * scale (a.zip (b.zip weights)) := by
  set l := a.zip (b.zip weights) with hl
  set B := attitudeProfile l with hB
  have hε : (0 : ℝ) ≤ tolerance := by unfold tolerance; positivity
  obtain ⟨V, d, E, h1, h2, h3, h4, h5, h6, h7⟩ := C75_jacobi (k_symmetric B) 20 hε
  obtain ⟨k, hk, hq⟩ := mostPositive_spec V d
  have hsq : (∑ i, ∑ j, E i j ^ 2) = offDiagonal E := by
    unfold offDiagonal
    refine Finset.sum_congr rfl fun i _ => Finset.sum_congr rfl fun j _ => ?_
    by_cases hij : i = j
    · rw [if_pos hij, hij, h4]; norm_num
    · rw [if_neg hij]
  have hun : ∑ i : Fin 4, V i k ^ 2 = 1 := by
    have := congrFun (congrFun h2 k) k
    rw [Matrix.mul_apply, Matrix.one_apply_eq] at this
    rw [← this]
    refine Finset.sum_congr rfl fun i _ => ?_
    rw [Matrix.transpose_apply, sq]
    rfl
  set r : Rotation ℝ := ⟨(mostPositive V d).2.conjugate⟩ with hr
  have hcr : coordinates r.quaternion = fun i : Fin 4 => V i k := by
    rw [hr]
    simp only [hq]
    ext i
    fin_cases i <;> simp [coordinates, Quat.conjugate]
  have hru : r.IsUnit := by
    rw [Fin.sum_univ_four] at hun
    have hun' : V 0 k ^ 2 + V 1 k ^ 2 + V 2 k ^ 2 + V 3 k ^ 2 = 1 := hun
    unfold Rotation.IsUnit
    rw [hr]
    simp only [hq]
    simp [Quat.normSq, Quat.conjugate, R3.normSq, R3.dot]
    linarith
  have hgr : gain l r = d k := by
    rw [← form_profile l r hru, ← k_form, hcr]
    have := congrFun (congrFun h3 k) k
    rw [Matrix.add_apply, Matrix.diagonal_apply_eq, h4, add_zero] at this
    have hdk : vector 4 d k = d k := rfl
    rw [← hdk, ← this, Matrix.mul_assoc, Matrix.mul_apply]
    simp only [dotProduct, Matrix.transpose_apply, Matrix.mul_apply, Matrix.mulVec]
    rfl
  have hgs : ∀ s : Rotation ℝ, s.IsUnit → gain l s ≤ gain l r + √(offDiagonal E) := by
    intro s hs
    rw [hgr, ← hsq, ← form_profile l s hs, ← k_form]
    refine quadratic_le h2 h3 hk ?_
    unfold Rotation.IsUnit at hs
    rw [← hs, Fin.sum_univ_four]
    simp [coordinates, Quat.normSq, R3.normSq, R3.dot]
    ring
  have hKB : (∑ i, ∑ j, matrix 4 4 (kMatrix B) i j ^ 2) = 4 * squareNorm B := k_squares B
  have hsc := profile_norm l
  have hsc2 : squareNorm B ≤ scale l ^ 2 := (Real.sqrt_le_left ((Real.sqrt_nonneg _).trans hsc)).1 hsc
  have hs0 : 0 ≤ scale l := (Real.sqrt_nonneg _).trans hsc
  have hoff : offDiagonal (matrix 4 4 (kMatrix B)) ≤ 4 * squareNorm B := by
    rw [← hKB]
    unfold offDiagonal
    refine Finset.sum_le_sum fun i _ => Finset.sum_le_sum fun j _ => ?_
    by_cases hij : i = j
    · rw [if_pos hij]; exact sq_nonneg _
    · rw [if_neg hij]
  have finish : ∀ δ : ℝ, 0 ≤ δ → offDiagonal E ≤ δ * (4 * squareNorm B) → ∀ s : Rotation ℝ, s.IsUnit → loss l r ≤ loss l s + 4 * √δ * scale l := by
    intro δ h0 hδ s hs
    rw [loss_eq l r hru, loss_eq l s hs]
    have h8 : √(offDiagonal E) ≤ √δ * (2 * scale l) := by
      apply Real.sqrt_le_iff.2
      refine ⟨by positivity, ?_⟩
      rw [mul_pow, Real.sq_sqrt h0]
      refine hδ.trans (mul_le_mul_of_nonneg_left ?_ h0)
      nlinarith
    have := hgs s hs
    linarith
  refine ⟨r, ?_, hru, ?_⟩
  · unfold davenportQMethod
    rw [if_pos ⟨hb, hw⟩, h1]
    rfl
  · rcases h6 with h6 | ⟨-, h6⟩
    · refine ⟨12 * (2 ^ (-59 : ℤ)) ^ 2, Or.inl le_rfl, finish _ (by positivity) ?_⟩
      have htol : tolerance = 2 ^ (-59 : ℤ) := by unfold tolerance; norm_num
      have := offDiagonal_le E (tolerance ^ 2 * (4 * squareNorm B)) ?_
      · refine this.trans (le_of_eq ?_)
        rw [htol]
        push_cast
        ring
      · intro i j _
        have h9 := h6 i j
        rw [hKB] at h9
        rw [← sq_abs]
        calc |E i j| ^ 2 ≤ (tolerance * √(4 * squareNorm B)) ^ 2 := pow_le_pow_left₀ (abs_nonneg _) h9 2
          _ = _ := by rw [mul_pow, Real.sq_sqrt (by have := squareNorm_nonneg B; positivity)]
    · refine ⟨(5 / 6) ^ 20, Or.inr le_rfl, finish _ (by positivity) ?_⟩
      refine h6.trans ?_
      have e : (1 - 2 / ((4 : ℕ) * ((4 : ℕ) - 1)) : ℝ) = 5 / 6 := by norm_num
      rw [e]
      exact mul_le_mul_of_nonneg_left hoff (by positivity)

/-- C76.  If the second vectors are the images of the first ones by some rotation, the method returns a rotation whose effect on the first vectors is the same, up to the same term. -/
theorem C76_recovers (a : List (R3 ℝ)) (weights : List ℝ) (hw : a.length = weights.length) (s : Rotation ℝ) (hs : s.IsUnit) :
    ∃ r, davenportQMethod a (a.map s.apply) weights = some r ∧ r.IsUnit ∧ ∃ δ : ℝ, (δ ≤ (12 * (2 ^ (-59 : ℤ)) ^ 2 : ℝ) ∨ δ ≤ ((5 : ℝ) / 6) ^ 20) ∧
      ((a.zip weights).map fun t => t.2 * (s.apply t.1 - r.apply t.1).normSq).sum ≤ 4 * √δ * ((a.zip weights).map fun t => |t.2| * t.1.normSq).sum := by
  obtain ⟨r, h1, h2, δ, h3, h4⟩ := C76_wahba a (a.map s.apply) weights (by simp) hw
  refine ⟨r, h1, h2, δ, h3, ?_⟩
  have hz : ∀ (a : List (R3 ℝ)) (w : List ℝ), a.zip ((a.map s.apply).zip w) = (a.zip w).map fun t => (t.1, s.apply t.1, t.2) := by
    intro a
    induction a with
    | nil => intro w; simp
    | cons x a ih =>
      intro w
      cases w with
      | nil => simp
      | cons y w => simp [ih]
  have hn : ∀ x, (s.apply x).normSq = x.normSq := by
    intro x
    have e1 := normSq_sub_apply x (s.apply x) s hs
    simp only [R3.normSq, R3.dot, R3.sub_x, R3.sub_y, R3.sub_z] at *
    nlinarith
  have h5 := h4 s hs
  rw [hz] at h5
  have e1 : loss ((a.zip weights).map fun t => (t.1, s.apply t.1, t.2)) s = 0 := by
    unfold loss
    rw [List.map_map]
    apply List.sum_eq_zero
    intro x hx
    obtain ⟨t, -, rfl⟩ := List.mem_map.1 hx
    simp [R3.normSq]
  have e2 : scale ((a.zip weights).map fun t => (t.1, s.apply t.1, t.2)) = ((a.zip weights).map fun t => |t.2| * t.1.normSq).sum := by
    unfold scale
    rw [List.map_map]
    congr 1
    refine List.map_congr_left fun t _ => ?_
    have h0 : 0 ≤ t.1.normSq := normSq_nonneg' _
    simp only [Function.comp_apply, R3.norm, hn]
    rw [Real.mul_self_sqrt h0]
  rw [e1, zero_add, e2] at h5
  refine le_trans (le_of_eq ?_) h5
  unfold loss
  rw [List.map_map]
  rfl

/-- C76.  Lists of different lengths are rejected. -/
theorem C76_sizes (a b : List (R3 ℝ)) (weights : List ℝ) : (davenportQMethod a b weights).isSome ↔ a.length = b.length ∧ a.length = weights.length := by
  constructor
  · intro h
    by_contra hc
    rw [davenportQMethod, if_neg hc] at h
    cases h
  · rintro ⟨h1, h2⟩
    obtain ⟨r, h, -⟩ := C76_wahba a b weights h1 h2
    rw [h]
    rfl

/-- If the matrix is already diagonal, it is left alone. -/
theorem jacobi_diagonal (A : Mat ℝ) (h : ∀ p q, p < q → q < 4 → A p q = 0) :
    classicalJacobi 4 A 20 tolerance = some (fun i j => if i = j then 1 else 0, fun i => A i i) := by
  have hl : (largest 4 A).1 ≤ tolerance * frobeniusNorm 4 A := by
    have h0 : 0 ≤ tolerance * frobeniusNorm 4 A := mul_nonneg (by unfold tolerance; positivity) (Real.sqrt_nonneg _)
    rcases (largest_spec 4 A).2 with ⟨h1, -⟩ | ⟨p, q, h1, h2, -, h3⟩
    · rw [h1]; exact h0
    · rw [h3, h p q h1 h2, abs_zero]; exact h0
  unfold classicalJacobi
  rw [jacobiLoop, if_pos hl]
  rfl

theorem mostPositive_eq (V : Mat ℝ) (d : Vec ℝ) (h1 : d 1 ≤ d 0) (h2 : d 2 ≤ d 0) (h3 : d 3 ≤ d 0) : (mostPositive V d).2 = ⟨V 3 0, ⟨V 0 0, V 1 0, V 2 0⟩⟩ := by
  simp [mostPositive, sweep, List.range', not_lt.2 h1, not_lt.2 h2, not_lt.2 h3]

/-- C76.  With no vectors, all rotations are as good, but the method doesn't return the identity: it returns a half-turn around the first axis. -/
theorem C76_empty : davenportQMethod [] [] [] = some ⟨⟨0, ⟨-1, 0, 0⟩⟩⟩ ∧ ∀ r, loss [] r = 0 := by
  refine ⟨?_, fun r => rfl⟩
  have hz : kMatrix (attitudeProfile []) = fun _ _ => 0 := by
    funext i j
    have h0 : ∀ i : Fin 3, (0 : R3 ℝ).get i = 0 := by intro i; fin_cases i <;> rfl
    have h1 : ∀ i j : Fin 3, (⟨0, 0, 0⟩ : M3 ℝ).at' i j = 0 := by intro i j; fin_cases i <;> fin_cases j <;> rfl
    have h2 : ∀ i j : Fin 3, ((⟨0, 0, 0⟩ : M3 ℝ) + (⟨0, 0, 0⟩ : M3 ℝ).transpose).at' i j = 0 := by
      intro i j; fin_cases i <;> fin_cases j <;> simp [M3.at', M3.row, R3.get, M3.transpose]
    have h3 : (⟨0, 0, 0⟩ : M3 ℝ).trace = 0 := by simp [M3.trace]
    have h4 : ∀ i : Fin 3, (⟨0, 0, 0⟩ : R3 ℝ).get i = 0 := h0
    simp [kMatrix, attitudeProfile, h1, h2, h3, h4]
  unfold davenportQMethod
  rw [if_pos ⟨rfl, rfl⟩, List.zip_nil_left, hz, jacobi_diagonal _ (fun _ _ _ _ => rfl), Option.map_some, mostPositive_eq _ _ le_rfl le_rfl le_rfl]
  simp [Quat.conjugate, R3.ext_iff]

example : davenportQMethod [⟨1, 0, 0⟩, ⟨0, 1, 0⟩] [⟨1, 0, 0⟩, ⟨0, -1, 0⟩] [1, 2] = some ⟨⟨0, ⟨-1, 0, 0⟩⟩⟩ := by
  unfold davenportQMethod
  rw [if_pos ⟨rfl, rfl⟩, jacobi_diagonal, Option.map_some, mostPositive_eq]
  · simp [Quat.conjugate, R3.ext_iff]
  all_goals simp only [kMatrix, attitudeProfile, List.zip_cons_cons, List.zip_nil_left, List.foldl_cons, List.foldl_nil]
  · simp [M3.at', M3.row, R3.get, M3.transpose, M3.trace, M3.kronecker]; try norm_num
  · simp [M3.at', M3.row, R3.get, M3.transpose, M3.trace, M3.kronecker]; try norm_num
  · simp [M3.at', M3.row, R3.get, M3.transpose, M3.trace, M3.kronecker]; try norm_num
  · intro p q h1 h2
    interval_cases q <;> interval_cases p <;> simp [M3.at', M3.row, R3.get, M3.transpose, M3.trace, M3.kronecker]

example : (⟨⟨0, ⟨-1, 0, 0⟩⟩⟩ : Rotation ℝ).IsUnit ∧ loss (([⟨1, 0, 0⟩, ⟨0, 1, 0⟩] : List (R3 ℝ)).zip ([⟨1, 0, 0⟩, ⟨0, -1, 0⟩].zip [1, 2])) ⟨⟨0, ⟨-1, 0, 0⟩⟩⟩ = 0 := by
  constructor
  · simp [Rotation.IsUnit, Quat.normSq, R3.dot, R3.normSq]
  · simp [loss, Rotation.apply, R3.cross, R3.normSq]
    norm_num

end Principia.Numerics.Davenport
