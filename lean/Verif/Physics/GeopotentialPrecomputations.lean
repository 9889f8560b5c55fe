import Mathlib.Data.Complex.Basic
import Mathlib.Algebra.BigOperators.Group.Finset.Basic
import Verif.Physics.GeopotentialThresholds
import Verif.Physics.LegendreLemmas

/-!
The recurrences compute the powers, the multiples of the longitude and the derivatives of the Legendre polynomials, whatever the contents of the uninitialized arrays.
-/

set_option linter.unusedSimpArgs false
set_option linter.unusedVariables false
set_option linter.unusedSectionVars false

namespace Principia.Geopotential

open Legendre

variable {V : Type*} [NormedAddCommGroup V] [InnerProductSpace ℝ V]

/-- The arrays, filled with the values that they must have. -/
noncomputable def exact (R : ℝ) (p : Precomputations V) : Precomputations V :=
  { p with
    ℜ_over_r := fun k => R ^ k / p.r_norm ^ (k + 2)
    cos_mL := fun k => ((⟨p.cos_mL 1, p.sin_mL 1⟩ : ℂ) ^ k).re
    sin_mL := fun k => ((⟨p.cos_mL 1, p.sin_mL 1⟩ : ℂ) ^ k).im
    cos_β_to_the_m := fun k => p.cos_β ^ k
    DmPn_of_sin_β := fun k j => legendreD k j p.sin_β }

/-- The part of `p` that has been filled. -/
structure Known (z : Prop) (e p : Precomputations V) (q n m : ℕ) : Prop where
  r_norm : p.r_norm = e.r_norm
  r2 : p.r2 = e.r2
  r_normalized : p.r_normalized = e.r_normalized
  sin_β : p.sin_β = e.sin_β
  cos_β : p.cos_β = e.cos_β
  grad_𝔅 : p.grad_𝔅_vector = e.grad_𝔅_vector
  grad_𝔏 : p.grad_𝔏_vector = e.grad_𝔏_vector
  radial : ∀ k, 1 ≤ k → k < q → p.ℜ_over_r k = e.ℜ_over_r k
  trig : ¬z → ∀ k, 1 ≤ k → k < n → p.cos_mL k = e.cos_mL k ∧ p.sin_mL k = e.sin_mL k
  pow : ∀ k, k < n → (¬z ∨ k ≤ 1) → p.cos_β_to_the_m k = e.cos_β_to_the_m k
  rows : ∀ k j, k < n → j ≤ k → (¬z ∨ j ≤ 1) → p.DmPn_of_sin_β k j = e.DmPn_of_sin_β k j
  row : 1 ≤ m → ∀ j, j ≤ m → j ≤ n → p.DmPn_of_sin_β n j = e.DmPn_of_sin_β n j

theorem set_same (D : ℕ → ℕ → ℝ) (n m : ℕ) (x : ℝ) : set D n m x n m = x := by simp [set]

theorem set_row (D : ℕ → ℕ → ℝ) (n m : ℕ) (x : ℝ) {j : ℕ} (h : j ≠ m) : set D n m x n j = D n j := by simp [set, h]

theorem set_other (D : ℕ → ℕ → ℝ) (n m : ℕ) (x : ℝ) {k : ℕ} (h : k ≠ n) (j : ℕ) : set D n m x k j = D k j := by simp [set, h]

/-- The new row of the matrix. -/
noncomputable def nextD (n m : ℕ) (sin_β : ℝ) (D : ℕ → ℕ → ℝ) : ℕ → ℕ → ℝ :=
  let D1 := if m = 0 then set D n 0 (((2 * n - 1) * sin_β * D (n - 1) 0 - (n - 1) * D (n - 2) 0) / n) else D;
  if m + 1 = n then set D1 n (m + 1) ((2 * n - 1) * (m + 1) * D1 (n - 1) m / n)
  else if m + 2 = n then set D1 n (m + 1) ((2 * n - 1) * (sin_β * D1 (n - 1) (m + 1) + (m + 1) * D1 (n - 1) m) / n)
  else set D1 n (m + 1) (((2 * n - 1) * (sin_β * D1 (n - 1) (m + 1) + (m + 1) * D1 (n - 1) m) - (n - 1) * D1 (n - 2) (m + 1)) / n)

theorem updateOrder_lt {n m : ℕ} (h : ¬(n = 2 ∧ m = 1)) (hm : m < n) (p : Precomputations V) : updateOrder n m p = { p with DmPn_of_sin_β := nextD n m p.sin_β p.DmPn_of_sin_β } := by
  unfold updateOrder nextD
  rw [if_neg h]
  simp only [if_neg hm.ne]

theorem updateOrder_21 (p : Precomputations V) : updateOrder 2 1 p = { p with DmPn_of_sin_β := set p.DmPn_of_sin_β 2 2 3 } := by
  unfold updateOrder
  rw [if_pos ⟨rfl, rfl⟩]

theorem updateOrder_eq {n : ℕ} (hn : 2 ≤ n) (p : Precomputations V) : updateOrder n n p =
    { p with
      sin_mL := Function.update p.sin_mL n (if n % 2 = 0 then 2 * p.sin_mL (n / 2) * p.cos_mL (n / 2) else p.sin_mL (n / 2) * p.cos_mL (n - n / 2) + p.cos_mL (n / 2) * p.sin_mL (n - n / 2))
      cos_mL := Function.update p.cos_mL n (if n % 2 = 0 then (p.cos_mL (n / 2) + p.sin_mL (n / 2)) * (p.cos_mL (n / 2) - p.sin_mL (n / 2)) else p.cos_mL (n / 2) * p.cos_mL (n - n / 2) - p.sin_mL (n / 2) * p.sin_mL (n - n / 2))
      cos_β_to_the_m := Function.update p.cos_β_to_the_m n (if n % 2 = 0 then p.cos_β_to_the_m (n / 2) * p.cos_β_to_the_m (n / 2) else p.cos_β_to_the_m (n / 2) * p.cos_β_to_the_m (n - n / 2)) } := by
  unfold updateOrder
  rw [if_neg (by omega)]
  have h0 : n ≠ 0 := by omega
  by_cases h : n % 2 = 0
  · simp only [if_true, h, if_neg h0]
  · simp only [if_true, h, if_neg h0, if_false]

section Exact

variable (R : ℝ) (p : Precomputations V)

theorem exact_row {n m : ℕ} (hn : 2 ≤ n) (hm : m < n) {D : ℕ → ℕ → ℝ}
    (h00 : m = 0 → D (n - 1) 0 = legendreD (n - 1) 0 p.sin_β ∧ D (n - 2) 0 = legendreD (n - 2) 0 p.sin_β)
    (h1 : D (n - 1) m = legendreD (n - 1) m p.sin_β) (h2 : m + 1 < n → D (n - 1) (m + 1) = legendreD (n - 1) (m + 1) p.sin_β)
    (h3 : m + 2 < n → D (n - 2) (m + 1) = legendreD (n - 2) (m + 1) p.sin_β) :
    nextD n m p.sin_β D n (m + 1) = legendreD n (m + 1) p.sin_β ∧ (m = 0 → nextD n m p.sin_β D n 0 = legendreD n 0 p.sin_β) ∧ (∀ j ≠ m + 1, (j = 0 → m ≠ 0) → nextD n m p.sin_β D n j = D n j) ∧
      ∀ k ≠ n, ∀ j, nextD n m p.sin_β D k j = D k j := by
  obtain ⟨k, rfl⟩ : ∃ k, n = k + 2 := ⟨n - 2, by omega⟩
  simp only [Nat.add_sub_cancel, show k + 2 - 1 = k + 1 by omega] at *
  have hk : ((k : ℝ) + 2) ≠ 0 := by positivity
  have eD := legendreD_bonnet_derivative k m p.sin_β
  unfold nextD
  simp only [Nat.add_sub_cancel, show k + 2 - 1 = k + 1 by omega]
  set D1 := (if m = 0 then set D (k + 2) 0 (((2 * ((k + 2 : ℕ) : ℝ) - 1) * p.sin_β * D (k + 1) 0 - (((k + 2 : ℕ) : ℝ) - 1) * D k 0) / ((k + 2 : ℕ) : ℝ)) else D) with hD1
  have o : ∀ k' ≠ k + 2, ∀ j, D1 k' j = D k' j := by
    intro k' hk' j
    rw [hD1]
    by_cases h : m = 0
    · rw [if_pos h, set_other _ _ _ _ hk']
    · rw [if_neg h]
  have o' : ∀ j, (j = 0 → m ≠ 0) → D1 (k + 2) j = D (k + 2) j := by
    intro j hj
    rw [hD1]
    by_cases h : m = 0
    · rw [if_pos h, set_row _ _ _ _ (fun h' => hj h' h)]
    · rw [if_neg h]
  have z : m = 0 → D1 (k + 2) 0 = legendreD (k + 2) 0 p.sin_β := by
    intro h
    rw [hD1, if_pos h, set_same, (h00 h).1, (h00 h).2, div_eq_iff (by push_cast; exact hk)]
    have := legendreD_bonnet k p.sin_β
    push_cast
    linarith
  have main : ∀ x, x = legendreD (k + 2) (m + 1) p.sin_β → set D1 (k + 2) (m + 1) x (k + 2) (m + 1) = legendreD (k + 2) (m + 1) p.sin_β ∧
      (m = 0 → set D1 (k + 2) (m + 1) x (k + 2) 0 = legendreD (k + 2) 0 p.sin_β) ∧ (∀ j ≠ m + 1, (j = 0 → m ≠ 0) → set D1 (k + 2) (m + 1) x (k + 2) j = D (k + 2) j) ∧
      ∀ k' ≠ k + 2, ∀ j, set D1 (k + 2) (m + 1) x k' j = D k' j := by
    intro x hx
    refine ⟨by rw [set_same, hx], fun h => by rw [set_row _ _ _ _ (by omega), z h], fun j hj h => by rw [set_row _ _ _ _ hj, o' j h], fun k' hk' j => by rw [set_other _ _ _ _ hk', o k' hk']⟩
  by_cases c1 : m + 1 = k + 2
  · rw [if_pos c1]
    refine main _ ?_
    rw [o (k + 1) (by omega), h1, div_eq_iff (by push_cast; exact hk)]
    rw [legendreD_vanishes (n := k + 1) (m := m + 1) (by omega), legendreD_vanishes (n := k) (m := m + 1) (by omega)] at eD
    push_cast
    linarith
  · rw [if_neg c1]
    by_cases c2 : m + 2 = k + 2
    · rw [if_pos c2]
      refine main _ ?_
      rw [o (k + 1) (by omega), o (k + 1) (by omega), h1, h2 (by omega), div_eq_iff (by push_cast; exact hk)]
      rw [legendreD_vanishes (n := k) (m := m + 1) (by omega)] at eD
      push_cast
      linarith
    · rw [if_neg c2]
      refine main _ ?_
      rw [o (k + 1) (by omega), o (k + 1) (by omega), o k (by omega), h1, h2 (by omega), h3 (by omega), div_eq_iff (by push_cast; exact hk)]
      push_cast
      linarith

theorem legendreD_two_two (x : ℝ) : legendreD 2 2 x = 3 := by
  have h := legendreD_bonnet_derivative 0 1 x
  rw [legendreD_vanishes (n := 0 + 1) (m := 1 + 1) (by omega), legendreD_vanishes (n := 0) (m := 1 + 1) (by omega), show (0 : ℕ) + 1 = 1 by rfl, legendreD_one_one] at h
  norm_num at h
  linarith

end Exact

variable {z : Prop} {R : ℝ} {p0 : Precomputations V}

/-- One order below the degree. -/
theorem Known.order {p : Precomputations V} {q n m : ℕ} (K : Known z (exact R p0) p q n m) (hn : 2 ≤ n) (hm : m < n) (hz : ¬z ∨ m = 0) : Known z (exact R p0) (updateOrder n m p) q n (m + 1) := by
  by_cases h21 : n = 2 ∧ m = 1
  · obtain ⟨rfl, rfl⟩ := h21
    rw [updateOrder_21]
    refine ⟨K.r_norm, K.r2, K.r_normalized, K.sin_β, K.cos_β, K.grad_𝔅, K.grad_𝔏, K.radial, K.trig, K.pow, fun k j hk hj hz => ?_, fun _ j hj hj2 => ?_⟩
    · show set p.DmPn_of_sin_β 2 2 3 k j = _
      rw [set_other _ _ _ _ (by omega)]
      exact K.rows k j hk hj hz
    · show set p.DmPn_of_sin_β 2 2 3 2 j = _
      by_cases h : j = 2
      · subst h
        rw [set_same]
        exact (legendreD_two_two _).symm
      · rw [set_row _ _ _ _ h]
        exact K.row le_rfl j (by omega) hj2
  · rw [updateOrder_lt h21 hm]
    have hs : p.sin_β = p0.sin_β := K.sin_β
    have hr : ∀ k j, k < n → j ≤ k → (¬z ∨ j ≤ 1) → p.DmPn_of_sin_β k j = legendreD k j p0.sin_β := K.rows
    obtain ⟨a1, a2, a3, a4⟩ := exact_row p0 hn hm (D := p.DmPn_of_sin_β) (fun h => ⟨hr _ _ (by omega) (by omega) (.inr (by omega)), hr _ _ (by omega) (by omega) (.inr (by omega))⟩)
      (hr _ _ (by omega) (by omega) (hz.imp_right (by omega))) (fun h => hr _ _ (by omega) (by omega) (hz.imp_right (by omega))) (fun h => hr _ _ (by omega) (by omega) (hz.imp_right (by omega)))
    rw [← hs] at a1 a2 a3 a4
    refine ⟨K.r_norm, K.r2, K.r_normalized, K.sin_β, K.cos_β, K.grad_𝔅, K.grad_𝔏, K.radial, K.trig, K.pow, fun k j hk hj hz => ?_, fun _ j hj hj2 => ?_⟩
    · show nextD n m p.sin_β p.DmPn_of_sin_β k j = _
      rw [a4 k (by omega)]
      exact K.rows k j hk hj hz
    · show nextD n m p.sin_β p.DmPn_of_sin_β n j = legendreD n j p0.sin_β
      by_cases h : j = m + 1
      · rw [h, a1, hs]
      · by_cases h0 : j = 0 ∧ m = 0
        · rw [h0.1, a2 h0.2, hs]
        · rw [a3 j h (by omega)]
          exact K.row (by omega) j (by omega) hj2

theorem omega_even (ω : ℂ) (h : ℕ) : 2 * (ω ^ h).im * (ω ^ h).re = (ω ^ (h + h)).im ∧ ((ω ^ h).re + (ω ^ h).im) * ((ω ^ h).re - (ω ^ h).im) = (ω ^ (h + h)).re := by
  rw [pow_add, Complex.mul_im, Complex.mul_re]
  constructor <;> ring

/-- The sectoral order. -/
theorem Known.last {p : Precomputations V} {q n : ℕ} (K : Known z (exact R p0) p q n n) (hn : 2 ≤ n) (hz : ¬z) : Known z (exact R p0) (updateOrder n n p) q (n + 1) 0 := by
  rw [updateOrder_eq hn]
  have t := K.trig hz
  have hp : ∀ k, k < n → p.cos_β_to_the_m k = p0.cos_β ^ k := fun k hk => K.pow k hk (.inl hz)
  have ht : ∀ k, 1 ≤ k → k < n → p.cos_mL k = ((⟨p0.cos_mL 1, p0.sin_mL 1⟩ : ℂ) ^ k).re ∧ p.sin_mL k = ((⟨p0.cos_mL 1, p0.sin_mL 1⟩ : ℂ) ^ k).im := K.trig hz
  generalize hω : (⟨p0.cos_mL 1, p0.sin_mL 1⟩ : ℂ) = ω at ht
  have t1 := ht (n / 2) (by omega) (by omega)
  have t2 := ht (n - n / 2) (by omega) (by omega)
  refine ⟨K.r_norm, K.r2, K.r_normalized, K.sin_β, K.cos_β, K.grad_𝔅, K.grad_𝔏, K.radial, fun _ k h1 h2 => ?_, fun k h1 h2 => ?_, fun k j hk hj hz => ?_, fun h => absurd h (by omega)⟩
  · by_cases hk : k = n
    · subst hk
      show Function.update (β := fun _ => ℝ) _ _ _ _ = ((⟨p0.cos_mL 1, p0.sin_mL 1⟩ : ℂ) ^ k).re ∧ Function.update (β := fun _ => ℝ) _ _ _ _ = ((⟨p0.cos_mL 1, p0.sin_mL 1⟩ : ℂ) ^ k).im
      rw [Function.update_self, Function.update_self, hω]
      by_cases he : k % 2 = 0
      · rw [if_pos he, if_pos he, t1.1, t1.2, (omega_even ω (k / 2)).1, (omega_even ω (k / 2)).2, show k / 2 + k / 2 = k by omega]
        exact ⟨rfl, rfl⟩
      · rw [if_neg he, if_neg he, t1.1, t1.2, t2.1, t2.2]
        have : ω ^ k = ω ^ (k / 2) * ω ^ (k - k / 2) := by rw [← pow_add]; congr 1; omega
        rw [this, Complex.mul_re, Complex.mul_im]
        exact ⟨rfl, by ring⟩
    · show Function.update (β := fun _ => ℝ) _ _ _ _ = _ ∧ Function.update (β := fun _ => ℝ) _ _ _ _ = _
      rw [Function.update_of_ne hk, Function.update_of_ne hk]
      exact K.trig hz k h1 (by omega)
  · show Function.update (β := fun _ => ℝ) _ _ _ _ = p0.cos_β ^ k
    by_cases hk : k = n
    · subst hk
      rw [Function.update_self]
      by_cases he : k % 2 = 0
      · rw [if_pos he, hp _ (by omega), ← pow_add]; congr 1; omega
      · rw [if_neg he, hp _ (by omega), hp _ (by omega), ← pow_add]; congr 1; omega
    · rw [Function.update_of_ne hk]
      exact hp k (by omega)
  · by_cases hk' : k = n
    · subst hk'
      exact K.row (by omega) j hj hj
    · exact K.rows k j (by omega) hj hz

/-- The zonal case. -/
theorem Known.zonal {p : Precomputations V} {q n : ℕ} (K : Known z (exact R p0) p q n 1) (hn : 2 ≤ n) (hz : z) : Known z (exact R p0) p q (n + 1) 0 := by
  refine ⟨K.r_norm, K.r2, K.r_normalized, K.sin_β, K.cos_β, K.grad_𝔅, K.grad_𝔏, K.radial, fun h => absurd hz h, fun k h1 h2 => K.pow k (by have := h2.resolve_left (not_not.2 hz); omega) h2, fun k j hk hj h => ?_,
    fun h => absurd h (by omega)⟩
  by_cases hk' : k = n
  · subst hk'
    exact K.row (by omega) j (h.resolve_left (not_not.2 hz)) hj
  · exact K.rows k j (by omega) hj h

theorem updateDegree_eq (n : ℕ) (p : Precomputations V) : updateDegree n p = { p with ℜ_over_r := Function.update p.ℜ_over_r n (p.ℜ_over_r (n / 2) * p.ℜ_over_r (n - n / 2) * p.r2) } := by
  unfold updateDegree
  by_cases h : n % 2 = 0
  · rw [if_pos h]
    have : n - n / 2 = n / 2 := by omega
    rw [this]
  · rw [if_neg h]

/-- The power of the distance. -/
theorem Known.degree {p : Precomputations V} {n : ℕ} (K : Known z (exact R p0) p n n 0) (hn : 2 ≤ n) (hr : p0.r_norm ≠ 0) (hr2 : p0.r2 = p0.r_norm ^ 2) : Known z (exact R p0) (updateDegree n p) (n + 1) n 0 := by
  rw [updateDegree_eq]
  refine ⟨K.r_norm, K.r2, K.r_normalized, K.sin_β, K.cos_β, K.grad_𝔅, K.grad_𝔏, fun k h1 h2 => ?_, K.trig, K.pow, K.rows, K.row⟩
  show Function.update (β := fun _ => ℝ) _ _ _ _ = R ^ k / p0.r_norm ^ (k + 2)
  have hk : ∀ k, 1 ≤ k → k < n → p.ℜ_over_r k = R ^ k / p0.r_norm ^ (k + 2) := K.radial
  by_cases h : k = n
  · subst h
    rw [Function.update_self, hk _ (by omega) (by omega), hk _ (by omega) (by omega), show p.r2 = p0.r_norm ^ 2 from K.r2.trans hr2]
    rw [div_mul_div_comm, ← pow_add, ← pow_add, div_mul_eq_mul_div, div_eq_div_iff (pow_ne_zero _ hr) (pow_ne_zero _ hr), mul_assoc, ← pow_add, show k / 2 + (k - k / 2) = k by omega]
    congr 2
    omega
  · rw [Function.update_of_ne h]
    exact hk k h1 (by omega)

/-! ### The sums -/

/-- What the contribution of a degree and order may use. -/
structure Usable (e p : Precomputations V) (n m : ℕ) : Prop where
  r_norm : p.r_norm = e.r_norm
  sin_β : p.sin_β = e.sin_β
  cos_β : p.cos_β = e.cos_β
  grad_𝔅 : p.grad_𝔅_vector = e.grad_𝔅_vector
  grad_𝔏 : p.grad_𝔏_vector = e.grad_𝔏_vector
  trig : 1 ≤ m → p.cos_mL m = e.cos_mL m ∧ p.sin_mL m = e.sin_mL m
  pow : p.cos_β_to_the_m m = e.cos_β_to_the_m m ∧ p.cos_β_to_the_m (m - 1) = e.cos_β_to_the_m (m - 1)
  poly : p.DmPn_of_sin_β n m = e.DmPn_of_sin_β n m ∧ (m < n → p.DmPn_of_sin_β n (m + 1) = e.DmPn_of_sin_β n (m + 1))

theorem Known.usable {e p : Precomputations V} {q n m : ℕ} (K : Known z e p q n (m + 1)) (hn : 2 ≤ n) (hm : m < n) (hz : ¬z ∨ m = 0) : Usable e p n m :=
  ⟨K.r_norm, K.sin_β, K.cos_β, K.grad_𝔅, K.grad_𝔏, fun h => K.trig (hz.resolve_right (by omega)) m h hm, ⟨K.pow m hm (hz.imp_right (by omega)), K.pow (m - 1) (by omega) (hz.imp_right (by omega))⟩,
    K.row (by omega) m (by omega) hm.le, fun h => K.row (by omega) (m + 1) le_rfl h⟩

theorem Known.usable_last {e p : Precomputations V} {q n : ℕ} (K : Known z e p q (n + 1) 0) (hn : 2 ≤ n) (hz : ¬z) : Usable e p n n :=
  ⟨K.r_norm, K.sin_β, K.cos_β, K.grad_𝔅, K.grad_𝔏, fun h => K.trig hz n h (by omega), ⟨K.pow n (by omega) (.inl hz), K.pow (n - 1) (by omega) (.inl hz)⟩, K.rows n n (by omega) le_rfl (.inl hz), fun h => absurd h (by omega)⟩

variable {ρ W : Type*} [AddCommGroup W]

/-- The contributions only depend on what is usable. -/
def Local (term : ℕ → ℕ → ρ → Precomputations V → W) : Prop := ∀ n m x (e p : Precomputations V), Usable e p n m → term n m x p = term n m x e

theorem potential_local (N : ℕ → ℕ → ℝ) (b : OblateBody V) : Local (orderPotential N b) := by
  intro n m x e p U
  unfold orderPotential
  by_cases h : n = 2 ∧ m = 1
  · rw [if_pos h, if_pos h]
  · rw [if_neg h, if_neg h, U.r_norm, U.pow.1, U.poly.1]
    by_cases h0 : m = 0
    · simp only [if_pos h0]
    · simp only [if_neg h0, (U.trig (by omega)).1, (U.trig (by omega)).2]

theorem acceleration_local (N : ℕ → ℕ → ℝ) (b : OblateBody V) : Local (orderAcceleration N b) := by
  intro n m x e p U
  unfold orderAcceleration
  by_cases h : n = 2 ∧ m = 1
  · rw [if_pos h, if_pos h]
  · rw [if_neg h, if_neg h]
    have hg : (if m < n then p.cos_β * p.cos_β_to_the_m m * p.DmPn_of_sin_β n (m + 1) else 0) = if m < n then e.cos_β * e.cos_β_to_the_m m * e.DmPn_of_sin_β n (m + 1) else 0 := by
      by_cases hm : m < n
      · rw [if_pos hm, if_pos hm, U.cos_β, U.pow.1, U.poly.2 hm]
      · rw [if_neg hm, if_neg hm]
    simp only [hg]
    simp only [U.sin_β, U.cos_β, U.grad_𝔅, U.grad_𝔏, U.pow.1, U.pow.2, U.poly.1]
    by_cases h0 : m = 0
    · subst h0
      simp only [if_true, lt_irrefl, if_false, gt_iff_lt]
    · simp only [if_neg h0, (U.trig (by omega)).1, (U.trig (by omega)).2]

/-- The orders of one degree. -/
theorem orders_eq {term : ℕ → ℕ → ρ → Precomputations V → W} (hl : Local term) {n q : ℕ} (hn : 2 ≤ n) (x : ρ) {p : Precomputations V} (K : Known z (exact R p0) p q n 0) (size : ℕ) (hs : size ≤ n)
    (hz : ¬z ∨ size ≤ 1) :
    ∃ p', Known z (exact R p0) p' q n size ∧ (List.range size).foldl (fun wp m => (wp.1 + term n m x (updateOrder n m wp.2), updateOrder n m wp.2)) ((0 : W), p) = (∑ m ∈ Finset.range size, term n m x (exact R p0), p') := by
  induction size with
  | zero => exact ⟨p, K, by simp⟩
  | succ k ih =>
    obtain ⟨p', K', e⟩ := ih (by omega) (hz.imp_right (by omega))
    have K2 := K'.order hn (by omega) (hz.imp_right (by omega))
    refine ⟨updateOrder n k p', K2, ?_⟩
    rw [List.range_succ, List.foldl_append, e, Finset.sum_range_succ]
    simp only [List.foldl_cons, List.foldl_nil]
    rw [hl n k x _ _ (K2.usable hn (by omega) (hz.imp_right (by omega)))]

/-- All the orders of one degree. -/
theorem orders_all {term : ℕ → ℕ → ρ → Precomputations V → W} (hl : Local term) {n q : ℕ} (hn : 2 ≤ n) (x : ρ) {p : Precomputations V} (K : Known z (exact R p0) p q n 0) (hz : ¬z) :
    ∃ p', Known z (exact R p0) p' q (n + 1) 0 ∧
      (List.range (n + 1)).foldl (fun wp m => (wp.1 + term n m x (updateOrder n m wp.2), updateOrder n m wp.2)) ((0 : W), p) = (∑ m ∈ Finset.range (n + 1), term n m x (exact R p0), p') := by
  obtain ⟨p', K', e⟩ := orders_eq hl hn x K n le_rfl (.inl hz)
  have K2 := K'.last hn hz
  refine ⟨updateOrder n n p', K2, ?_⟩
  rw [List.range_succ, List.foldl_append, e, Finset.sum_range_succ]
  simp only [List.foldl_cons, List.foldl_nil]
  rw [hl n n x _ _ (K2.usable_last hn hz)]

/-- The radial quantities only depend on the norm. -/
def RadialLocal (radial : WithTop ℝ → ℝ → ℝ → Precomputations V → Option ρ) : Prop := ∀ s x y (e p : Precomputations V), p.r_norm = e.r_norm → p.r2 = e.r2 → p.r_normalized = e.r_normalized → radial s x y p = radial s x y e

/-- The threshold for one harmonic. -/
def Damping.inner (d : Damping) (n m : ℕ) : WithTop ℝ := if n = 2 ∧ m = 2 then d.sectoral else d.degrees.getD n ⊤

/-- One degree. -/
theorem degree_eq [Decidable z] {radial : WithTop ℝ → ℝ → ℝ → Precomputations V → Option ρ} {term : ℕ → ℕ → ρ → Precomputations V → W} (hrl : RadialLocal radial) (hl : Local term) (h21 : ∀ x p, term 2 1 x p = 0) (d : Damping) {n : ℕ}
    (hn : 2 ≤ n) (hr : p0.r_norm ≠ 0) (hr2 : p0.r2 = p0.r_norm ^ 2) {p : Precomputations V} (K : Known z (exact R p0) p n n 0) {x : ℕ → ℕ → ρ}
    (hx : ∀ m, m ≤ n → (z → m = 0) → radial (d.inner n m) ((exact R p0).ℜ_over_r n) (-((n : ℝ) + 1) * (exact R p0).ℜ_over_r n) (exact R p0) = some (x n m)) :
    ∃ p', Known z (exact R p0) p' (n + 1) (n + 1) 0 ∧ degreeAllOrders radial term d n (if z then 1 else n + 1) p = some (∑ m ∈ Finset.range (if z then 1 else n + 1), term n m (x n m) (exact R p0), p') := by
  have K1 := K.degree hn hr hr2
  have e1 : (updateDegree n p).ℜ_over_r n = (exact R p0).ℜ_over_r n := K1.radial n (by omega) (by omega)
  have rad : ∀ s p, Known z (exact R p0) p (n + 1) n 0 ∨ (∃ m, Known z (exact R p0) p (n + 1) n m) → radial s ((exact R p0).ℜ_over_r n) (-((n : ℝ) + 1) * (exact R p0).ℜ_over_r n) p =
      radial s ((exact R p0).ℜ_over_r n) (-((n : ℝ) + 1) * (exact R p0).ℜ_over_r n) (exact R p0) := by
    rintro s p (K | ⟨m, K⟩) <;> exact hrl _ _ _ _ _ K.r_norm K.r2 K.r_normalized
  unfold degreeAllOrders
  rw [if_neg (by omega)]
  simp only [e1]
  by_cases hz : z
  · rw [if_pos hz, if_neg (by omega), rad _ _ (.inl K1)]
    have hx0 := hx 0 (by omega) (fun _ => rfl)
    rw [Damping.inner, if_neg (by omega)] at hx0
    rw [hx0]
    obtain ⟨p', K', e⟩ := orders_eq hl hn (x n 0) K1 1 (by omega) (.inr le_rfl)
    refine ⟨p', K'.zonal hn hz, ?_⟩
    rw [Option.map_some]
    refine congrArg some (e.trans ?_)
    simp
  · rw [if_neg hz]
    by_cases h2 : n = 2
    · subst h2
      rw [if_pos ⟨rfl, by omega⟩, rad _ _ (.inl K1)]
      have hx0 := hx 0 (by omega) (fun _ => rfl)
      rw [Damping.inner, if_neg (by omega)] at hx0
      have hx2 := hx 2 le_rfl (fun h => absurd h hz)
      rw [Damping.inner, if_pos ⟨rfl, rfl⟩] at hx2
      rw [hx0, Option.bind_some]
      have K2 := K1.order (m := 0) hn (by omega) (.inl hz)
      have K3 := K2.order (m := 1) hn (by omega) (.inl hz)
      have K4 := K3.last hn hz
      rw [rad _ _ (.inr ⟨_, K2⟩), hx2, Option.bind_some]
      refine ⟨_, K4, ?_⟩
      congr 2
      rw [Finset.sum_range_succ, Finset.sum_range_succ, Finset.sum_range_one, h21, add_zero, hl 2 0 _ _ _ (K2.usable hn (by omega) (.inl hz)), hl 2 2 _ _ _ (K4.usable_last hn hz)]
    · rw [if_neg (by omega), rad _ _ (.inl K1)]
      have hxm : ∀ m, m ≤ n → some (x n m) = some (x n 0) := by
        intro m hm
        have a := hx m hm (fun h => absurd h hz)
        have b := hx 0 (by omega) (fun _ => rfl)
        rw [Damping.inner, if_neg (by omega)] at a b
        rw [← a, ← b]
      have hx0 := hx 0 (by omega) (fun _ => rfl)
      rw [Damping.inner, if_neg (by omega)] at hx0
      rw [hx0]
      obtain ⟨p', K', e⟩ := orders_all hl hn (x n 0) K1 hz
      refine ⟨p', K', ?_⟩
      rw [Option.map_some]
      refine congrArg some (e.trans ?_)
      congr 1
      refine Finset.sum_congr rfl fun m hm => ?_
      rw [Option.some.inj (hxm m (by rw [Finset.mem_range] at hm; omega))]

/-- All the degrees. -/
theorem allDegrees_eq [Decidable z] {radial : WithTop ℝ → ℝ → ℝ → Precomputations V → Option ρ} {term : ℕ → ℕ → ρ → Precomputations V → W} (hrl : RadialLocal radial) (hl : Local term) (h21 : ∀ x p, term 2 1 x p = 0) (d : Damping)
    (hr : p0.r_norm ≠ 0) (hr2 : p0.r2 = p0.r_norm ^ 2) {p : Precomputations V} (K : Known z (exact R p0) p 2 2 0) {x : ℕ → ℕ → ρ} (M : ℕ)
    (hx : ∀ n m, 2 ≤ n → n < M + 2 → m ≤ n → (z → m = 0) → radial (d.inner n m) ((exact R p0).ℜ_over_r n) (-((n : ℝ) + 1) * (exact R p0).ℜ_over_r n) (exact R p0) = some (x n m)) :
    ∃ p', Known z (exact R p0) p' (M + 2) (M + 2) 0 ∧ allDegrees radial term d (fun n => if z then 1 else n + 1) (M + 1) p =
      some (∑ n ∈ Finset.range M, ∑ m ∈ Finset.range (if z then 1 else (n + 2) + 1), term (n + 2) m (x (n + 2) m) (exact R p0), p') := by
  induction M with
  | zero =>
    refine ⟨p, K, ?_⟩
    unfold allDegrees
    simp [List.range_succ, degreeAllOrders]
  | succ M ih =>
    obtain ⟨p', K', e⟩ := ih fun n m h1 h2 h3 h4 => hx n m h1 (by omega) h3 h4
    obtain ⟨p'', K'', e'⟩ := degree_eq hrl hl h21 d (n := M + 2) (by omega) hr hr2 K' (x := x) fun m h1 h2 => hx (M + 2) m (by omega) (by omega) h1 h2
    refine ⟨p'', K'', ?_⟩
    unfold allDegrees at e ⊢
    rw [List.range_succ, List.foldl_append, e, Finset.sum_range_succ]
    simp only [List.foldl_cons, List.foldl_nil, Option.bind_some]
    rw [show M + 1 + 1 = M + 2 from rfl, e']
    rfl

end Principia.Geopotential
