import Verif.Numerics.FiniteDifferenceModel
import Mathlib.Algebra.Polynomial.Taylor
import Mathlib.Algebra.BigOperators.Intervals
import Mathlib.Tactic.Module
import Mathlib.Tactic.Ring
import Mathlib.Tactic.FieldSimp
import Mathlib.Tactic.IntervalCases

/-!
C82: the finite differences.
-/

set_option linter.unusedSimpArgs false
set_option linter.unusedVariables false

namespace Principia.Numerics.FiniteDifferences

noncomputable section

/-- The coefficient of the value of index `i`. -/
def coefficient (n offset i : ℕ) : ℤ := ((numerators.getD (n - 1) []).getD offset []).getD i 0

def denominator (n : ℕ) : ℤ := denominators.getD (n - 1) 0

/-- The whole table: the moments of the coefficients. -/
theorem moments : ∀ n < 10, ∀ offset < n, ∀ k < n, (List.range n).foldl (fun s i => s + coefficient n offset i * ((i : ℤ) - offset) ^ k) 0 = if k = 1 then denominator n else 0 := by
  decide +kernel

theorem central_table : ∀ n < 10, n % 2 = 1 → ∀ i < n, coefficient n ((n - 1) / 2) (n - 1 - i) = - coefficient n ((n - 1) / 2) i := by
  decide +kernel

theorem shape1 : ∀ n < 10, 0 < n → 0 < denominator n ∧ denominators[n - 1]? = some (denominator n) := by
  decide +kernel

theorem shape2 : ∀ n < 10, 0 < n → numerators[n - 1]? = some (numerators.getD (n - 1) []) ∧ (numerators.getD (n - 1) []).length = n := by
  decide +kernel

theorem shape (n : ℕ) (hn' : n < 10) (hn : 0 < n) : 0 < denominator n ∧ denominators[n - 1]? = some (denominator n) ∧ ∀ offset < n,
    numerators[n - 1]? = some (numerators.getD (n - 1) []) ∧ (numerators.getD (n - 1) [])[offset]? = some ((numerators.getD (n - 1) []).getD offset []) := by
  obtain ⟨h1, h2⟩ := shape1 n hn' hn
  obtain ⟨h3, h4⟩ := shape2 n hn' hn
  refine ⟨h1, h2, fun offset ho => ⟨h3, ?_⟩⟩
  generalize numerators.getD (n - 1) [] = t at *
  rw [List.getD_eq_getElem?_getD, List.getElem?_eq_getElem (by omega)]; rfl

section

variable {V : Type} [AddCommGroup V] [Module ℝ V]

theorem foldl_sum {M : Type} [AddCommMonoid M] (n : ℕ) (t : ℕ → M) : (List.range n).foldl (fun s k => s + t k) 0 = ∑ k ∈ Finset.range n, t k := by
  induction n with
  | zero => rfl
  | succ n ih => rw [List.range_succ, List.foldl_append, ih, Finset.sum_range_succ]; rfl

theorem generalSum_aux (row : List ℤ) (values : ℕ → V) (m : ℕ) :
    ((List.range m).foldl (fun (s : ℝ × V) j =>
      let numerator := s.1 + ((row.getD j 0 : ℤ) : ℝ)
      (numerator, s.2 + numerator • (values j - values (j + 1)))) (0, 0)) =
    (∑ k ∈ Finset.range m, ((row.getD k 0 : ℤ) : ℝ),
      ∑ k ∈ Finset.range m, ((row.getD k 0 : ℤ) : ℝ) • values k - (∑ k ∈ Finset.range m, ((row.getD k 0 : ℤ) : ℝ)) • values m) := by
  induction m with
  | zero => simp
  | succ m ih =>
    rw [List.range_succ, List.foldl_append, ih]
    simp only [List.foldl_cons, List.foldl_nil, Finset.sum_range_succ, Prod.mk.injEq, true_and]
    module

theorem generalSum_eq (row : List ℤ) (n : ℕ) (hn : 0 < n) (values : ℕ → V) (h : ∑ k ∈ Finset.range n, ((row.getD k 0 : ℤ) : ℝ) = 0) :
    generalSum row n values = ∑ k ∈ Finset.range n, ((row.getD k 0 : ℤ) : ℝ) • values k := by
  obtain ⟨m, rfl⟩ : ∃ m, n = m + 1 := ⟨n - 1, by omega⟩
  rw [generalSum, Nat.add_sub_cancel, generalSum_aux]
  rw [Finset.sum_range_succ] at h ⊢
  have : ∑ k ∈ Finset.range m, ((row.getD k 0 : ℤ) : ℝ) = - ((row.getD m 0 : ℤ) : ℝ) := by linarith
  rw [this]; module

theorem centralSum_eq (row : List ℤ) (n : ℕ) (hn : n < 10) (hodd : n % 2 = 1) (values : ℕ → V) (h : ∀ i < n, row.getD (n - 1 - i) 0 = - row.getD i 0) :
    centralSum row n values = ∑ k ∈ Finset.range n, ((row.getD k 0 : ℤ) : ℝ) • values k := by
  obtain ⟨m, rfl⟩ : ∃ m, n = 2 * m + 1 := ⟨n / 2, by omega⟩
  rw [centralSum, foldl_sum]
  have e : (2 * m + 1 - 1) / 2 = m := by omega
  have mid : row.getD m 0 = 0 := by
    have := h m (by omega)
    rw [show 2 * m + 1 - 1 - m = m by omega] at this; omega
  have hs : ∑ k ∈ Finset.range (2 * m + 1), ((row.getD k 0 : ℤ) : ℝ) • values k =
      ∑ k ∈ Finset.range m, ((row.getD k 0 : ℤ) : ℝ) • values k + ∑ k ∈ Finset.range m, ((row.getD (2 * m - k) 0 : ℤ) : ℝ) • values (2 * m - k) := by
    rw [show 2 * m + 1 = m + (1 + m) by omega, Finset.sum_range_add, Finset.sum_range_add, Finset.sum_range_one, Nat.add_zero, mid]
    simp only [Int.cast_zero, zero_smul, zero_add]
    congr 1
    rw [← Finset.sum_range_reflect]
    refine Finset.sum_congr rfl fun k hk => ?_
    rw [Finset.mem_range] at hk
    rw [show m + (1 + (m - 1 - k)) = 2 * m - k by omega]
  rw [e, hs, ← Finset.sum_add_distrib]
  refine Finset.sum_congr rfl fun k hk => ?_
  rw [Finset.mem_range] at hk
  have := h k (by omega)
  rw [show 2 * m + 1 - 1 - k = 2 * m - k by omega] at this
  rw [this, show 2 * m + 1 - k - 1 = 2 * m - k by omega]
  push_cast; module

theorem finiteDifference_eq (n : ℕ) (hn : 0 < n) (hn' : n < 10) (values : ℕ → V) (step : ℝ) (hs : step ≠ 0) (offset : ℕ) (ho : offset < n) :
    finiteDifference n values step offset = some (((denominator n : ℝ) * step)⁻¹ • ∑ i ∈ Finset.range n, (coefficient n offset i : ℝ) • values i) := by
  obtain ⟨h1, h2, h3⟩ := shape n hn' hn
  obtain ⟨h4, h5⟩ := h3 offset ho
  have hd : (denominator n : ℝ) * step ≠ 0 := mul_ne_zero (by exact_mod_cast h1.ne') hs
  rw [finiteDifference, if_neg hn.ne']
  simp only [h4, h2, h5, Option.bind_eq_bind, Option.bind_some]
  rw [if_neg hd]
  by_cases hc : n % 2 = 1 ∧ offset = (n - 1) / 2
  · rw [if_pos hc, centralSum_eq _ n hn' hc.1]
    · rfl
    · intro i hi
      have := central_table n hn' hc.1 i hi
      rw [← hc.2] at this
      exact this
  · rw [if_neg hc, generalSum_eq _ n hn]
    · rfl
    · have := moments n hn' offset ho 0 hn
      rw [foldl_sum] at this
      simp only [pow_zero, mul_one] at this
      have := congrArg (fun x : ℤ => (x : ℝ)) this
      simpa [coefficient] using this

theorem moments_real (n : ℕ) (hn' : n < 10) (offset : ℕ) (ho : offset < n) (k : ℕ) (hk : k < n) :
    ∑ i ∈ Finset.range n, (coefficient n offset i : ℝ) * ((i : ℝ) - offset) ^ k = if k = 1 then (denominator n : ℝ) else 0 := by
  have := moments n hn' offset ho k hk
  rw [foldl_sum] at this
  have := congrArg (fun x : ℤ => (x : ℝ)) this
  push_cast at this
  rw [this]

end

/-- The constant of the error of the finite difference. -/
def errorConstant (n offset : ℕ) : ℝ := (∑ i ∈ Finset.range n, |(coefficient n offset i : ℝ)| * |(i : ℝ) - offset| ^ n) / denominator n

/-- C82.  If the values are those at equidistant points of a function that differs from a polynomial of degree at most `n - 1` by at most `M |x - x_offset| ^ n`, as is the case by Taylor's formula
for a function that is `n` times differentiable, then the finite difference differs from the derivative at the point `x_offset` by at most a constant times `M |h| ^ (n - 1)`.  Here `c k`
is the coefficient of `(x - x_offset) ^ k` in the polynomial, so that `c 1` is the derivative at `x_offset`. -/
theorem C82_error {V : Type} [NormedAddCommGroup V] [NormedSpace ℝ V] (n : ℕ) (hn : 0 < n) (hn' : n < 10) (offset : ℕ) (ho : offset < n) (f : ℝ → V) (x₀ h : ℝ) (hh : h ≠ 0) (c : ℕ → V) (hc : n = 1 → c 1 = 0) (M : ℝ)
    (hf : ∀ i : ℕ, i < n → ‖f (x₀ + i * h) - ∑ k ∈ Finset.range n, (x₀ + i * h - (x₀ + offset * h)) ^ k • c k‖ ≤ M * |x₀ + i * h - (x₀ + offset * h)| ^ n) :
    ∃ r, finiteDifference n (fun i => f (x₀ + i * h)) h offset = some r ∧ ‖r - c 1‖ ≤ errorConstant n offset * M * |h| ^ (n - 1) := by
  have hd : (0 : ℝ) < denominator n := by exact_mod_cast (shape n hn' hn).1
  have hh' : 0 < |h| := abs_pos.mpr hh
  refine ⟨_, finiteDifference_eq n hn hn' _ h hh offset ho, ?_⟩
  set R : ℕ → V := fun i => f (x₀ + i * h) - ∑ k ∈ Finset.range n, (x₀ + i * h - (x₀ + offset * h)) ^ k • c k with hR
  have hv : ∀ i : ℕ, f (x₀ + i * h) = ∑ k ∈ Finset.range n, (((i : ℝ) - offset) ^ k * h ^ k) • c k + R i := by
    intro i
    rw [hR]
    have : ∀ k, (x₀ + i * h - (x₀ + offset * h)) ^ k = ((i : ℝ) - offset) ^ k * h ^ k := fun k => by rw [← mul_pow]; congr 1; ring
    simp only [this]; abel
  have hsum : ∑ i ∈ Finset.range n, (coefficient n offset i : ℝ) • ∑ k ∈ Finset.range n, (((i : ℝ) - offset) ^ k * h ^ k) • c k = ((denominator n : ℝ) * h) • c 1 := by
    simp only [Finset.smul_sum, smul_smul]
    rw [Finset.sum_comm]
    have : ∀ k ∈ Finset.range n, ∑ i ∈ Finset.range n, ((coefficient n offset i : ℝ) * (((i : ℝ) - offset) ^ k * h ^ k)) • c k = if k = 1 then ((denominator n : ℝ) * h) • c 1 else 0 := by
      intro k hk
      rw [← Finset.sum_smul]
      have e : ∑ i ∈ Finset.range n, (coefficient n offset i : ℝ) * (((i : ℝ) - offset) ^ k * h ^ k) = (∑ i ∈ Finset.range n, (coefficient n offset i : ℝ) * ((i : ℝ) - offset) ^ k) * h ^ k := by
        rw [Finset.sum_mul]; exact Finset.sum_congr rfl fun i _ => by ring
      rw [e, moments_real n hn' offset ho k (Finset.mem_range.mp hk)]
      by_cases h1 : k = 1
      · rw [if_pos h1, if_pos h1, h1, pow_one]
      · rw [if_neg h1, if_neg h1, zero_mul, zero_smul]
    rw [Finset.sum_congr rfl this]
    by_cases h1 : n = 1
    · subst h1; simp [hc rfl]
    · rw [Finset.sum_ite_eq' (Finset.range n) 1, if_pos (Finset.mem_range.mpr (by omega))]
  have key : ((denominator n : ℝ) * h)⁻¹ • ∑ i ∈ Finset.range n, (coefficient n offset i : ℝ) • f (x₀ + i * h) - c 1 =
      ((denominator n : ℝ) * h)⁻¹ • ∑ i ∈ Finset.range n, (coefficient n offset i : ℝ) • R i := by
    simp only [hv, smul_add, Finset.sum_add_distrib] at hsum ⊢
    rw [hsum, smul_smul, inv_mul_cancel₀ (mul_ne_zero hd.ne' hh), one_smul]; abel
  rw [key, norm_smul, Real.norm_eq_abs, abs_inv, abs_mul, abs_of_pos hd]
  have hb : ‖∑ i ∈ Finset.range n, (coefficient n offset i : ℝ) • R i‖ ≤ (∑ i ∈ Finset.range n, |(coefficient n offset i : ℝ)| * |(i : ℝ) - offset| ^ n) * M * |h| ^ n := by
    refine (norm_sum_le _ _).trans ?_
    rw [Finset.sum_mul, Finset.sum_mul]
    refine Finset.sum_le_sum fun i hi => ?_
    rw [norm_smul, Real.norm_eq_abs]
    have := hf i (Finset.mem_range.mp hi)
    have e : x₀ + i * h - (x₀ + offset * h) = ((i : ℝ) - offset) * h := by ring
    have h2 : ‖R i‖ ≤ M * (|(i : ℝ) - offset| ^ n * |h| ^ n) := by
      rw [← mul_pow]
      have e2 : |(i : ℝ) - offset| * |h| = |x₀ + i * h - (x₀ + offset * h)| := by rw [e, abs_mul]
      rw [e2]; exact this
    calc _ ≤ |(coefficient n offset i : ℝ)| * (M * (|(i : ℝ) - offset| ^ n * |h| ^ n)) := mul_le_mul_of_nonneg_left h2 (abs_nonneg _)
      _ = _ := by ring
  have hpow : |h| ^ n = |h| ^ (n - 1) * |h| := by rw [← pow_succ]; congr 1; omega
  calc _ ≤ ((denominator n : ℝ) * |h|)⁻¹ * ((∑ i ∈ Finset.range n, |(coefficient n offset i : ℝ)| * |(i : ℝ) - offset| ^ n) * M * |h| ^ n) :=
        mul_le_mul_of_nonneg_left hb (by positivity)
    _ = _ := by rw [errorConstant, hpow]; field_simp

/-- The hypotheses of C82_error: the forward difference of the cube with two values, for which the error is of the first order. -/
example (h : ℝ) (h0 : 0 < h) (h1 : h < 1) : ∃ r : ℝ, finiteDifference 2 (fun i => (fun x => x ^ 3) (0 + (i : ℝ) * h)) h 0 = some r ∧ ‖r - 0‖ ≤ errorConstant 2 0 * 1 * |h| ^ 1 := by
  refine C82_error 2 (by norm_num) (by norm_num) 0 (by norm_num) (fun x : ℝ => x ^ 3) 0 h h0.ne' (fun _ => 0) (by norm_num) 1 ?_
  intro i hi
  obtain rfl | rfl : i = 0 ∨ i = 1 := by omega
  · simp
  · simp [abs_of_pos h0]
    nlinarith [pow_pos h0 2]

/-- C82.  For a polynomial of degree at most `n - 1`, the finite difference is the derivative. -/
theorem C82_exact (n : ℕ) (hn : 0 < n) (hn' : n < 10) (offset : ℕ) (ho : offset < n) (p : Polynomial ℝ) (hp : p.natDegree < n) (x₀ h : ℝ) (hh : h ≠ 0) :
    finiteDifference n (fun i => p.eval (x₀ + i * h)) h offset = some ((Polynomial.derivative p).eval (x₀ + offset * h)) := by
  have hd : (denominator n : ℝ) ≠ 0 := by exact_mod_cast (shape n hn' hn).1.ne'
  rw [finiteDifference_eq n hn hn' _ h hh offset ho]
  congr 1
  set x := x₀ + offset * h with hx
  set q := Polynomial.taylor x p with hq
  have hv : ∀ i : ℕ, p.eval (x₀ + i * h) = ∑ k ∈ Finset.range n, q.coeff k * (((i : ℝ) - offset) ^ k * h ^ k) := by
    intro i
    have : p.eval (x₀ + i * h) = q.eval (((i : ℝ) - offset) * h) := by
      rw [hq, Polynomial.taylor_eval]; congr 1; rw [hx]; ring
    rw [this, Polynomial.eval_eq_sum_range' (by rw [hq, Polynomial.natDegree_taylor]; exact hp)]
    simp only [mul_pow]
  have h1 : (Polynomial.derivative p).eval x = q.coeff 1 := by rw [hq, Polynomial.taylor_coeff_one]
  simp only [hv, smul_eq_mul, Finset.mul_sum]
  rw [h1, Finset.sum_comm]
  have : ∀ k ∈ Finset.range n, ∑ i ∈ Finset.range n, ((denominator n : ℝ) * h)⁻¹ * ((coefficient n offset i : ℝ) * (q.coeff k * (((i : ℝ) - offset) ^ k * h ^ k))) = if k = 1 then q.coeff 1 else 0 := by
    intro k hk
    have e : ∑ i ∈ Finset.range n, ((denominator n : ℝ) * h)⁻¹ * ((coefficient n offset i : ℝ) * (q.coeff k * (((i : ℝ) - offset) ^ k * h ^ k))) =
        ((denominator n : ℝ) * h)⁻¹ * q.coeff k * h ^ k * ∑ i ∈ Finset.range n, (coefficient n offset i : ℝ) * ((i : ℝ) - offset) ^ k := by
      rw [Finset.mul_sum]; exact Finset.sum_congr rfl fun i _ => by ring
    rw [e, moments_real n hn' offset ho k (Finset.mem_range.mp hk)]
    by_cases h1 : k = 1
    · rw [if_pos h1, if_pos h1, h1]; field_simp
    · rw [if_neg h1, if_neg h1, mul_zero]
  rw [Finset.sum_congr rfl this]
  by_cases h1 : n = 1
  · subst h1
    rw [Finset.sum_range_one, if_neg (by norm_num)]
    exact (Polynomial.coeff_eq_zero_of_natDegree_lt (by rw [hq, Polynomial.natDegree_taylor]; omega)).symm
  · rw [Finset.sum_ite_eq' (Finset.range n) 1, if_pos (Finset.mem_range.mpr (by omega))]

/-- A non-trivial case: the derivative at 1 of the cube, from its values at 0, 1, 2 and 3. -/
example : finiteDifference 4 (fun i => (Polynomial.X ^ 3 : Polynomial ℝ).eval (0 + (i : ℝ) * 1)) 1 1 = some 3 := by
  rw [C82_exact 4 (by norm_num) (by norm_num) 1 (by norm_num) _ (by simp) 0 1 one_ne_zero]
  simp [Polynomial.derivative_X_pow]; norm_num

/-- C82.  For an odd number of values and the central difference, the middle value is unused. -/
theorem C82_central {V : Type} [AddCommGroup V] [Module ℝ V] (m : ℕ) (hm : 2 * m + 1 < 10) (values values' : ℕ → V) (hv : ∀ i, i < 2 * m + 1 → i ≠ m → values i = values' i) (h : ℝ) (hh : h ≠ 0) :
    finiteDifference (2 * m + 1) values h m = finiteDifference (2 * m + 1) values' h m := by
  rw [finiteDifference_eq _ (by omega) hm _ h hh m (by omega), finiteDifference_eq _ (by omega) hm _ h hh m (by omega)]
  congr 2
  refine Finset.sum_congr rfl fun i hi => ?_
  rw [Finset.mem_range] at hi
  by_cases him : i = m
  · have := central_table (2 * m + 1) hm (by omega) m (by omega)
    rw [show 2 * m + 1 - 1 - m = m by omega, show (2 * m + 1 - 1) / 2 = m by omega] at this
    have h0 : coefficient (2 * m + 1) m m = 0 := by omega
    rw [him, h0]; simp
  · rw [hv i hi him]

/-- A step of zero is a division by zero. -/
theorem C82_zero_step {V : Type} [AddCommGroup V] [Module ℝ V] (n : ℕ) (hn : 0 < n) (hn' : n < 10) (values : ℕ → V) (offset : ℕ) (ho : offset < n) : finiteDifference n values 0 offset = none := by
  obtain ⟨h1, h2, h3⟩ := shape n hn' hn
  obtain ⟨h4, h5⟩ := h3 offset ho
  rw [finiteDifference, if_neg hn.ne']
  simp only [h4, h2, h5, Option.bind_eq_bind, Option.bind_some]
  rw [if_pos (mul_zero _)]

end

end Principia.Numerics.FiniteDifferences
