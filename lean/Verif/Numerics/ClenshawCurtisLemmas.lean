import Mathlib.RingTheory.Polynomial.Chebyshev
import Mathlib.Analysis.SpecialFunctions.Trigonometric.Chebyshev.Basic
import Mathlib.Analysis.SpecialFunctions.Integrals.Basic
import Mathlib.MeasureTheory.Integral.IntervalIntegral.FundThmCalculus
import Mathlib.Analysis.Calculus.Deriv.Polynomial
import Mathlib.Topology.Algebra.Polynomial
import Mathlib.Tactic.Ring
import Mathlib.Tactic.FieldSimp
import Mathlib.Tactic.LinearCombination

/-!
The mathematics of the Clenshaw-Curtis quadrature: it integrates exactly the polynomials of low degree.
-/

set_option linter.unusedSimpArgs false
set_option linter.unusedVariables false

namespace Principia.Numerics.Quadrature

open Polynomial

noncomputable section

/-! ## Discrete orthogonality of the cosines -/

theorem sum_cos_aux (θ : ℝ) (M : ℕ) : 2 * Real.sin (θ / 2) * ∑ r ∈ Finset.range M, Real.cos (r * θ) = Real.sin (M * θ - θ / 2) + Real.sin (θ / 2) := by
  induction M with
  | zero => simp
  | succ M ih =>
    rw [Finset.sum_range_succ, mul_add, ih]
    have h1 : Real.sin (((M + 1 : ℕ) : ℝ) * θ - θ / 2) = Real.sin (M * θ + θ / 2) := by congr 1; push_cast; ring
    rw [h1, Real.sin_add, Real.sin_sub]; ring

theorem sum_cos (N m : ℕ) (hN : 0 < N) (hm : 0 < m) (hm' : m < 2 * N) : ∑ r ∈ Finset.range (2 * N), Real.cos (r * (Real.pi * m / N)) = 0 := by
  have hN' : (0 : ℝ) < N := by exact_mod_cast hN
  have h := sum_cos_aux (Real.pi * m / N) (2 * N)
  have e : ((2 * N : ℕ) : ℝ) * (Real.pi * m / N) - Real.pi * m / N / 2 = (m : ℕ) * (2 * Real.pi) - Real.pi * m / N / 2 := by
    push_cast; field_simp
  rw [e, Real.sin_nat_mul_two_pi_sub, neg_add_cancel] at h
  have hs : 0 < Real.sin (Real.pi * m / N / 2) := by
    apply Real.sin_pos_of_pos_of_lt_pi
    · have := Real.pi_pos
      have : (0 : ℝ) < m := by exact_mod_cast hm
      positivity
    · rw [div_div, div_lt_iff₀ (by positivity)]
      have : (m : ℝ) < N * 2 := by rw [mul_comm]; exact_mod_cast hm'
      exact mul_lt_mul_of_pos_left this Real.pi_pos
  rcases mul_eq_zero.mp h with h | h
  · linarith
  · exact h

theorem sum_cos_full (N m : ℕ) (hN : 0 < N) (hm : m = 0 ∨ m = 2 * N) : ∑ r ∈ Finset.range (2 * N), Real.cos (r * (Real.pi * m / N)) = 2 * N := by
  have hN' : (N : ℝ) ≠ 0 := by exact_mod_cast hN.ne'
  have : ∀ r ∈ Finset.range (2 * N), Real.cos (r * (Real.pi * m / N)) = 1 := by
    intro r _
    rcases hm with rfl | rfl
    · simp
    · have e : (r : ℝ) * (Real.pi * (2 * N : ℕ) / N) = r * (2 * Real.pi) := by push_cast; field_simp
      rw [e, Real.cos_nat_mul_two_pi]
  rw [Finset.sum_congr rfl this]; simp

/-- The cosine sum of a cosine. -/
theorem sum_cos_cos (N n k : ℕ) (hN : 0 < N) (hn : n ≤ N) (hk : k ≤ N) :
    (if n = 0 ∨ n = N then (1 : ℝ) else 2) * ∑ r ∈ Finset.range (2 * N), Real.cos (Real.pi * r * n / N) * Real.cos (k * (Real.pi * r / N)) =
      if n = k then 2 * (N : ℝ) else 0 := by
  have hp : ∀ r : ℕ, Real.cos (Real.pi * r * n / N) * Real.cos (k * (Real.pi * r / N)) =
      (Real.cos (r * (Real.pi * ((n + k : ℕ) : ℝ) / N)) + Real.cos (r * (Real.pi * ((max n k - min n k : ℕ) : ℝ) / N))) / 2 := by
    intro r
    have e1 : (r : ℝ) * (Real.pi * ((n + k : ℕ) : ℝ) / N) = Real.pi * r * n / N + k * (Real.pi * r / N) := by push_cast; ring
    rw [e1]
    have e2 : Real.cos ((r : ℝ) * (Real.pi * ((max n k - min n k : ℕ) : ℝ) / N)) = Real.cos (Real.pi * r * n / N - k * (Real.pi * r / N)) := by
      rcases le_total n k with h | h
      · rw [max_eq_right h, min_eq_left h, Nat.cast_sub h, ← Real.cos_neg]; congr 1; ring
      · rw [max_eq_left h, min_eq_right h, Nat.cast_sub h]; congr 1; ring
    rw [e2, Real.cos_add, Real.cos_sub]; ring
  rw [Finset.sum_congr rfl fun r _ => hp r, ← Finset.sum_div, Finset.sum_add_distrib]
  by_cases h : n = k
  · subst h
    rw [if_pos rfl, max_self, min_self, Nat.sub_self, sum_cos_full N 0 hN (Or.inl rfl)]
    by_cases h0 : n = 0 ∨ n = N
    · rw [if_pos h0, sum_cos_full N (n + n) hN (by omega)]; ring
    · rw [if_neg h0, sum_cos N (n + n) hN (by omega) (by omega)]; ring
  · rw [if_neg h, sum_cos N (n + k) hN (by omega) (by omega), sum_cos N (max n k - min n k) hN (by omega) (by omega)]; simp

/-! ## The integral of the Чебышёв polynomials -/

theorem integral_derivative (p : ℝ[X]) (a b : ℝ) : ∫ x in a..b, (derivative p).eval x = p.eval b - p.eval a :=
  intervalIntegral.integral_eq_sub_of_hasDerivAt (fun x _ => p.hasDerivAt x) ((derivative p).continuous.intervalIntegrable _ _)

theorem integral_T (k : ℕ) : ∫ x in (-1 : ℝ)..1, (Chebyshev.T ℝ k).eval x = if Even k then 2 * (1 - (k : ℝ) * k)⁻¹ else 0 := by
  rcases Nat.lt_or_ge k 2 with h | h
  · obtain rfl | rfl : k = 0 ∨ k = 1 := by omega
    · simp; norm_num
    · simp
  · obtain ⟨j, rfl⟩ : ∃ j, k = j + 2 := ⟨k - 2, by omega⟩
    have h1 : ((j : ℝ) + 1) ≠ 0 := by positivity
    have h3 : ((j : ℝ) + 3) ≠ 0 := by positivity
    have hd : Chebyshev.T ℝ ((j + 2 : ℕ) : ℤ) = derivative (C (1 / (2 * ((j : ℝ) + 3))) * Chebyshev.T ℝ (j + 3 : ℤ) - C (1 / (2 * ((j : ℝ) + 1))) * Chebyshev.T ℝ (j + 1 : ℤ)) := by
      rw [derivative_sub, derivative_C_mul, derivative_C_mul, Chebyshev.T_derivative_eq_U, Chebyshev.T_derivative_eq_U]
      have e3 : (((j + 3 : ℤ)) : ℝ[X]) = C ((j : ℝ) + 3) := by rw [C_add, show (C (3 : ℝ)) = (3 : ℝ[X]) from rfl]; simp
      have e1 : (((j + 1 : ℤ)) : ℝ[X]) = C ((j : ℝ) + 1) := by simp
      rw [e3, e1, ← mul_assoc, ← mul_assoc, ← C_mul, ← C_mul]
      have f3 : 1 / (2 * ((j : ℝ) + 3)) * (j + 3) = 1 / 2 := by field_simp
      have f1 : 1 / (2 * ((j : ℝ) + 1)) * (j + 1) = 1 / 2 := by field_simp
      have g3 : (j : ℤ) + 3 - 1 = j + 2 := by ring
      have g1 : (j : ℤ) + 1 - 1 = j := by ring
      rw [f3, f1, g3, g1, ← mul_sub, ← Chebyshev.two_mul_T_eq_U_sub_U, ← mul_assoc]
      have : (C (1 / 2 : ℝ)) * 2 = 1 := by rw [show (2 : ℝ[X]) = C 2 from rfl, ← C_mul]; norm_num
      rw [this, one_mul]; norm_cast
    rw [hd, integral_derivative]
    simp only [eval_sub, eval_mul, eval_C, Chebyshev.T_eval_one, Chebyshev.T_eval_neg_one]
    by_cases he : Even (j + 2)
    · have o : Even (j : ℤ) := by have := (Nat.even_add.mp he).mpr even_two; exact_mod_cast this
      rw [if_pos he, Int.negOnePow_odd _ (by apply Even.add_odd o; decide), Int.negOnePow_odd _ (by apply Even.add_odd o; decide)]
      have h4 : (1 - (((j + 2 : ℕ) : ℝ)) * ((j + 2 : ℕ) : ℝ)) = -((j + 1) * (j + 3)) := by push_cast; ring
      rw [h4]; push_cast; field_simp; ring
    · have o : Odd (j : ℤ) := by
        have : Odd j := by
          rw [← Nat.not_even_iff_odd]; intro h; exact he (h.add even_two)
        exact_mod_cast this
      rw [if_neg he, Int.negOnePow_even _ (by apply Odd.add_odd o; decide), Int.negOnePow_even _ (by apply Odd.add_odd o; decide)]
      simp

/-! ## The rule on the interval [-1, 1] -/

/-- The sum computed by the quadrature, for values given at the Чебышёв-Lobatto points. -/
def rule (N : ℕ) (a : ℕ → ℝ) : ℝ :=
  (N : ℝ)⁻¹ * ∑ j ∈ Finset.range (N / 2 + 1), (1 - ((2 * j : ℕ) : ℝ) * ((2 * j : ℕ) : ℝ))⁻¹ *
    ((if 2 * j = 0 ∨ 2 * j = N then (1 : ℝ) else 2) * ∑ r ∈ Finset.range (2 * N), Real.cos (Real.pi * r * ((2 * j : ℕ) : ℝ) / N) * a r)

theorem rule_add (N : ℕ) (a b : ℕ → ℝ) : rule N (fun r => a r + b r) = rule N a + rule N b := by
  simp only [rule, mul_add, Finset.sum_add_distrib]

theorem rule_smul (N : ℕ) (c : ℝ) (a : ℕ → ℝ) : rule N (fun r => c * a r) = c * rule N a := by
  simp only [rule, Finset.mul_sum]
  refine Finset.sum_congr rfl fun j _ => Finset.sum_congr rfl fun r _ => ?_
  ring

theorem rule_T (N k : ℕ) (hN : 0 < N) (hk : k ≤ N) : rule N (fun r => (Chebyshev.T ℝ k).eval (Real.cos (Real.pi * r / N))) = ∫ x in (-1 : ℝ)..1, (Chebyshev.T ℝ k).eval x := by
  have hN' : (N : ℝ) ≠ 0 := by exact_mod_cast hN.ne'
  rw [integral_T, rule]
  have e : ∀ j ∈ Finset.range (N / 2 + 1), (1 - ((2 * j : ℕ) : ℝ) * ((2 * j : ℕ) : ℝ))⁻¹ *
      ((if 2 * j = 0 ∨ 2 * j = N then (1 : ℝ) else 2) * ∑ r ∈ Finset.range (2 * N), Real.cos (Real.pi * r * ((2 * j : ℕ) : ℝ) / N) * (Chebyshev.T ℝ k).eval (Real.cos (Real.pi * r / N))) =
      if 2 * j = k then (1 - (k : ℝ) * k)⁻¹ * (2 * N) else 0 := by
    intro j hj
    rw [Finset.mem_range] at hj
    have := sum_cos_cos N (2 * j) k hN (by omega) hk
    simp only [Chebyshev.T_real_cos]
    have c : ∀ r : ℕ, Real.cos (((k : ℤ) : ℝ) * (Real.pi * r / N)) = Real.cos ((k : ℝ) * (Real.pi * r / N)) := fun r => by norm_num
    simp only [c]
    rw [this]
    by_cases h : 2 * j = k
    · rw [if_pos h, if_pos h, h]
    · rw [if_neg h, if_neg h, mul_zero]
  rw [Finset.sum_congr rfl e]
  by_cases he : Even k
  · rw [if_pos he]
    obtain ⟨i, rfl⟩ := he
    rw [Finset.sum_eq_single i]
    · rw [if_pos (by omega)]; field_simp
    · intro j _ hj; rw [if_neg (by omega)]
    · intro h; rw [Finset.mem_range] at h; omega
  · rw [if_neg he, Finset.sum_eq_zero, mul_zero]
    intro j _
    rw [if_neg]
    rintro rfl
    exact he (even_two_mul j)

theorem rule_exact (N : ℕ) (hN : 0 < N) (d : ℕ) (hd : d ≤ N) (q : ℝ[X]) (hq : q.natDegree ≤ d) :
    rule N (fun r => q.eval (Real.cos (Real.pi * r / N))) = ∫ x in (-1 : ℝ)..1, q.eval x := by
  have comb : ∀ (c : ℝ) (k : ℕ) (s : ℝ[X]), k ≤ N → rule N (fun r => s.eval (Real.cos (Real.pi * r / N))) = ∫ x in (-1 : ℝ)..1, s.eval x →
      rule N (fun r => (C c * Chebyshev.T ℝ k + s).eval (Real.cos (Real.pi * r / N))) = ∫ x in (-1 : ℝ)..1, (C c * Chebyshev.T ℝ k + s).eval x := by
    intro c k s hk hs
    simp only [eval_add, eval_mul, eval_C]
    rw [rule_add, rule_smul, rule_T N k hN hk, hs, intervalIntegral.integral_add, intervalIntegral.integral_const_mul]
    · exact (continuous_const.mul (Chebyshev.T ℝ k).continuous).intervalIntegrable _ _
    · exact s.continuous.intervalIntegrable _ _
  have zero : rule N (fun r => (0 : ℝ[X]).eval (Real.cos (Real.pi * r / N))) = ∫ x in (-1 : ℝ)..1, (0 : ℝ[X]).eval x := by
    simp [rule]
  induction d generalizing q with
  | zero =>
    obtain ⟨c, rfl⟩ : ∃ c, q = C c := ⟨_, eq_C_of_natDegree_le_zero hq⟩
    have := comb c 0 0 (by omega) zero
    simpa using this
  | succ d ih =>
    have hT : (Chebyshev.T ℝ ((d + 1 : ℕ) : ℤ)).coeff (d + 1) = 2 ^ d := by
      have h := Chebyshev.leadingCoeff_T ℝ ((d + 1 : ℕ) : ℤ)
      rw [leadingCoeff, Chebyshev.natDegree_T] at h
      have e : (((d + 1 : ℕ) : ℤ)).natAbs = d + 1 := by omega
      rw [e] at h; exact h
    set c := q.coeff (d + 1) / 2 ^ d with hc
    have h1 : (q - C c * Chebyshev.T ℝ ((d + 1 : ℕ) : ℤ)).natDegree ≤ d := by
      rw [natDegree_le_iff_coeff_eq_zero]
      intro m hm
      rw [coeff_sub, coeff_C_mul]
      rcases Nat.lt_or_ge (d + 1) m with h | h
      · rw [coeff_eq_zero_of_natDegree_lt (by omega), coeff_eq_zero_of_natDegree_lt (by rw [Chebyshev.natDegree_T]; omega)]; simp
      · obtain rfl : m = d + 1 := by omega
        rw [hT, hc]; field_simp; simp
    have := comb c (d + 1) _ hd (ih (by omega) _ h1)
    simpa using this

/-- The rule on an arbitrary interval. -/
theorem rule_exact_interval (N : ℕ) (hN : 0 < N) (p : ℝ[X]) (hp : p.natDegree ≤ N) (lower upper : ℝ) :
    (upper - lower) / 2 * rule N (fun r => p.eval (lower + (upper - lower) / 2 * (1 + Real.cos (Real.pi * r / N)))) = ∫ x in lower..upper, p.eval x := by
  set w := (upper - lower) / 2 with hw
  have hq : (p.comp (C (lower + w) + C w * X)).natDegree ≤ N := by
    refine natDegree_comp_le.trans ?_
    have : (C (lower + w) + C w * X : ℝ[X]).natDegree ≤ 1 := by
      rw [add_comm]; exact natDegree_linear_le
    calc p.natDegree * _ ≤ p.natDegree * 1 := Nat.mul_le_mul_left _ this
      _ ≤ N := by omega
  have h := rule_exact N hN N le_rfl _ hq
  have e : ∀ x : ℝ, (p.comp (C (lower + w) + C w * X)).eval x = p.eval ((lower + w) + w * x) := fun x => by simp
  simp only [e] at h
  have e' : ∀ x : ℝ, lower + w * (1 + x) = (lower + w) + w * x := fun x => by ring
  simp only [e', h]
  rw [intervalIntegral.mul_integral_comp_add_mul (f := fun x => p.eval x)]
  congr 1 <;> rw [hw] <;> ring

end

end Principia.Numerics.Quadrature
