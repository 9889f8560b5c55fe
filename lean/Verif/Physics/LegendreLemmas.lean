import Mathlib.Algebra.Polynomial.Derivative
import Mathlib.Algebra.Polynomial.Eval.Degree
import Mathlib.Algebra.Polynomial.Degree.Lemmas
import Mathlib.Analysis.Calculus.Deriv.Polynomial
import Mathlib.Data.Real.Basic
import Mathlib.Data.Nat.Factorial.Basic
import Mathlib.Tactic.Ring
import Mathlib.Tactic.LinearCombination
import Mathlib.Tactic.FieldSimp
import Mathlib.Tactic.Positivity

/-!
The Legendre polynomials, defined by Rodrigues' formula, and the recurrences that their derivatives obey.
-/

set_option linter.unusedSimpArgs false

namespace Principia.Legendre

open Polynomial

/-- Rodrigues' formula. -/
noncomputable def legendre (n : ℕ) : ℝ[X] := C (1 / (2 ^ n * (n.factorial : ℝ))) * derivative^[n] ((X ^ 2 - 1) ^ n)

/-- An antiderivative of `legendre (n + 1)`. -/
noncomputable def antiderivative (n : ℕ) : ℝ[X] := C (1 / (2 ^ (n + 1) * ((n + 1).factorial : ℝ))) * derivative^[n] ((X ^ 2 - 1) ^ (n + 1))

theorem iterate_X_mul (k : ℕ) (p : ℝ[X]) : derivative^[k + 1] (X * p) = X * derivative^[k + 1] p + C ((k : ℝ) + 1) * derivative^[k] p := by
  induction k generalizing p with
  | zero => simp [derivative_mul]; ring
  | succ k ih =>
    rw [Function.iterate_succ_apply', ih, derivative_add, derivative_mul, derivative_C_mul, ← Function.iterate_succ_apply' derivative (k + 1) p, ← Function.iterate_succ_apply' derivative k p]
    simp only [derivative_X, one_mul, map_add, map_one, Nat.cast_add, Nat.cast_one]
    ring

theorem iterate_C_mul (k : ℕ) (c : ℝ) (p : ℝ[X]) : derivative^[k] (C c * p) = C c * derivative^[k] p := iterate_derivative_C_mul c p k

theorem derivative_power (n : ℕ) : derivative ((X ^ 2 - 1 : ℝ[X]) ^ (n + 1)) = C (2 * ((n : ℝ) + 1)) * (X * (X ^ 2 - 1) ^ n) := by
  rw [derivative_pow]
  simp only [derivative_sub, derivative_X_pow, derivative_one, sub_zero, Nat.add_sub_cancel, map_mul, map_add, map_one, map_ofNat, Nat.cast_add, Nat.cast_one, map_natCast, Nat.cast_ofNat]
  ring

theorem legendre_next (n : ℕ) : legendre (n + 2) = X * legendre (n + 1) + C ((n : ℝ) + 1) * antiderivative n := by
  unfold legendre antiderivative
  rw [Function.iterate_succ_apply, derivative_power, iterate_C_mul, iterate_X_mul]
  have e : C (1 / (2 ^ (n + 2) * ((n + 2).factorial : ℝ))) * C (2 * (((n + 1 : ℕ) : ℝ) + 1)) = C (1 / (2 ^ (n + 1) * ((n + 1).factorial : ℝ))) := by
    rw [← C_mul]
    congr 1
    rw [Nat.factorial_succ (n + 1)]
    have : ((n + 1).factorial : ℝ) ≠ 0 := by positivity
    have h2 : ((n : ℝ) + 1 + 1) ≠ 0 := by positivity
    push_cast
    field_simp
    ring
  linear_combination (X * derivative^[n + 1] ((X ^ 2 - 1) ^ (n + 1)) + C ((n : ℝ) + 1) * derivative^[n] ((X ^ 2 - 1) ^ (n + 1))) * e

theorem second_derivative_power (n : ℕ) :
    derivative (derivative ((X ^ 2 - 1 : ℝ[X]) ^ (n + 2))) = C (2 * ((n : ℝ) + 2) * (2 * n + 3)) * (X ^ 2 - 1) ^ (n + 1) + C (4 * ((n : ℝ) + 2) * (n + 1)) * (X ^ 2 - 1) ^ n := by
  rw [derivative_power, derivative_C_mul, derivative_mul, derivative_power]
  simp only [derivative_X, map_mul, map_add, map_one, map_ofNat, Nat.cast_add, Nat.cast_one, map_natCast]
  ring

theorem legendre_skip (n : ℕ) : legendre (n + 2) = C (2 * (n : ℝ) + 3) * antiderivative n + legendre n := by
  unfold legendre antiderivative
  rw [Function.iterate_succ_apply, Function.iterate_succ_apply, second_derivative_power, iterate_map_add, iterate_C_mul, iterate_C_mul]
  have f : ∀ k : ℕ, (k.factorial : ℝ) ≠ 0 := fun k => by positivity
  have h1 : (n : ℝ) + 1 ≠ 0 := by positivity
  have h2 : (n : ℝ) + 2 ≠ 0 := by positivity
  have e1 : C (1 / (2 ^ (n + 2) * ((n + 2).factorial : ℝ))) * C (2 * ((n : ℝ) + 2) * (2 * n + 3)) = C (2 * (n : ℝ) + 3) * C (1 / (2 ^ (n + 1) * ((n + 1).factorial : ℝ))) := by
    rw [← C_mul, ← C_mul]
    congr 1
    rw [Nat.factorial_succ (n + 1)]
    have := f (n + 1)
    have h3 : (n : ℝ) + 1 + 1 ≠ 0 := by positivity
    push_cast
    field_simp
    ring
  have e2 : C (1 / (2 ^ (n + 2) * ((n + 2).factorial : ℝ))) * C (4 * ((n : ℝ) + 2) * (n + 1)) = C (1 / (2 ^ n * (n.factorial : ℝ))) := by
    rw [← C_mul]
    congr 1
    rw [Nat.factorial_succ (n + 1), Nat.factorial_succ n]
    have := f n
    have h3 : (n : ℝ) + 1 + 1 ≠ 0 := by positivity
    push_cast
    field_simp
    ring
  linear_combination (derivative^[n] ((X ^ 2 - 1) ^ (n + 1))) * e1 + (derivative^[n] ((X ^ 2 - 1) ^ n)) * e2

theorem legendre_zero : legendre 0 = 1 := by simp [legendre]

theorem legendre_one : legendre 1 = X := by
  unfold legendre
  simp only [Function.iterate_one, pow_one, Nat.factorial_one, Nat.cast_one, mul_one, derivative_sub, derivative_X_pow, derivative_one, sub_zero]
  rw [show (2 : ℕ) - 1 = 1 from rfl, pow_one, ← mul_assoc, ← C_mul]
  norm_num

/-- Bonnet's recurrence. -/
theorem bonnet (n : ℕ) : C ((n : ℝ) + 2) * legendre (n + 2) = C (2 * (n : ℝ) + 3) * (X * legendre (n + 1)) - C ((n : ℝ) + 1) * legendre n := by
  have h1 := legendre_next n
  have h2 := legendre_skip n
  have e : C ((n : ℝ) + 2) = C (2 * (n : ℝ) + 3) - C ((n : ℝ) + 1) := by rw [← C_sub]; congr 1; ring
  rw [e]
  linear_combination C (2 * (n : ℝ) + 3) * h1 - C ((n : ℝ) + 1) * h2

/-- The recurrence for the derivatives. -/
theorem bonnet_derivative (n m : ℕ) : C ((n : ℝ) + 2) * derivative^[m + 1] (legendre (n + 2)) =
    C (2 * (n : ℝ) + 3) * (X * derivative^[m + 1] (legendre (n + 1)) + C ((m : ℝ) + 1) * derivative^[m] (legendre (n + 1))) - C ((n : ℝ) + 1) * derivative^[m + 1] (legendre n) := by
  have h := congrArg (derivative^[m + 1]) (bonnet n)
  rw [iterate_C_mul, iterate_derivative_sub, iterate_C_mul, iterate_C_mul, iterate_X_mul] at h
  exact h

theorem natDegree_legendre (n : ℕ) : (legendre n).natDegree ≤ n := by
  unfold legendre
  refine (natDegree_C_mul_le _ _).trans ?_
  refine (natDegree_iterate_derivative _ _).trans ?_
  have h1 : ((X ^ 2 - 1 : ℝ[X]) ^ n).natDegree ≤ n * 2 := by
    refine natDegree_pow_le.trans (Nat.mul_le_mul_left _ ?_)
    refine (natDegree_sub_le _ _).trans ?_
    simp
  omega

theorem derivative_vanishes {n m : ℕ} (h : n < m) : derivative^[m] (legendre n) = 0 := iterate_derivative_eq_zero ((natDegree_legendre n).trans_lt h)

/-- The `m`-th derivative of the Legendre polynomial of degree `n`, at `x`. -/
noncomputable def legendreD (n m : ℕ) (x : ℝ) : ℝ := (derivative^[m] (legendre n)).eval x

theorem legendreD_vanishes {n m : ℕ} (h : n < m) (x : ℝ) : legendreD n m x = 0 := by rw [legendreD, derivative_vanishes h, eval_zero]

theorem legendreD_bonnet (n : ℕ) (x : ℝ) : ((n : ℝ) + 2) * legendreD (n + 2) 0 x = (2 * (n : ℝ) + 3) * (x * legendreD (n + 1) 0 x) - ((n : ℝ) + 1) * legendreD n 0 x := by
  have h := congrArg (eval x) (bonnet n)
  simpa [legendreD] using h

theorem legendreD_bonnet_derivative (n m : ℕ) (x : ℝ) : ((n : ℝ) + 2) * legendreD (n + 2) (m + 1) x =
    (2 * (n : ℝ) + 3) * (x * legendreD (n + 1) (m + 1) x + ((m : ℝ) + 1) * legendreD (n + 1) m x) - ((n : ℝ) + 1) * legendreD n (m + 1) x := by
  have h := congrArg (eval x) (bonnet_derivative n m)
  simpa only [legendreD, eval_mul, eval_sub, eval_add, eval_C, eval_X] using h

theorem hasDerivAt_legendreD (n m : ℕ) (x : ℝ) : HasDerivAt (legendreD n m) (legendreD n (m + 1) x) x := by
  have h := (derivative^[m] (legendre n)).hasDerivAt x
  rw [← Function.iterate_succ_apply' derivative m (legendre n)] at h
  exact h

theorem legendreD_zero (x : ℝ) : legendreD 0 0 x = 1 := by simp [legendreD, legendre_zero]

theorem legendreD_one (x : ℝ) : legendreD 1 0 x = x := by simp [legendreD, legendre_one]

theorem legendreD_one_one (x : ℝ) : legendreD 1 1 x = 1 := by simp [legendreD, legendre_one]

end Principia.Legendre
