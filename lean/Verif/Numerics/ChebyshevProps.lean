import Verif.Numerics.ChebyshevModel
import Mathlib.RingTheory.Polynomial.Chebyshev
import Mathlib.Analysis.SpecialFunctions.Trigonometric.Chebyshev.Basic
import Mathlib.Analysis.SpecialFunctions.Trigonometric.Chebyshev.RootsExtrema
import Mathlib.Analysis.Calculus.Deriv.Polynomial
import Mathlib.Analysis.Calculus.Deriv.Mul
import Mathlib.Analysis.Calculus.Deriv.Add
import Mathlib.Analysis.Calculus.Deriv.Comp
import Mathlib.LinearAlgebra.Matrix.Notation
import Mathlib.Algebra.BigOperators.Field
import Mathlib.LinearAlgebra.Eigenspace.Matrix
import Mathlib.LinearAlgebra.Eigenspace.Minpoly
import Mathlib.Tactic.FieldSimp
import Mathlib.Tactic.Module
import Mathlib.Tactic.LinearCombination

/-!
C39: the polynomials in the Чебышёв basis: their values, their derivatives and their roots.
-/

set_option linter.unusedSimpArgs false
set_option linter.unusedVariables false
set_option linter.unusedSectionVars false

namespace Principia.Numerics.Chebyshev

open Polynomial

noncomputable section

/-- The argument scaled so that the bounds are -1 and 1. -/
def scale (lower upper t : ℝ) : ℝ := (2 * t - (lower + upper)) / (upper - lower)

/-- The sum of the series with the given coefficients, over the given interval. -/
def series {V : Type} [AddCommGroup V] [Module ℝ V] {degree : ℕ} (c : Fin (degree + 1) → V) (lower upper t : ℝ) : V :=
  ∑ k : Fin (degree + 1), (Chebyshev.T ℝ k).eval (scale lower upper t) • c k

section Vector

variable {V : Type} [AddCommGroup V] [Module ℝ V] {degree : ℕ}

/-- The coefficients, followed by zeroes. -/
def ext (c : Fin (degree + 1) → V) (k : ℕ) : V := if h : k < degree + 1 then c ⟨k, h⟩ else 0

theorem coefficient_eq (p : Poly V degree) (k : ℕ) (hk : k ≤ degree) : p.coefficient k = some (ext p.coefficients k) := by
  rw [Poly.coefficient, ext, dif_pos (by omega), dif_pos (by omega)]

theorem sum_fin (c : Fin (degree + 1) → V) (f : ℕ → ℝ) : ∑ k : Fin (degree + 1), f k • c k = ∑ k ∈ Finset.range (degree + 1), f k • ext c k := by
  rw [← Fin.sum_univ_eq_sum_range (fun k => f k • ext c k)]
  refine Finset.sum_congr rfl fun k _ => ?_
  rw [ext, dif_pos k.2]

theorem T_step (x : ℝ) (k : ℕ) :
    (Chebyshev.T ℝ ((k + 1 + 1 : ℕ) : ℤ)).eval x = (x + x) * (Chebyshev.T ℝ ((k + 1 : ℕ) : ℤ)).eval x - (Chebyshev.T ℝ (k : ℤ)).eval x := by
  have h := Chebyshev.T_add_two ℝ (k : ℤ)
  have e : ((k + 1 + 1 : ℕ) : ℤ) = (k : ℤ) + 2 := by push_cast; ring
  rw [e, h]
  simp only [eval_sub, eval_mul, eval_ofNat, eval_X]
  push_cast
  ring

theorem U_step (x : ℝ) (k : ℕ) :
    (Chebyshev.U ℝ ((k + 1 + 1 : ℕ) : ℤ)).eval x = (x + x) * (Chebyshev.U ℝ ((k + 1 : ℕ) : ℤ)).eval x - (Chebyshev.U ℝ (k : ℤ)).eval x := by
  have h := Chebyshev.U_add_two ℝ (k : ℤ)
  have e : ((k + 1 + 1 : ℕ) : ℤ) = (k : ℤ) + 2 := by push_cast; ring
  rw [e, h]
  simp only [eval_sub, eval_mul, eval_ofNat, eval_X]
  push_cast
  ring

theorem evaluateLoop_eq (p : Poly V degree) (x : ℝ) (k : ℕ) (hk : k ≤ degree) (b1 b2 : V) :
    ∃ b1' b2', p.evaluateLoop (x + x) k b1 b2 = some (b1', b2') ∧
      ext p.coefficients 0 + x • b1' - b2' = ∑ j ∈ Finset.range (k + 1), (Chebyshev.T ℝ (j : ℤ)).eval x • ext p.coefficients j +
        (Chebyshev.T ℝ ((k + 1 : ℕ) : ℤ)).eval x • b1 - (Chebyshev.T ℝ (k : ℤ)).eval x • b2 := by
  induction k generalizing b1 b2 with
  | zero => exact ⟨b1, b2, rfl, by simp⟩
  | succ k ih =>
    rw [Poly.evaluateLoop, coefficient_eq p _ hk]
    obtain ⟨b1', b2', h1, h2⟩ := ih (by omega) (ext p.coefficients (k + 1) + (x + x) • b1 - b2) b1
    refine ⟨b1', b2', h1, ?_⟩
    rw [h2, Finset.sum_range_succ _ (k + 1), T_step]
    module

theorem derivativeLoop_eq (p : Poly V degree) (x : ℝ) (k : ℕ) (hk : k + 1 ≤ degree) (b1 b2 : V) :
    ∃ b1' b2', p.derivativeLoop (x + x) k b1 b2 = some (b1', b2') ∧
      ext p.coefficients 1 + (x + x) • b1' - b2' = ∑ j ∈ Finset.range (k + 1), (((j + 1 : ℕ) : ℝ) * (Chebyshev.U ℝ (j : ℤ)).eval x) • ext p.coefficients (j + 1) +
        (Chebyshev.U ℝ ((k + 1 : ℕ) : ℤ)).eval x • b1 - (Chebyshev.U ℝ (k : ℤ)).eval x • b2 := by
  induction k generalizing b1 b2 with
  | zero => exact ⟨b1, b2, rfl, by simp; module⟩
  | succ k ih =>
    rw [Poly.derivativeLoop, coefficient_eq p _ hk]
    obtain ⟨b1', b2', h1, h2⟩ := ih (by omega) (((k + 1 + 1 : ℕ) : ℝ) • ext p.coefficients (k + 1 + 1) + (x + x) • b1 - b2) b1
    refine ⟨b1', b2', h1, ?_⟩
    rw [h2, Finset.sum_range_succ _ (k + 1), U_step]
    module

theorem construct_spec (c : Fin (degree + 1) → V) {lower upper : ℝ} (h : lower < upper) :
    ∃ p, construct c lower upper = some p ∧ p.coefficients = c ∧ p.lowerBound = lower ∧ p.upperBound = upper ∧ p.oneOverWidth = 1 / (upper - lower) := by
  have : upper - lower ≠ 0 := by linarith [sub_pos.2 h]
  exact ⟨_, by rw [construct]; simp only [if_neg this]; rfl, rfl, rfl, rfl, rfl⟩

theorem scale_mem {lower upper t : ℝ} (h : lower < upper) (h1 : lower ≤ t) (h2 : t ≤ upper) : -1 ≤ scale lower upper t ∧ scale lower upper t ≤ 1 := by
  have : 0 < upper - lower := sub_pos.2 h
  rw [scale, div_le_iff₀ this, le_div_iff₀ this]
  constructor <;> linarith

theorem scaledArgument_eq (p : Poly V degree) {lower upper t : ℝ} (hl : p.lowerBound = lower) (hu : p.upperBound = upper) (ho : p.oneOverWidth = 1 / (upper - lower))
    (h : lower < upper) (h1 : lower ≤ t) (h2 : t ≤ upper) : p.scaledArgument t = some (scale lower upper t) := by
  have e : ((t - p.upperBound) + (t - p.lowerBound)) * p.oneOverWidth = scale lower upper t := by
    rw [hl, hu, ho, scale]; ring
  obtain ⟨a, b⟩ := scale_mem h h1 h2
  rw [Poly.scaledArgument]
  simp only [e]
  rw [if_pos ⟨by linarith, by linarith⟩]

theorem evaluate_eq (p : Poly V degree) (t x : ℝ) (hx : p.scaledArgument t = some x) :
    p.evaluate t = some (∑ k : Fin (degree + 1), (Chebyshev.T ℝ (k : ℕ)).eval x • p.coefficients k) := by
  rw [sum_fin p.coefficients fun k => (Chebyshev.T ℝ (k : ℤ)).eval x]
  match degree, p with
  | 0, p =>
    rw [Poly.evaluate, hx, coefficient_eq p 0 (Nat.zero_le _)]
    simp
  | 1, p =>
    rw [Poly.evaluate, hx, coefficient_eq p 0 (Nat.zero_le _)]
    simp [coefficient_eq p 1 le_rfl, Finset.sum_range_succ]
  | n + 2, p =>
    rw [Poly.evaluate, hx, coefficient_eq p 0 (Nat.zero_le _)]
    obtain ⟨b1, b2, h1, h2⟩ := evaluateLoop_eq p x n (by omega) (ext p.coefficients (n + 1) + (x + x) • ext p.coefficients (n + 2)) (ext p.coefficients (n + 2))
    have h1' : p.evaluateLoop (x + x) (n + 2 - 2) (ext p.coefficients (n + 2 - 1) + (x + x) • ext p.coefficients (n + 2)) (ext p.coefficients (n + 2)) = some (b1, b2) := h1
    simp only [Option.bind_eq_bind, Option.bind_some, coefficient_eq p (n + 2) le_rfl, coefficient_eq p (n + 2 - 1) (by omega), h1', Option.pure_def, h2]
    congr 1
    rw [Finset.sum_range_succ _ (n + 2), Finset.sum_range_succ _ (n + 1), T_step]
    module

theorem evaluateDerivative_eq {n : ℕ} (p : Poly V (n + 1)) (t x : ℝ) (hx : p.scaledArgument t = some x) :
    p.evaluateDerivative t = some ((p.oneOverWidth + p.oneOverWidth) • ∑ k : Fin (n + 1 + 1), (derivative (Chebyshev.T ℝ (k : ℕ))).eval x • p.coefficients k) := by
  rw [sum_fin p.coefficients fun k => (derivative (Chebyshev.T ℝ (k : ℤ))).eval x]
  obtain ⟨b1, b2, h1, h2⟩ := derivativeLoop_eq p x n le_rfl 0 0
  have h1' : p.derivativeLoop (x + x) (n + 1 - 1) 0 0 = some (b1, b2) := h1
  rw [Poly.evaluateDerivative, hx]
  simp only [Option.bind_eq_bind, Option.bind_some, h1', coefficient_eq p 1 (by omega), Option.pure_def, h2]
  congr 2
  rw [Finset.sum_range_succ' _ (n + 1)]
  simp only [smul_zero, add_zero, sub_zero, Nat.cast_zero, Chebyshev.T_zero, derivative_one, eval_zero, zero_smul]
  refine Finset.sum_congr rfl fun k _ => ?_
  rw [Chebyshev.T_derivative_eq_U]
  congr 1
  have e : ((k + 1 : ℕ) : ℤ) - 1 = k := by push_cast; ring
  rw [e]
  simp

/-- C39.  Within its bounds, the value of a polynomial is the sum of its series. -/
theorem C39_value (c : Fin (degree + 1) → V) (lower upper t : ℝ) (h : lower < upper) (h1 : lower ≤ t) (h2 : t ≤ upper) :
    ∃ p, construct c lower upper = some p ∧ p.evaluate t = some (series c lower upper t) := by
  obtain ⟨p, hp, rfl, hl, hu, ho⟩ := construct_spec c h
  exact ⟨p, hp, evaluate_eq p t _ (scaledArgument_eq p hl hu ho h h1 h2)⟩

/-- C39.  The derivative of a polynomial of degree 0 reads past the end of the coefficients. -/
theorem C39_derivative_counterexample (p : Poly V 0) (t : ℝ) : p.evaluateDerivative t = none := by
  rw [Poly.evaluateDerivative]
  cases p.scaledArgument t with
  | none => rfl
  | some x => simp [Poly.derivativeLoop, Poly.coefficient]

end Vector

/-- C39.  For a polynomial that is not of degree 0, the derivative is the derivative of the sum of the series. -/
theorem C39_derivative {V : Type} [NormedAddCommGroup V] [NormedSpace ℝ V] {degree : ℕ} (hd : degree ≠ 0) (c : Fin (degree + 1) → V) (lower upper t : ℝ) (h : lower < upper)
    (h1 : lower ≤ t) (h2 : t ≤ upper) :
    ∃ p v, construct c lower upper = some p ∧ p.evaluateDerivative t = some v ∧ HasDerivAt (series c lower upper) v t := by
  obtain ⟨n, rfl⟩ := Nat.exists_eq_succ_of_ne_zero hd
  obtain ⟨p, hp, rfl, hl, hu, ho⟩ := construct_spec c h
  refine ⟨p, _, hp, evaluateDerivative_eq p t _ (scaledArgument_eq p hl hu ho h h1 h2), ?_⟩
  have hs : HasDerivAt (scale lower upper) (p.oneOverWidth + p.oneOverWidth) t := by
    have : HasDerivAt (fun t => (2 * t - (lower + upper)) / (upper - lower)) ((2 * 1) / (upper - lower)) t :=
      (((hasDerivAt_id t).const_mul 2).sub_const _).div_const _
    refine this.congr_deriv ?_
    rw [ho]; ring
  have : HasDerivAt (fun t => ∑ k : Fin (n + 1 + 1), (Chebyshev.T ℝ (k : ℕ)).eval (scale lower upper t) • p.coefficients k)
      (∑ k : Fin (n + 1 + 1), ((derivative (Chebyshev.T ℝ (k : ℕ))).eval (scale lower upper t) * (p.oneOverWidth + p.oneOverWidth)) • p.coefficients k) t := by
    refine HasDerivAt.fun_sum fun k _ => ?_
    exact (((Chebyshev.T ℝ (k : ℕ)).hasDerivAt _).comp t hs).smul_const _
  refine this.congr_deriv ?_
  rw [Finset.smul_sum]
  refine Finset.sum_congr rfl fun k _ => ?_
  rw [smul_smul, mul_comm]

example : ∃ p v, construct ![(1 : ℝ), 2, 3] 0 4 = some p ∧ p.evaluate 3 = some (1 / 2) ∧ p.evaluateDerivative 3 = some v ∧ HasDerivAt (series ![(1 : ℝ), 2, 3] 0 4) v 3 := by
  obtain ⟨p, hp, h⟩ := C39_value ![(1 : ℝ), 2, 3] 0 4 3 (by norm_num) (by norm_num) (by norm_num)
  obtain ⟨p', v, hp', hv, hd⟩ := C39_derivative (by norm_num) ![(1 : ℝ), 2, 3] 0 4 3 (by norm_num) (by norm_num) (by norm_num)
  obtain rfl : p = p' := by rw [hp] at hp'; exact Option.some.inj hp'
  refine ⟨p, v, hp, ?_, hv, hd⟩
  rw [h, series, Fin.sum_univ_three, scale]
  simp [Chebyshev.T_two]
  norm_num

/-! ## Roots -/

section Scalar

variable {degree : ℕ}

theorem abs_T_le {x : ℝ} (h1 : -1 ≤ x) (h2 : x ≤ 1) (k : ℤ) : |(Chebyshev.T ℝ k).eval x| ≤ 1 := by
  have e : x = Real.cos (Real.arccos x) := (Real.cos_arccos h1 h2).symm
  rw [e, Chebyshev.T_real_cos]
  exact Real.abs_cos_le_one _

/-- C39.  If a function that is approximated by the polynomial, with an error that is at most the estimate, has a root between the bounds, the test says that there may be roots. -/
theorem C39_may_have_real_roots (c : Fin (degree + 1) → ℝ) (lower upper errorEstimate : ℝ) (h : lower < upper) (f : ℝ → ℝ)
    (hf : ∀ t, lower ≤ t → t ≤ upper → |f t - series c lower upper t| ≤ errorEstimate) (t : ℝ) (h1 : lower ≤ t) (h2 : t ≤ upper) (hr : f t = 0) :
    ∃ p, construct c lower upper = some p ∧ p.mayHaveRealRoots errorEstimate = some true := by
  obtain ⟨p, hp, rfl, hl, hu, ho⟩ := construct_spec c h
  refine ⟨p, hp, ?_⟩
  have hft := hf t h1 h2
  rw [hr, zero_sub, abs_neg] at hft
  have he : 0 ≤ errorEstimate := (abs_nonneg _).trans hft
  rw [Poly.mayHaveRealRoots, if_neg (not_not.2 he)]
  have hB : ((List.range degree).map fun j => if h : j + 1 < degree + 1 then |p.coefficients ⟨j + 1, h⟩| else 0).sum =
      ∑ k : Fin degree, |p.coefficients k.succ| := by
    have e : ((List.range degree).map fun j => if h : j + 1 < degree + 1 then |p.coefficients ⟨j + 1, h⟩| else 0).sum =
      ∑ j ∈ Finset.range degree, if h : j + 1 < degree + 1 then |p.coefficients ⟨j + 1, h⟩| else 0 := rfl
    rw [e, Finset.sum_range]
    refine Finset.sum_congr rfl fun k _ => ?_
    rw [dif_pos (by omega)]
    rfl
  simp only [Option.some.injEq, decide_eq_true_eq, hB]
  obtain ⟨a, b⟩ := scale_mem h h1 h2
  rw [series, Fin.sum_univ_succ] at hft
  simp only [Fin.val_zero, Nat.cast_zero, Chebyshev.T_zero, eval_one, one_smul, smul_eq_mul, one_mul] at hft
  have hle : |∑ k : Fin degree, (Chebyshev.T ℝ (k.succ : ℕ)).eval (scale lower upper t) * p.coefficients k.succ| ≤ ∑ k : Fin degree, |p.coefficients k.succ| := by
    refine (Finset.abs_sum_le_sum_abs _ _).trans (Finset.sum_le_sum fun k _ => ?_)
    rw [abs_mul]
    exact mul_le_of_le_one_left (abs_nonneg _) (abs_T_le a b _)
  have := abs_sub_abs_le_abs_sub (p.coefficients 0) (-∑ k : Fin degree, (Chebyshev.T ℝ (k.succ : ℕ)).eval (scale lower upper t) * p.coefficients k.succ)
  rw [sub_neg_eq_add, abs_neg] at this
  linarith

example : ∃ p, construct (degree := 2) ![(1 : ℝ), 2, 0] 0 4 = some p ∧ p.mayHaveRealRoots 0 = some true :=
  C39_may_have_real_roots ![(1 : ℝ), 2, 0] 0 4 0 (by norm_num) (series ![(1 : ℝ), 2, 0] 0 4) (by simp) 1 (by norm_num) (by norm_num)
    (by rw [series, Fin.sum_univ_three, scale]; simp; norm_num)

/-- The companion matrix, for a function of a natural index. -/
theorem companion_mulVec {n : ℕ} (p : Poly ℝ (n + 2)) (A) (hA : p.frobeniusCompanionMatrix = some A) (v : ℕ → ℝ) (j : Fin (n + 2)) :
    (A.mulVec fun k => v k) j =
      if j.val = n + 1 then (-∑ k : Fin (n + 2), p.coefficients k.castSucc * v k) / (2 * p.coefficients (Fin.last (n + 2))) + v n / 2
      else if j.val = 0 then v 1 else (v (j - 1) + v (j + 1)) / 2 := by
  have ha : p.coefficients (Fin.last (n + 2)) ≠ 0 := by
    intro h
    rw [Poly.frobeniusCompanionMatrix, if_pos h] at hA
    cases hA
  rw [Poly.frobeniusCompanionMatrix, if_neg ha] at hA
  obtain rfl := Option.some.inj hA
  have sum1 : ∀ m, m < n + 2 → ∑ k : Fin (n + 2), (if m = k.val then (1 : ℝ) else 0) * v k = v m := by
    intro m hm
    rw [Finset.sum_eq_single (⟨m, hm⟩ : Fin (n + 2))]
    · simp
    · intro b _ hb
      rw [if_neg, zero_mul]
      intro h; exact hb (Fin.ext h.symm)
    · simp
  simp only [Matrix.mulVec, dotProduct]
  by_cases c1 : j.val = n + 1
  · rw [if_pos c1]
    have : ∀ k : Fin (n + 2), (if j.val + 1 = n + 2 then p.companionLast k
        else if j.val + 1 = 1 then kroneckerDelta 2 (k.val + 1)
        else 0.5 * (kroneckerDelta (j.val + 1) (k.val + 1 + 1) + kroneckerDelta (j.val + 1) (k.val + 1 - 1))) * v k =
        -(p.coefficients k.castSucc * v k) / (2 * p.coefficients (Fin.last (n + 2))) + (if n = k.val then (1 : ℝ) else 0) * v k / 2 := by
      intro k
      rw [if_pos (by omega), Poly.companionLast]
      have e : kroneckerDelta (k.val + 1) (n + 2 - 1) = if n = k.val then (1 : ℝ) else 0 := by
        rw [kroneckerDelta]
        exact if_congr ⟨fun h => by omega, fun h => by omega⟩ rfl rfl
      simp only [e]
      ring
    rw [Finset.sum_congr rfl fun k _ => this k, Finset.sum_add_distrib, ← Finset.sum_div, ← Finset.sum_div, sum1 n (by omega), Finset.sum_neg_distrib]
  · rw [if_neg c1]
    by_cases c2 : j.val = 0
    · rw [if_pos c2, ← sum1 1 (by omega)]
      refine Finset.sum_congr rfl fun k _ => ?_
      rw [if_neg (by omega), if_pos (by omega), kroneckerDelta]
      congr 1
      exact if_congr ⟨fun h => by omega, fun h => by omega⟩ rfl rfl
    · have hj := j.2
      rw [if_neg c2, add_div, ← sum1 (j - 1) (by omega), ← sum1 (j + 1) (by omega), Finset.sum_div, Finset.sum_div, ← Finset.sum_add_distrib]
      refine Finset.sum_congr rfl fun k _ => ?_
      rw [if_neg (by omega), if_neg (by omega)]
      have e1 : kroneckerDelta (j.val + 1) (k.val + 1 + 1) = if j.val - 1 = k.val then (1 : ℝ) else 0 := by
        rw [kroneckerDelta]
        exact if_congr ⟨fun h => by omega, fun h => by omega⟩ rfl rfl
      have e2 : kroneckerDelta (j.val + 1) (k.val + 1 - 1) = if j.val + 1 = k.val then (1 : ℝ) else 0 := by
        rw [kroneckerDelta]
        exact if_congr ⟨fun h => by omega, fun h => by omega⟩ rfl rfl
      rw [e1, e2]
      ring

/-- C39.  For a polynomial of degree 2 or more, whose leading coefficient is not zero, the (real) eigenvalues of the companion matrix are the roots of the polynomial with respect to the scaled
argument. -/
theorem C39_companion {n : ℕ} (p : Poly ℝ (n + 2)) (ha : p.coefficients (Fin.last (n + 2)) ≠ 0) :
    ∃ A, p.frobeniusCompanionMatrix = some A ∧
      ∀ x : ℝ, (∃ v : Fin (n + 2) → ℝ, v ≠ 0 ∧ A.mulVec v = x • v) ↔ ∑ k : Fin (n + 2 + 1), (Chebyshev.T ℝ (k : ℕ)).eval x * p.coefficients k = 0 := by
  obtain ⟨A, hA⟩ : ∃ A, p.frobeniusCompanionMatrix = some A := by
    rw [Poly.frobeniusCompanionMatrix, if_neg ha]
    exact ⟨_, rfl⟩
  refine ⟨A, hA, fun x => ?_⟩
  have key := companion_mulVec p A hA
  set T : ℕ → ℝ := fun k => (Chebyshev.T ℝ (k : ℤ)).eval x with hT
  have T0 : T 0 = 1 := by simp [hT]
  have T1 : T 1 = x := by simp [hT]
  have Ts : ∀ k, T (k + 2) = (x + x) * T (k + 1) - T k := fun k => T_step x k
  have hsum : ∑ k : Fin (n + 2 + 1), (Chebyshev.T ℝ (k : ℕ)).eval x * p.coefficients k =
      ∑ k : Fin (n + 2), p.coefficients k.castSucc * T k + T (n + 2) * p.coefficients (Fin.last (n + 2)) := by
    rw [Fin.sum_univ_castSucc]
    congr 1
    exact Finset.sum_congr rfl fun k _ => mul_comm _ _
  rw [hsum]
  constructor
  · rintro ⟨v, hv, hAv⟩
    set w : ℕ → ℝ := fun k => if h : k < n + 2 then v ⟨k, h⟩ else 0 with hw
    have hvw : v = fun k : Fin (n + 2) => w k := by
      funext k; simp [hw]
    rw [hvw] at hAv
    have rows : ∀ j : Fin (n + 2), _ := fun j => (key w j).symm.trans (congrFun hAv j)
    have hwT : ∀ k, k + 1 < n + 2 → w k = w 0 * T k ∧ w (k + 1) = w 0 * T (k + 1) := by
      intro k
      induction k with
      | zero =>
        intro hk
        have := rows ⟨0, by omega⟩
        rw [if_neg (by simp), if_pos rfl] at this
        refine ⟨by rw [T0, mul_one], ?_⟩
        rw [this, T1]
        show x * w 0 = _
        ring
      | succ k ih =>
        intro hk
        obtain ⟨i1, i2⟩ := ih (by omega)
        refine ⟨i2, ?_⟩
        have := rows ⟨k + 1, by omega⟩
        rw [if_neg (by simp; omega), if_neg (by simp)] at this
        have this : (w k + w (k + 1 + 1)) / 2 = x * w (k + 1) := this
        rw [i1, i2] at this
        rw [Ts k]
        linear_combination 2 * this
    have hw0 : w 0 ≠ 0 := by
      intro h0
      apply hv
      funext k
      rw [hvw]
      show w k = 0
      rcases Nat.lt_or_ge (k.val + 1) (n + 2) with c | c
      · rw [(hwT k c).1, h0, zero_mul]
      · have e : k.val = n + 1 := by have := k.2; omega
        rw [e, (hwT n (by omega)).2, h0, zero_mul]
    have hwT' : ∀ k : Fin (n + 2), w k = w 0 * T k := by
      intro k
      rcases Nat.lt_or_ge (k.val + 1) (n + 2) with c | c
      · exact (hwT k c).1
      · have e : k.val = n + 1 := by have := k.2; omega
        rw [e]; exact (hwT n (by omega)).2
    have last := rows ⟨n + 1, by omega⟩
    rw [if_pos rfl] at last
    have last : (-∑ k : Fin (n + 2), p.coefficients k.castSucc * w k) / (2 * p.coefficients (Fin.last (n + 2))) + w n / 2 = x * w (n + 1) := last
    have e : ∑ k : Fin (n + 2), p.coefficients k.castSucc * w k = w 0 * ∑ k : Fin (n + 2), p.coefficients k.castSucc * T k := by
      rw [Finset.mul_sum]
      refine Finset.sum_congr rfl fun k _ => ?_
      rw [hwT']; ring
    rw [e, (hwT n (by omega)).1, (hwT n (by omega)).2] at last
    rw [Ts n]
    field_simp at last
    apply mul_left_cancel₀ hw0
    linear_combination (-w 0) * last
  · intro h0
    refine ⟨fun k => T k, ?_, ?_⟩
    · intro h
      have := congrFun h 0
      simp [T0] at this
    · funext j
      rw [key T j]
      show _ = x * T j
      have hj := j.2
      split
      · rename_i c
        rw [c]
        have h0' : -∑ k : Fin (n + 2), p.coefficients k.castSucc * T k = T (n + 2) * p.coefficients (Fin.last (n + 2)) := by linear_combination -h0
        rw [h0', Ts n]
        field_simp
        ring
      · split
        · rename_i c
          rw [c, T0, T1, mul_one]
        · rename_i c
          obtain ⟨k, hk⟩ : ∃ k, j.val = k + 1 := ⟨j.val - 1, by omega⟩
          rw [hk, Nat.add_sub_cancel, Ts k]
          ring

/-- The set of the real eigenvalues of a matrix. -/
def IsRealEigenvalues {n : ℕ} (eigenvalues : Matrix (Fin n) (Fin n) ℝ → Finset ℝ) : Prop :=
  ∀ A x, x ∈ eigenvalues A ↔ ∃ v : Fin n → ℝ, v ≠ 0 ∧ A.mulVec v = x • v

/-- There is such a function. -/
theorem exists_realEigenvalues (n : ℕ) : ∃ eigenvalues, IsRealEigenvalues (n := n) eigenvalues := by
  have hf : ∀ A : Matrix (Fin n) (Fin n) ℝ, {x : ℝ | ∃ v : Fin n → ℝ, v ≠ 0 ∧ A.mulVec v = x • v}.Finite := by
    intro A
    refine (Module.End.finite_hasEigenvalue (Matrix.toLin' A)).subset ?_
    rintro x ⟨v, hv, h⟩
    exact Module.End.hasEigenvalue_of_hasEigenvector ⟨Module.End.mem_eigenspace_iff.2 (by rw [Matrix.toLin'_apply, h]), hv⟩
  exact ⟨fun A => (hf A).toFinset, fun A x => by simp⟩

/-- C39.  If the Schur decomposition finds the real eigenvalues of a matrix, then for a polynomial of degree 2 or more whose leading coefficient is not zero, the real roots are the
roots that are between the bounds. -/
theorem C39_real_roots {n : ℕ} (eigenvalues) (he : IsRealEigenvalues (n := n + 2) eigenvalues) (c : Fin (n + 2 + 1) → ℝ) (lower upper : ℝ) (h : lower < upper)
    (hc : c (Fin.last (n + 2)) ≠ 0) :
    ∃ p roots, construct c lower upper = some p ∧ p.realRoots eigenvalues = some roots ∧ ∀ t, t ∈ roots ↔ lower ≤ t ∧ t ≤ upper ∧ series c lower upper t = 0 := by
  obtain ⟨p, hp, rfl, hl, hu, ho⟩ := construct_spec c h
  obtain ⟨A, hA, hA'⟩ := C39_companion p hc
  unfold IsRealEigenvalues at he
  refine ⟨p, _, hp, by rw [Poly.realRoots, hA]; rfl, fun t => ?_⟩
  have hd : 0 < upper - lower := sub_pos.2 h
  simp only [Finset.mem_image, Finset.mem_filter, he, hA', hl, hu]
  constructor
  · rintro ⟨x, ⟨hx, h1, h2⟩, rfl⟩
    have e : scale lower upper (x * (0.5 * (upper - lower)) + (lower + upper) / 2) = x := by
      rw [scale]; field_simp; ring
    refine ⟨by nlinarith, by nlinarith, ?_⟩
    rw [series, e]
    exact hx
  · rintro ⟨h1, h2, h3⟩
    refine ⟨scale lower upper t, ⟨h3, scale_mem h h1 h2⟩, ?_⟩
    rw [scale]; field_simp; ring

example : ∃ p roots eigenvalues, construct (degree := 2) ![(-1 : ℝ), 0, 1] 0 4 = some p ∧ p.realRoots eigenvalues = some roots ∧ 4 ∈ roots ∧ 0 ∈ roots ∧ 2 ∉ roots := by
  obtain ⟨eigenvalues, he⟩ := exists_realEigenvalues 2
  obtain ⟨p, roots, h1, h2, h3⟩ := C39_real_roots (n := 0) eigenvalues he ![(-1 : ℝ), 0, 1] 0 4 (by norm_num) (by simp [Fin.last])
  refine ⟨p, roots, eigenvalues, h1, h2, (h3 4).2 ⟨by norm_num, by norm_num, ?_⟩, (h3 0).2 ⟨by norm_num, by norm_num, ?_⟩, fun h => ?_⟩
  · rw [series, Fin.sum_univ_three, scale]; simp; norm_num
  · rw [series, Fin.sum_univ_three, scale]; simp
  · have := ((h3 2).1 h).2.2
    rw [series, Fin.sum_univ_three, scale] at this
    simp [Chebyshev.T_two] at this
    norm_num at this

/-- C39.  For a polynomial of degree 1, the root that is found is half (with respect to the scaled argument) what it should be: the polynomial `1 + 2 x`, whose root is -1/2, is said to have
the root -1/4. -/
theorem C39_real_roots_counterexample (eigenvalues) (he : IsRealEigenvalues (n := 1) eigenvalues) :
    ∃ p, construct (degree := 1) ![(1 : ℝ), 2] (-1) 1 = some p ∧ p.realRoots eigenvalues = some {-1 / 4} ∧ series ![(1 : ℝ), 2] (-1) 1 (-1 / 4) ≠ 0 ∧
      series ![(1 : ℝ), 2] (-1) 1 (-1 / 2) = 0 := by
  obtain ⟨p, hp, hc, hl, hu, ho⟩ := construct_spec (degree := 1) ![(1 : ℝ), 2] (by norm_num : (-1 : ℝ) < 1)
  refine ⟨p, hp, ?_, ?_, ?_⟩
  · unfold IsRealEigenvalues at he
    obtain ⟨A, hA, hA0⟩ : ∃ A : Matrix (Fin 1) (Fin 1) ℝ, p.frobeniusCompanionMatrix = some A ∧ A 0 0 = -1 / 4 := by
      rw [Poly.frobeniusCompanionMatrix, hc, if_neg (by simp [Fin.last])]
      refine ⟨_, rfl, ?_⟩
      simp [Poly.companionLast, hc, kroneckerDelta, Fin.last]
      norm_num
    rw [Poly.realRoots, hA]
    show some _ = _
    rw [hl, hu]
    refine congrArg some (Finset.ext fun t => ?_)
    simp only [Finset.mem_image, Finset.mem_filter, he, Finset.mem_singleton]
    constructor
    · rintro ⟨x, ⟨⟨v, hv, hx⟩, -⟩, rfl⟩
      have hv0 : v 0 ≠ 0 := fun h0 => hv (by funext k; fin_cases k; exact h0)
      have := congrFun hx 0
      simp [Matrix.mulVec, dotProduct, hA0] at this
      have : x = -1 / 4 := (this.resolve_right hv0).symm
      rw [this]; norm_num
    · rintro rfl
      refine ⟨-1 / 4, ⟨⟨fun _ => 1, ?_, ?_⟩, by norm_num, by norm_num⟩, by norm_num⟩
      · intro h; have := congrFun h 0; simp at this
      · funext j; fin_cases j; simp [Matrix.mulVec, dotProduct, hA0]
  · rw [series, Fin.sum_univ_two, scale]
    simp; norm_num
  · rw [series, Fin.sum_univ_two, scale]
    simp; norm_num

end Scalar

end

end Principia.Numerics.Chebyshev
