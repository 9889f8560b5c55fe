import Verif.Numerics.CombinatoricsModel
import Verif.Physics.LegendreLemmas
import Mathlib.Data.Nat.Factorial.DoubleFactorial
import Mathlib.Data.Nat.Choose.Basic
import Mathlib.Data.Rat.Cast.Order
import Mathlib.Data.Real.Basic
import Mathlib.Tactic.Ring
import Mathlib.Tactic.FieldSimp
import Mathlib.Tactic.LinearCombination
import Mathlib.Tactic.Positivity
import Mathlib.Tactic.NormNum

/-!
C87: the combinatorial functions and the coefficients of the Legendre polynomials.
-/

set_option linter.unusedSimpArgs false
set_option linter.unusedVariables false

namespace Principia.Numerics.Combinatorics

open Nat (descFactorial)

theorem checked_nat (x : ℕ) : checked (x : ℤ) = if x < 2 ^ 63 then some (x : ℤ) else none := by
  rw [checked]
  by_cases h : x < 2 ^ 63
  · rw [if_pos h, if_pos (by constructor <;> omega)]
  · rw [if_neg h, if_neg (by omega)]

theorem checked_some {x y : ℤ} (h : checked x = some y) : y = x := by
  rw [checked] at h
  by_cases hx : -2 ^ 63 ≤ x ∧ x < 2 ^ 63
  · rw [if_pos hx] at h; exact (Option.some.inj h).symm
  · rw [if_neg hx] at h; exact absurd h (by simp)

theorem descFactorial_mono (n : ℕ) {j k : ℕ} (hjk : j ≤ k) (hk : k ≤ n) : n.descFactorial j ≤ n.descFactorial k := by
  induction k with
  | zero => obtain rfl : j = 0 := by omega
            rfl
  | succ k ih =>
    rcases Nat.lt_or_ge j (k + 1) with h | h
    · refine (ih (by omega) (by omega)).trans ?_
      rw [Nat.descFactorial_succ]
      exact Nat.le_mul_of_pos_left _ (by omega)
    · obtain rfl : j = k + 1 := by omega
      rfl

theorem checked_lt {x : ℕ} (h : x < 2 ^ 63) : checked (x : ℤ) = some (x : ℤ) := by rw [checked_nat, if_pos h]

theorem checked_ge {x : ℕ} (h : ¬ x < 2 ^ 63) : checked (x : ℤ) = none := by rw [checked_nat, if_neg h]

theorem fallingLoop_step (n : ℕ) (hn : n < 2 ^ 63) (count i : ℕ) (h : i ≤ n) :
    fallingLoop n (count + 1) i (n.descFactorial i : ℕ) = (checked ((n.descFactorial (i + 1) : ℕ) : ℤ)).bind (fallingLoop n count ((i + 1 : ℕ) : ℤ)) := by
  have e1 : (n : ℤ) - i = ((n - i : ℕ) : ℤ) := (Nat.cast_sub h).symm
  have e2 : ((n.descFactorial i : ℕ) : ℤ) * ((n - i : ℕ) : ℤ) = ((n.descFactorial (i + 1) : ℕ) : ℤ) := by
    rw [Nat.descFactorial_succ, Nat.cast_mul, mul_comm]
  rw [fallingLoop, e1, checked_lt (lt_of_le_of_lt (Nat.sub_le n i) hn), Option.bind_eq_bind, Option.bind_some, e2, Nat.cast_add, Nat.cast_one]

theorem fallingLoop_eq (n : ℕ) (hn : n < 2 ^ 63) (count i : ℕ) (h : i + count ≤ n) (hi : n.descFactorial i < 2 ^ 63) :
    fallingLoop n count i (n.descFactorial i : ℕ) = if n.descFactorial (i + count) < 2 ^ 63 then some ((n.descFactorial (i + count) : ℕ) : ℤ) else none := by
  induction count generalizing i with
  | zero => rw [fallingLoop, Nat.add_zero, if_pos hi]
  | succ count ih =>
    rw [fallingLoop_step n hn count i (Nat.le_of_add_right_le h)]
    by_cases h1 : n.descFactorial (i + 1) < 2 ^ 63
    · rw [checked_lt h1, Option.bind_some, ih (i + 1) (by clear hn hi h1; omega) h1, show i + 1 + count = i + (count + 1) by clear hn hi h1; omega]
    · have := descFactorial_mono n (show i + 1 ≤ i + (count + 1) by clear hn hi h1; omega) h
      rw [checked_ge h1, if_neg (fun h6 => h1 (lt_of_le_of_lt this h6))]; rfl

/-- C87.  The falling factorial is right, or it overflows if it doesn't fit in 64 bits. -/
theorem C87_falling (n k : ℕ) (hn : n < 2 ^ 63) (hk : k ≤ n) : fallingFactorial n k = if n.descFactorial k < 2 ^ 63 then some ((n.descFactorial k : ℕ) : ℤ) else none := by
  have := fallingLoop_eq n hn k 0 (by omega) (by simp)
  rw [fallingFactorial, Int.toNat_natCast]
  simpa using this

/-- C87.  The factorial is right, or it overflows if it doesn't fit in 64 bits. -/
theorem C87_factorial (n : ℕ) (hn : n < 2 ^ 63) : factorial n = if n.factorial < 2 ^ 63 then some (n.factorial : ℤ) else none := by
  rw [factorial, C87_falling n n hn le_rfl, Nat.descFactorial_self]

/-- C87.  The factorial is that of an integer no larger than 20, or it overflows. -/
theorem C87_factorial_range (n : ℕ) (hn : n < 2 ^ 63) : (factorial n).isSome ↔ n ≤ 20 := by
  rw [C87_factorial n hn]
  constructor
  · intro h
    by_contra h'
    have : Nat.factorial 21 ≤ n.factorial := Nat.factorial_le (by omega)
    rw [if_neg (by have : ¬ Nat.factorial 21 < 2 ^ 63 := by decide
                   omega)] at h
    simp at h
  · intro h
    have h1 : n.factorial ≤ Nat.factorial 20 := Nat.factorial_le h
    have h2 : Nat.factorial 20 < 2 ^ 63 := by decide
    rw [if_pos (by omega)]; rfl

/-- C87.  The binomial coefficient is right if the falling factorial fits in 64 bits; otherwise, the computation overflows, even if the binomial coefficient fits in 64 bits. -/
theorem C87_binomial (n k : ℕ) (hn : n < 2 ^ 63) (hk : k ≤ n) : binomial n k = if n.descFactorial k < 2 ^ 63 then some (n.choose k : ℤ) else none := by
  rw [binomial, C87_falling n k hn hk]
  by_cases h : n.descFactorial k < 2 ^ 63
  · have h1 : k.factorial ≤ n.descFactorial k := by
      rw [Nat.descFactorial_eq_factorial_mul_choose]
      exact Nat.le_mul_of_pos_right _ (Nat.choose_pos hk)
    have h2 : n.choose k ≤ n.descFactorial k := by
      rw [Nat.descFactorial_eq_factorial_mul_choose]
      exact Nat.le_mul_of_pos_left _ (Nat.factorial_pos k)
    rw [if_pos h, if_pos h, C87_factorial k (by omega), if_pos (by omega)]
    simp only [Option.bind_eq_bind, Option.bind_some]
    have h3 : (k.factorial : ℤ) ≠ 0 := by exact_mod_cast (Nat.factorial_pos k).ne'
    rw [if_neg h3, Nat.descFactorial_eq_factorial_mul_choose, Nat.cast_mul, Int.mul_tdiv_cancel_left _ h3, checked_nat, if_pos (by omega)]
  · rw [if_neg h, if_neg h]; rfl

/-- C87.  A binomial coefficient equal to 1 whose computation overflows. -/
theorem C87_binomial_counterexample : binomial 21 21 = none ∧ Nat.choose 21 21 = 1 := by
  refine ⟨?_, Nat.choose_self 21⟩
  have := C87_binomial 21 21 (by norm_num) le_rfl
  rw [if_neg (by decide)] at this
  exact_mod_cast this

/-- A case where the falling factorial fits. -/
example : binomial 30 5 = some 142506 := by decide +kernel

open Nat in
theorem doubleLoop_eq (n c : ℕ) (hc : 0 < c) (hc' : c < 2 ^ 63) : doubleLoop n c = if c * n‼ < 2 ^ 63 then some ((c * n‼ : ℕ) : ℤ) else none := by
  induction n using Nat.twoStepInduction generalizing c with
  | zero => rw [doubleLoop, show c * 0‼ = c by simp, if_pos hc']
  | one =>
    rw [doubleLoop, mul_one, checked_nat]; simp
  | more n ih _ =>
    rw [doubleLoop]
    have e : (c : ℤ) * ((n : ℤ) + 2) = ((c * (n + 2) : ℕ) : ℤ) := by push_cast; ring
    rw [e, checked_nat, Nat.doubleFactorial_add_two]
    by_cases h : c * (n + 2) < 2 ^ 63
    · rw [if_pos h]
      simp only [Option.bind_eq_bind, Option.bind_some]
      rw [ih _ (by positivity) h, mul_assoc]
    · rw [if_neg h]
      have : c * (n + 2) ≤ c * ((n + 2) * n‼) := Nat.mul_le_mul_left _ (Nat.le_mul_of_pos_right _ (Nat.doubleFactorial_pos n))
      rw [if_neg (by omega)]; rfl

open Nat in
/-- C87.  The double factorial is right, or it overflows if it doesn't fit in 64 bits.  It is 1 for -1 (and for all the negative integers). -/
theorem C87_double_factorial (n : ℤ) : doubleFactorial n = if n.toNat‼ < 2 ^ 63 then some (n.toNat‼ : ℤ) else none := by
  have := doubleLoop_eq n.toNat 1 one_pos (by norm_num)
  rw [doubleFactorial]
  simpa using this

theorem factorial_some {n : ℕ} (hn : n < 2 ^ 63) {x : ℤ} (h : factorial n = some x) : x = (n.factorial : ℤ) := by
  rw [C87_factorial n hn] at h
  by_cases h1 : n.factorial < 2 ^ 63
  · rw [if_pos h1] at h; exact (Option.some.inj h).symm
  · rw [if_neg h1] at h; exact absurd h (by simp)

open Nat in
theorem doubleFactorial_some {n x : ℤ} (h : doubleFactorial n = some x) : x = (n.toNat‼ : ℤ) := by
  rw [C87_double_factorial] at h
  by_cases h1 : n.toNat‼ < 2 ^ 63
  · rw [if_pos h1] at h; exact (Option.some.inj h).symm
  · rw [if_neg h1] at h; exact absurd h (by simp)

/-! ## The Legendre polynomials -/

open Polynomial Nat

/-- The explicit coefficients. -/
noncomputable def coefficient (n k : ℕ) : ℝ := if (n + k) % 2 = 0 ∧ k ≤ n then (-1) ^ ((n - k) / 2) * ((n + k - 1)‼ : ℝ) / ((k ! : ℝ) * ((n - k)‼ : ℝ)) else 0

theorem coefficient_even (k m : ℕ) : coefficient (k + 2 * m) k = (-1) ^ m * ((2 * k + 2 * m - 1)‼ : ℝ) / ((k ! : ℝ) * ((2 * m)‼ : ℝ)) := by
  rw [coefficient, if_pos (by omega), show (k + 2 * m - k) / 2 = m by omega, show k + 2 * m + k - 1 = 2 * k + 2 * m - 1 by omega, show k + 2 * m - k = 2 * m by omega]

theorem coefficient_zero (n k : ℕ) (h : ¬((n + k) % 2 = 0 ∧ k ≤ n)) : coefficient n k = 0 := by rw [coefficient, if_neg h]

/-- The recurrence of Bonnet on the coefficients. -/
theorem coefficient_bonnet (n k : ℕ) : ((n : ℝ) + 2) * coefficient (n + 2) (k + 1) = (2 * (n : ℝ) + 3) * coefficient (n + 1) k - ((n : ℝ) + 1) * coefficient n (k + 1) := by
  by_cases h : (n + k) % 2 = 1 ∧ k ≤ n + 1
  · obtain ⟨h1, h2⟩ := h
    obtain ⟨m, hm⟩ : ∃ m, n + 1 = k + 2 * m := ⟨(n + 1 - k) / 2, by omega⟩
    have hk : ((k + 1)! : ℝ) = ((k : ℝ) + 1) * (k ! : ℝ) := by rw [Nat.factorial_succ]; push_cast; ring
    have p1 : (0 : ℝ) < (k ! : ℝ) := by exact_mod_cast Nat.factorial_pos k
    rw [show n + 2 = (k + 1) + 2 * m by omega, hm, coefficient_even, coefficient_even, hk]
    have e1 : ((2 * (k + 1) + 2 * m - 1)‼ : ℝ) = (2 * (k : ℝ) + 2 * m + 1) * ((2 * k + 2 * m - 1)‼ : ℝ) := by
      rw [show 2 * (k + 1) + 2 * m - 1 = (2 * k + 2 * m) + 1 by omega, Nat.doubleFactorial_add_one]; push_cast; ring
    have hn : (n : ℝ) = (k : ℝ) + 2 * m - 1 := by
      have : (n : ℝ) + 1 = (k : ℝ) + 2 * m := by exact_mod_cast hm
      linarith
    rw [e1, hn]
    cases m with
    | zero =>
      rw [coefficient_zero n (k + 1) (by omega)]
      simp only [mul_zero, Nat.doubleFactorial, pow_zero, Nat.cast_zero, Nat.cast_one]
      have : (k : ℝ) + 1 ≠ 0 := by positivity
      field_simp
      ring
    | succ m =>
      have e2 : ((2 * (m + 1))‼ : ℝ) = (2 * ((m : ℝ) + 1)) * ((2 * m)‼ : ℝ) := by
        rw [show 2 * (m + 1) = 2 * m + 2 by omega, Nat.doubleFactorial_add_two]; push_cast; ring
      rw [show n = (k + 1) + 2 * m by omega, coefficient_even, hk, e2, show 2 * (k + 1) + 2 * m - 1 = 2 * k + 2 * (m + 1) - 1 by omega]
      have p2 : (0 : ℝ) < ((2 * m)‼ : ℝ) := by exact_mod_cast Nat.doubleFactorial_pos _
      have p3 : (k : ℝ) + 1 ≠ 0 := by positivity
      have p4 : (m : ℝ) + 1 ≠ 0 := by positivity
      rw [pow_succ]
      push_cast
      field_simp
      ring
  · rw [coefficient_zero (n + 2) (k + 1) (by omega), coefficient_zero (n + 1) k (by omega), coefficient_zero n (k + 1) (by omega)]; ring

theorem coefficient_bonnet_zero (n : ℕ) : ((n : ℝ) + 2) * coefficient (n + 2) 0 = -((n : ℝ) + 1) * coefficient n 0 := by
  by_cases h : n % 2 = 0
  · obtain ⟨m, rfl⟩ : ∃ m, n = 2 * m := ⟨n / 2, by omega⟩
    have h1 := coefficient_even 0 (m + 1)
    have h2 := coefficient_even 0 m
    rw [zero_add] at h1 h2
    rw [show 2 * m + 2 = 2 * (m + 1) by omega, h1, h2]
    have e1 : ((2 * 0 + 2 * (m + 1) - 1)‼ : ℝ) = (2 * (m : ℝ) + 1) * ((2 * 0 + 2 * m - 1)‼ : ℝ) := by
      rw [show 2 * 0 + 2 * (m + 1) - 1 = 2 * m + 1 by omega, Nat.doubleFactorial_add_one, show 2 * 0 + 2 * m - 1 = 2 * m - 1 by omega]; push_cast; ring
    have e2 : ((2 * (m + 1))‼ : ℝ) = (2 * ((m : ℝ) + 1)) * ((2 * m)‼ : ℝ) := by
      rw [show 2 * (m + 1) = 2 * m + 2 by omega, Nat.doubleFactorial_add_two]; push_cast; ring
    have p2 : (0 : ℝ) < ((2 * m)‼ : ℝ) := by exact_mod_cast Nat.doubleFactorial_pos _
    have p4 : (m : ℝ) + 1 ≠ 0 := by positivity
    rw [e1, e2, pow_succ]
    push_cast
    field_simp
  · rw [coefficient_zero (n + 2) 0 (by omega), coefficient_zero n 0 (by omega)]; ring

theorem legendre_coeff (n k : ℕ) : (Legendre.legendre n).coeff k = coefficient n k := by
  induction n using Nat.twoStepInduction generalizing k with
  | zero =>
    rw [Legendre.legendre_zero, coeff_one]
    cases k with
    | zero => simp [coefficient]
    | succ k => simp [coefficient]
  | one =>
    rw [Legendre.legendre_one, coeff_X]
    rcases Nat.lt_trichotomy k 1 with h | h | h
    · obtain rfl : k = 0 := by omega
      simp [coefficient]
    · subst h; simp [coefficient]
    · rw [if_neg (by omega), coefficient_zero 1 k (by omega)]
  | more n ih0 ih1 =>
    have h := congrArg (fun p => p.coeff k) (Legendre.bonnet n)
    simp only [coeff_C_mul, coeff_sub] at h
    have hne : (n : ℝ) + 2 ≠ 0 := by positivity
    cases k with
    | zero =>
      rw [coeff_X_mul_zero, ih0] at h
      have := coefficient_bonnet_zero n
      apply mul_left_cancel₀ hne
      rw [h, this]; ring
    | succ k =>
      rw [coeff_X_mul, ih1, ih0] at h
      have := coefficient_bonnet n k
      apply mul_left_cancel₀ hne
      rw [h, this]

/-- C87.  If the coefficient doesn't overflow, it is that of the Legendre polynomial, as defined by the formula of Rodrigues. -/
theorem C87_legendre (n k : ℕ) (hk : k ≤ n) (hn : n < 2 ^ 63) (q : ℚ) (h : legendreCoefficient n k = some q) : (q : ℝ) = (Legendre.legendre n).coeff k := by
  rw [legendre_coeff]
  rw [legendreCoefficient] at h
  by_cases hpar : (n - k) % 2 = 0
  · rw [if_pos hpar] at h
    simp only [Option.bind_eq_bind, Option.bind_eq_some_iff] at h
    obtain ⟨a, ha, num, hnum, f, hf, d, hd, den, hden, h⟩ := h
    have hn' := checked_some hnum
    have hd' := checked_some hden
    rw [doubleFactorial_some ha, show ((n : ℤ) + k - 1).toNat = n + k - 1 by clear hn; omega] at hn'
    rw [doubleFactorial_some hd, factorial_some (lt_of_le_of_lt hk hn) hf, Int.toNat_natCast] at hd'
    obtain ⟨m, hm⟩ : ∃ m, n = k + 2 * m := ⟨(n - k) / 2, by clear hn; omega⟩
    subst hm
    rw [coefficient_even]
    rw [← Option.some.inj h]
    rw [hn', hd', show k + 2 * m - k = 2 * m by clear hn; omega, show k + 2 * m + k - 1 = 2 * k + 2 * m - 1 by clear hn; omega]
    have hs : ((if (2 * m) % 4 = 0 then (1 : ℤ) else -1 : ℤ) : ℝ) = (-1) ^ m := by
      rcases Nat.even_or_odd m with he | ho
      · rw [he.neg_one_pow, if_pos (by obtain ⟨j, rfl⟩ := he; omega)]; simp
      · rw [ho.neg_one_pow, if_neg (by obtain ⟨j, rfl⟩ := ho; omega)]; simp
    rw [← hs]
    rw [Rat.cast_div, Rat.cast_intCast, Rat.cast_intCast, Int.cast_mul, Int.cast_mul, Int.cast_natCast, Int.cast_natCast, Int.cast_natCast]
  · rw [if_neg hpar] at h
    cases h
    rw [coefficient_zero n k (by omega)]; simp

/-- C87.  The coefficients of the Legendre polynomials are computed without overflow up to the degree 17, and the leading coefficient overflows for the larger degrees. -/
theorem C87_legendre_range (n : ℕ) (hn : n < 2 ^ 62) : (∀ k ≤ n, (legendreCoefficient n k).isSome) ↔ n ≤ 17 := by
  constructor
  · intro h
    by_contra h'
    have h1 := h n le_rfl
    rw [legendreCoefficient, if_pos (by omega), C87_double_factorial, show ((n : ℤ) + n - 1).toNat = n + n - 1 by omega] at h1
    have h2 : ∀ j : ℕ, (35 : ℕ)‼ ≤ (35 + 2 * j)‼ := by
      intro j
      induction j with
      | zero => rfl
      | succ j ih =>
        rw [show 35 + 2 * (j + 1) = 35 + 2 * j + 2 by omega, Nat.doubleFactorial_add_two]
        exact ih.trans (Nat.le_mul_of_pos_left _ (by omega))
    have h3 := h2 (n - 18)
    rw [show 35 + 2 * (n - 18) = n + n - 1 by omega] at h3
    have h4 : ¬ (35 : ℕ)‼ < 2 ^ 63 := by decide
    have h5 : ¬ (n + n - 1)‼ < 2 ^ 63 := fun h6 => h4 (lt_of_le_of_lt h3 h6)
    rw [if_neg h5] at h1
    simp at h1
  · intro h k hk
    have : ∀ n < 18, ∀ k < n + 1, (legendreCoefficient n k).isSome = true := by decide +kernel
    exact this n (by omega) k (by omega)

/-- The polynomial of degree 2 is (3 x² - 1) / 2. -/
example : legendreCoefficient 2 0 = some (-1 / 2) ∧ legendreCoefficient 2 1 = some 0 ∧ legendreCoefficient 2 2 = some (3 / 2) := by decide +kernel

/-- C87.  The Kronecker delta. -/
theorem C87_kronecker (i j : ℤ) : kroneckerDelta i j = 1 ∧ i = j ∨ kroneckerDelta i j = 0 ∧ i ≠ j := by
  rw [kroneckerDelta]
  by_cases h : i = j
  · rw [if_pos h]; exact Or.inl ⟨rfl, h⟩
  · rw [if_neg h]; exact Or.inr ⟨rfl, h⟩

end Principia.Numerics.Combinatorics
