import Verif.Numerics.PolynomialModel
import Mathlib.Algebra.BigOperators.Intervals
import Mathlib.Algebra.BigOperators.GroupWithZero.Action
import Mathlib.Data.Nat.Choose.Sum
import Mathlib.Data.Nat.Factorial.BigOperators
import Mathlib.Analysis.Calculus.Deriv.Pow
import Mathlib.Analysis.Calculus.Deriv.Mul
import Mathlib.Analysis.Calculus.Deriv.Add
import Mathlib.Analysis.Calculus.IteratedDeriv.Defs
import Mathlib.Tactic.Ring
import Mathlib.Tactic.FieldSimp
import Mathlib.Tactic.NormNum
import Mathlib.Tactic.Abel

set_option linter.unusedSimpArgs false
set_option linter.unusedVariables false
set_option linter.unusedSectionVars false

/-!
# C38: polynomials
-/

namespace Principia.Polynomial

open Principia.Bits Finset

variable {K V L R P : Type} [CommRing K] [AddCommGroup V] [Module K V] [AddCommGroup L] [Module K L] [AddCommGroup R] [Module K R]
  [AddCommGroup P] [Module K P]

/-- Specification: the mathematical polynomial `∑ aᵢ (t - t₀)ⁱ`. -/
def Poly.value (p : Poly K V) (t : K) : V := ∑ i ∈ range (p.degree + 1), (t - p.origin) ^ i • p.get i

theorem pow_eq (x : K) (n : Nat) : pow x n = x ^ n := by
  induction n using Nat.strongRecOn with
  | _ n ih =>
    rw [pow]
    by_cases h0 : n = 0
    · simp [h0]
    by_cases h1 : n = 1
    · simp [h1]
    simp only [h0, h1, if_false]
    rw [ih (n / 2) (by omega)]
    by_cases h : n % 2 = 1
    · rw [if_pos h, ← pow_add, ← pow_succ]; congr 1; omega
    · rw [if_neg h, ← pow_add]; congr 1; omega

theorem fallingFactorial_eq (n k : Nat) : fallingFactorial n k = (n.descFactorial k : Int) ∨ n < k := by
  by_cases h : n < k
  · exact .inr h
  refine .inl ?_
  unfold fallingFactorial
  rw [Int.toNat_natCast]
  have : ∀ m, m ≤ n → (List.range m).foldl (fun (result : Int) i => result * ((n : Int) - (i : Nat))) 1 = (n.descFactorial m : Int) := by
    intro m
    induction m with
    | zero => intro _; simp
    | succ m ih =>
      intro hm
      rw [List.range_succ, List.foldl_append, ih (by omega), List.foldl_cons, List.foldl_nil, Nat.descFactorial_succ]
      push_cast [Nat.cast_sub (show m ≤ n by omega)]
      ring
  exact this k (by omega)

theorem fallingFactorial_le (n k : Nat) (h : k ≤ n) : fallingFactorial n k = (n.descFactorial k : Int) := by
  rcases fallingFactorial_eq n k with h' | h'
  · exact h'
  · omega

theorem binomial_eq (n k : Nat) (h : k ≤ n) : binomial n k = (n.choose k : Int) := by
  unfold binomial factorial
  rw [fallingFactorial_le n k h, fallingFactorial_le k k (Nat.le_refl k), Nat.descFactorial_self, Nat.choose_eq_descFactorial_div_factorial]
  rw [Int.tdiv_eq_ediv_of_nonneg (by positivity)]
  push_cast
  rfl

theorem estrin_eq (a : Nat → V) (x : K) (low n : Nat) : estrin a x low n = ∑ i ∈ range n, x ^ i • a (low + i) := by
  induction n using Nat.strongRecOn generalizing low with
  | _ n ih =>
    match n with
    | 0 => simp [estrin]
    | 1 => simp [estrin]
    | 2 => rw [estrin]; simp [sum_range_succ]; rw [add_comm]
    | k + 3 =>
      have h := C05_powerOf2Le (k + 2) (by omega)
      have h1 : 1 ≤ powerOf2Le (k + 2) := h.2.2 0 (by simp)
      rw [estrin]
      generalize powerOf2Le (k + 2) = m at *
      rw [ih _ (by omega), ih _ (by omega), pow_eq, smul_sum]
      have e : k + 3 = m + (k + 2 + 1 - m) := by omega
      conv_rhs => rw [e, sum_range_add]
      rw [add_comm]
      congr 1
      refine sum_congr rfl fun i _ => ?_
      rw [smul_smul, pow_add, Nat.add_assoc]

theorem estrinDerivative_eq (a : Nat → V) (x : K) (low n : Nat) :
    estrinDerivative a x low n = ∑ i ∈ range n, x ^ i • ((low + i : Nat) : K) • a (low + i) := by
  induction n using Nat.strongRecOn generalizing low with
  | _ n ih =>
    match n with
    | 0 => simp [estrinDerivative]
    | 1 => simp [estrinDerivative]
    | 2 => rw [estrinDerivative]; simp [sum_range_succ]; rw [add_comm]
    | k + 3 =>
      have h := C05_powerOf2Le (k + 2) (by omega)
      have h1 : 1 ≤ powerOf2Le (k + 2) := h.2.2 0 (by simp)
      rw [estrinDerivative]
      generalize powerOf2Le (k + 2) = m at *
      rw [ih _ (by omega), ih _ (by omega), pow_eq, smul_sum]
      have e : k + 3 = m + (k + 2 + 1 - m) := by omega
      conv_rhs => rw [e, sum_range_add]
      rw [add_comm]
      congr 1
      refine sum_congr rfl fun i _ => ?_
      rw [smul_smul, pow_add, Nat.add_assoc]

theorem horner_eq (a : Nat → V) (d : Nat) (x : K) (low : Nat) : horner a d x low = ∑ i ∈ range (d + 1 - low), x ^ i • a (low + i) := by
  induction h : d - low generalizing low with
  | zero =>
    rw [horner]
    by_cases e : low = d
    · subst e; simp
    · have e1 : low > d := by omega
      have e2 : d + 1 - low = 0 := by omega
      simp [e, e1, e2]
  | succ n ih =>
    rw [horner, if_neg (by omega), if_neg (by omega), ih (low + 1) (by omega), smul_sum,
      show d + 1 - low = (d + 1 - (low + 1)) + 1 by omega, sum_range_succ']
    congr 1
    · refine sum_congr rfl fun i _ => ?_
      rw [smul_smul, pow_succ', show low + 1 + i = low + (i + 1) by omega]
    · simp

theorem hornerDerivative_eq (a : Nat → V) (d : Nat) (x : K) (low : Nat) :
    hornerDerivative a d x low = ∑ i ∈ range (d + 1 - low), x ^ i • ((low + i : Nat) : K) • a (low + i) := by
  induction h : d - low generalizing low with
  | zero =>
    rw [hornerDerivative]
    by_cases e : low = d
    · subst e; simp
    · have e1 : low > d := by omega
      have e2 : d + 1 - low = 0 := by omega
      simp [e, e1, e2]
  | succ n ih =>
    rw [hornerDerivative, if_neg (by omega), if_neg (by omega), ih (low + 1) (by omega), smul_sum,
      show d + 1 - low = (d + 1 - (low + 1)) + 1 by omega, sum_range_succ']
    congr 1
    · refine sum_congr rfl fun i _ => ?_
      rw [smul_smul, pow_succ', show low + 1 + i = low + (i + 1) by omega]
    · simp

/-- **C38** (evaluation): both evaluators compute the mathematical polynomial. -/
theorem C38_evaluate (ev : Evaluator) (p : Poly K V) (t : K) : p.eval ev t = p.value t := by
  cases ev
  · simp only [Poly.eval, Poly.value, estrin_eq, Nat.zero_add]
  · simp only [Poly.eval, Poly.value, horner_eq, Nat.zero_add, Nat.sub_zero]

/-- The value of the formal derivative. -/
theorem evalDerivative_eq (ev : Evaluator) (p : Poly K V) (t : K) :
    p.evalDerivative ev t = ∑ i ∈ range p.degree, (t - p.origin) ^ i • ((i + 1 : Nat) : K) • p.get (i + 1) := by
  cases ev
  · simp only [Poly.evalDerivative, estrinDerivative_eq, Nat.add_comm 1]
  · simp only [Poly.evalDerivative, hornerDerivative_eq, Nat.add_sub_cancel, Nat.add_comm 1]

/-- **C38** (simultaneous evaluation): `EvaluateWithDerivative` gives the same results as the separate evaluations. -/
theorem C38_evaluate_with_derivative (ev : Evaluator) (p : Poly K V) (t : K) :
    p.evalWithDerivative ev t = (p.eval ev t, p.evalDerivative ev t) := by
  cases ev <;> rfl

/-! ### Lists of coefficients -/

theorem getD_default (c : List V) (i : Nat) (h : c.length ≤ i) : c.getD i 0 = 0 := by
  rw [List.getD_eq_getElem?_getD, List.getElem?_eq_none h]; rfl

/-- The value of a list of coefficients. -/
def listValue (c : List V) (y : K) : V := ∑ i ∈ range c.length, y ^ i • c.getD i 0

theorem listValue_extend (c : List V) (y : K) (n : Nat) (h : c.length ≤ n) : ∑ i ∈ range n, y ^ i • c.getD i 0 = listValue c y := by
  obtain ⟨k, rfl⟩ := Nat.exists_eq_add_of_le h
  rw [sum_range_add, listValue]
  have : ∑ x ∈ range k, y ^ (c.length + x) • c.getD (c.length + x) 0 = 0 := by
    refine sum_eq_zero fun i _ => ?_
    rw [getD_default _ _ (by omega), smul_zero]
  rw [this, add_zero]

theorem value_eq_list (p : Poly K V) (t : K) : p.value t = listValue p.coeffs (t - p.origin) :=
  listValue_extend p.coeffs _ _ (by unfold Poly.degree; omega)

theorem getD_map_range (n : Nat) (f : Nat → V) (i : Nat) (h : i < n) : ((List.range n).map f).getD i 0 = f i := by
  rw [List.getD_eq_getElem?_getD]; simp [List.getElem?_map, List.getElem?_range h]

theorem listValue_map_range (n : Nat) (f : Nat → V) (y : K) : listValue ((List.range n).map f) y = ∑ i ∈ range n, y ^ i • f i := by
  unfold listValue
  rw [List.length_map, List.length_range]
  refine sum_congr rfl fun i hi => ?_
  rw [getD_map_range n f i (mem_range.1 hi)]

theorem get_of_lt (p : Poly K V) (i : Nat) (h : p.degree < i) : p.get i = 0 := by
  unfold Poly.get
  exact getD_default _ _ (by unfold Poly.degree at h; omega)

theorem value_extend (p : Poly K V) (t : K) (n : Nat) (h : p.degree < n) : ∑ i ∈ range n, (t - p.origin) ^ i • p.get i = p.value t := by
  rw [value_eq_list]
  exact listValue_extend p.coeffs _ n (by unfold Poly.degree at h; omega)

theorem length_addAt (c : List V) (k : Nat) (v : V) : (Poly.addAt c k v).length = c.length := by simp [Poly.addAt]

theorem listValue_addAt (c : List V) (k : Nat) (v : V) (y : K) (h : k < c.length) :
    listValue (Poly.addAt c k v) y = listValue c y + y ^ k • v := by
  unfold listValue
  rw [length_addAt]
  have : ∀ i ∈ range c.length, y ^ i • (Poly.addAt c k v).getD i 0 = y ^ i • c.getD i 0 + (if i = k then y ^ i • v else 0) := by
    intro i hi
    have hi := mem_range.1 hi
    rw [Poly.addAt, List.getD_eq_getElem?_getD, List.getElem?_modify, List.getD_eq_getElem?_getD, List.getElem?_eq_getElem hi]
    by_cases e : k = i
    · subst e; simp [smul_add]
    · have e' : ¬ i = k := fun x => e x.symm
      simp [e, e']
  rw [sum_congr rfl this, sum_add_distrib, sum_ite_eq' (range c.length) k]
  simp [h]

theorem listValue_replicate (n : Nat) (y : K) : listValue (List.replicate n (0 : V)) y = 0 := by
  unfold listValue
  refine sum_eq_zero fun i _ => ?_
  rw [List.getD_eq_getElem?_getD, List.getElem?_replicate]
  split <;> simp

theorem listValue_foldl_addAt (f : Nat → V) (k n : Nat) (c : List V) (y : K) (h : k + n ≤ c.length) :
    listValue ((List.range n).foldl (fun c j => Poly.addAt c (k + j) (f j)) c) y = listValue c y + y ^ k • ∑ j ∈ range n, y ^ j • f j ∧
      ((List.range n).foldl (fun c j => Poly.addAt c (k + j) (f j)) c).length = c.length := by
  induction n with
  | zero => simp
  | succ n ih =>
    obtain ⟨i1, i2⟩ := ih (by omega)
    rw [List.range_succ, List.foldl_append, List.foldl_cons, List.foldl_nil]
    refine ⟨?_, by rw [length_addAt, i2]⟩
    rw [listValue_addAt _ _ _ _ (by rw [i2]; omega), i1, sum_range_succ, smul_add, smul_smul, pow_add, add_assoc]

/-! ### Operations -/

theorem degree_map_range (n : Nat) (f : Nat → V) (o : K) : (Poly.mk ((List.range (n + 1)).map f) o).degree = n := by
  simp [Poly.degree]

theorem value_map_range (n : Nat) (f : Nat → V) (o t : K) :
    (Poly.mk ((List.range n).map f) o).value t = ∑ i ∈ range n, (t - o) ^ i • f i := by
  rw [value_eq_list]; exact listValue_map_range n f _

/-- **C38** (conversion to a higher degree). -/
theorem C38_raise_degree (p : Poly K V) (n : Nat) (h : p.degree ≤ n) (t : K) :
    (p.raiseDegree n).value t = p.value t ∧ (p.raiseDegree n).degree = n := by
  refine ⟨?_, degree_map_range _ _ _⟩
  rw [Poly.raiseDegree, value_map_range, ← value_extend p t (n + 1) (by omega)]
  refine sum_congr rfl fun i hi => ?_
  split
  · rfl
  · rw [get_of_lt p i (by omega)]

theorem get_map (p : Poly K V) (f : V → P) (hf : f 0 = 0) (o : K) (i : Nat) : (Poly.mk (p.coeffs.map f) o).get i = f (p.get i) := by
  unfold Poly.get
  simp only [List.getD_eq_getElem?_getD, List.getElem?_map]
  cases p.coeffs[i]? <;> simp [hf]

theorem value_map (p : Poly K V) (f : V → P) (ha : ∀ x y, f (x + y) = f x + f y) (hs : ∀ (k : K) x, f (k • x) = k • f x) (t : K) :
    (Poly.mk (p.coeffs.map f) p.origin).value t = f (p.value t) := by
  unfold Poly.value
  have : (Poly.mk (p.coeffs.map f) p.origin).degree = p.degree := by simp [Poly.degree]
  have h0 : f 0 = 0 := by have := hs 0 0; simpa using this
  let g : V →ₗ[K] P := ⟨⟨f, ha⟩, hs⟩
  have hg : ∀ v, f v = g v := fun _ => rfl
  rw [this, hg, map_sum]
  refine sum_congr rfl fun i _ => ?_
  rw [get_map p f h0, map_smul, hg]

/-- **C38** (opposite). -/
theorem C38_neg (p : Poly K V) (t : K) : p.neg.value t = - p.value t ∧ p.neg.degree = p.degree :=
  ⟨value_map p _ (fun x y => neg_add x y) (fun k x => (smul_neg k x).symm) t, by simp [Poly.neg, Poly.degree]⟩

/-- **C38** (multiplication by a scalar). -/
theorem C38_scalar (k : K) (p : Poly K V) (t : K) : (p.smul k).value t = k • p.value t ∧ (p.smul k).degree = p.degree :=
  ⟨value_map p _ (fun x y => smul_add k x y) (fun l x => smul_comm k l x) t, by simp [Poly.smul, Poly.degree]⟩

theorem value_vmul (v : V) (p : Poly K K) (t : K) : (p.vmul v).value t = p.value t • v ∧ (p.vmul v).degree = p.degree :=
  ⟨value_map p _ (fun x y => add_smul x y v) (fun l x => by rw [smul_eq_mul, mul_smul]) t, by simp [Poly.vmul, Poly.degree]⟩

section

variable [DecidableEq K]

/-- **C38** (sum): adding polynomials with the same origin adds their values. -/
theorem C38_sum (p q : Poly K V) (h : p.origin = q.origin) :
    ∃ r, p.add q = some r ∧ r.origin = p.origin ∧ r.degree = max p.degree q.degree ∧ ∀ t, r.value t = p.value t + q.value t := by
  refine ⟨_, if_pos h, rfl, degree_map_range _ _ _, fun t => ?_⟩
  rw [value_map_range, ← value_extend p t (max p.degree q.degree + 1) (by omega), ← value_extend q t (max p.degree q.degree + 1) (by omega),
    ← h, ← sum_add_distrib]
  refine sum_congr rfl fun i hi => ?_
  rw [← smul_add]
  congr 1
  split
  · rfl
  · split
    · rw [get_of_lt q i (by omega), add_zero]
    · rw [get_of_lt p i (by omega), zero_add]

/-- **C38** (difference). -/
theorem C38_difference (p q : Poly K V) (h : p.origin = q.origin) :
    ∃ r, p.sub q = some r ∧ r.origin = p.origin ∧ r.degree = max p.degree q.degree ∧ ∀ t, r.value t = p.value t - q.value t := by
  refine ⟨_, if_pos h, rfl, degree_map_range _ _ _, fun t => ?_⟩
  rw [value_map_range, ← value_extend p t (max p.degree q.degree + 1) (by omega), ← value_extend q t (max p.degree q.degree + 1) (by omega),
    ← h, ← sum_sub_distrib]
  refine sum_congr rfl fun i hi => ?_
  rw [← smul_sub]
  congr 1
  split
  · rfl
  · split
    · rw [get_of_lt q i (by omega), sub_zero]
    · rw [get_of_lt p i (by omega), zero_sub]

/-- **C38** (product): for every bilinear product of the values, for instance the product of numbers, of a number and a vector, or the inner
product of vectors. -/
theorem C38_product (B : L →ₗ[K] R →ₗ[K] P) (p : Poly K L) (q : Poly K R) (h : p.origin = q.origin) :
    ∃ r, Poly.mul B p q = some r ∧ r.origin = p.origin ∧ r.degree = p.degree + q.degree ∧ ∀ t, r.value t = B (p.value t) (q.value t) := by
  have key : ∀ (n : Nat) (y : K), n ≤ p.degree + 1 →
      listValue ((List.range n).foldl (fun c i =>
          (List.range (q.degree + 1)).foldl (fun c j => Poly.addAt c (i + j) (B (p.get i) (q.get j))) c)
          (List.replicate (p.degree + q.degree + 1) 0)) y
        = ∑ i ∈ range n, y ^ i • ∑ j ∈ range (q.degree + 1), y ^ j • B (p.get i) (q.get j) ∧
      ((List.range n).foldl (fun c i =>
          (List.range (q.degree + 1)).foldl (fun c j => Poly.addAt c (i + j) (B (p.get i) (q.get j))) c)
          (List.replicate (p.degree + q.degree + 1) (0 : P))).length = p.degree + q.degree + 1 := by
    intro n y
    induction n with
    | zero => intro _; simp [listValue_replicate]
    | succ n ih =>
      intro hn
      obtain ⟨i1, i2⟩ := ih (by omega)
      rw [List.range_succ (n := n), List.foldl_append, List.foldl_cons, List.foldl_nil]
      have := listValue_foldl_addAt (fun j => B (p.get n) (q.get j)) n (q.degree + 1) _ y (by rw [i2]; omega)
      rw [this.1, this.2, i1, i2, sum_range_succ _ n]
      exact ⟨rfl, rfl⟩
  refine ⟨_, if_pos h, rfl, ?_, fun t => ?_⟩
  · simp only [Poly.degree]
    have := (key (p.degree + 1) 0 (Nat.le_refl _)).2
    simp only [Poly.degree] at this
    omega
  · rw [value_eq_list]
    refine ((key (p.degree + 1) (t - p.origin) (Nat.le_refl _)).1).trans ?_
    unfold Poly.value
    rw [← h, map_sum B, LinearMap.sum_apply]
    refine sum_congr rfl fun i _ => ?_
    rw [map_smul, LinearMap.smul_apply, map_sum]
    congr 1
    refine sum_congr rfl fun j _ => ?_
    rw [map_smul]

end

theorem value_change_zero (p : Poly K V) (f : Nat → V) (v : V) (h0 : f 0 = p.get 0 + v) (hf : ∀ i, 0 < i → f i = p.get i) (t : K) :
    (Poly.mk ((List.range (p.degree + 1)).map f) p.origin).value t = p.value t + v := by
  rw [value_map_range, Poly.value, sum_range_succ', sum_range_succ', h0]
  have : ∑ k ∈ range p.degree, (t - p.origin) ^ (k + 1) • f (k + 1) = ∑ k ∈ range p.degree, (t - p.origin) ^ (k + 1) • p.get (k + 1) :=
    sum_congr rfl fun i _ => by rw [hf (i + 1) (by omega)]
  rw [this]
  simp [add_assoc]

/-- **C38** (constants): adding or subtracting a constant. -/
theorem C38_constant (p : Poly K V) (v : V) (t : K) :
    (p.addConstant v).value t = p.value t + v ∧ (p.subConstant v).value t = p.value t - v ∧
      (Poly.constantSub v p).value t = v - p.value t := by
  refine ⟨?_, ?_, ?_⟩
  · exact value_change_zero p _ v (by simp) (fun i hi => by simp [show i ≠ 0 by omega]) t
  · rw [sub_eq_add_neg]
    exact value_change_zero p _ (-v) (by simp [sub_eq_add_neg]) (fun i hi => by simp [show i ≠ 0 by omega]) t
  · have h : p.neg.degree = p.degree := by simp [Poly.neg, Poly.degree]
    have g : ∀ i, p.neg.get i = - p.get i := fun i => get_map p (fun v => -v) neg_zero p.origin i
    have e : Poly.constantSub v p = Poly.mk ((List.range (p.neg.degree + 1)).map fun i => if i = 0 then v - p.get i else - p.get i)
        p.neg.origin := by rw [h]; rfl
    rw [e, value_change_zero p.neg _ v (by rw [g]; simp; abel) (fun i hi => by rw [g]; simp [show i ≠ 0 by omega]) t, (C38_neg p t).1]
    abel

section

variable [DecidableEq K]

theorem ppow_spec (n : Nat) (h : 0 < n) (p : Poly K K) :
    ∃ r, Poly.ppow p n = some r ∧ r.origin = p.origin ∧ r.degree = n * p.degree ∧ ∀ t, r.value t = p.value t ^ n := by
  induction n using Nat.strongRecOn generalizing p with
  | _ n ih =>
    rw [Poly.ppow, if_neg (by omega)]
    by_cases h1 : n = 1
    · subst h1; exact ⟨p, by simp, rfl, by simp, by simp⟩
    rw [if_neg h1]
    obtain ⟨p2, e2, o2, d2, v2⟩ := C38_product (LinearMap.mul K K) p p rfl
    obtain ⟨r, er, or', dr, vr⟩ := ih (n / 2) (by omega) (by omega) p2
    by_cases hm : n % 2 = 0
    · rw [if_pos hm]
      refine ⟨r, by simp [e2, er], by rw [or', o2], ?_, fun t => ?_⟩
      · rw [dr, d2, ← Nat.two_mul, ← Nat.mul_assoc]; congr 1; omega
      · rw [vr, v2]; simp only [LinearMap.mul_apply_apply]; rw [← pow_two, ← pow_mul]; congr 1; omega
    · rw [if_neg hm]
      obtain ⟨s, es, os, ds, vs⟩ := C38_product (LinearMap.mul K K) r p (by rw [or', o2])
      refine ⟨s, by simp [e2, er, es], by rw [os, or', o2], ?_, fun t => ?_⟩
      · rw [ds, dr, d2, ← Nat.two_mul, ← Nat.mul_assoc, ← Nat.succ_mul]; congr 1; omega
      · rw [vs, vr, v2]; simp only [LinearMap.mul_apply_apply]; rw [← pow_two, ← pow_mul, ← pow_succ]; congr 1; omega

/-- **C38** (composition): the value of the composition is the composition of the values. -/
theorem C38_composition (p : Poly K V) (q : Poly K K) :
    ∃ r, Poly.compose p q = some r ∧ r.origin = q.origin ∧ r.degree = p.degree * q.degree ∧ ∀ t, r.value t = p.value (q.value t) := by
  have key : ∀ n, n ≤ p.degree → ∃ c,
      (List.range (n + 1)).foldlM (Poly.composeStep p q) (List.replicate (p.degree * q.degree + 1) 0) = some c ∧
      c.length = p.degree * q.degree + 1 ∧
      ∀ t, listValue c (t - q.origin) = ∑ i ∈ range (n + 1), (q.value t - p.origin) ^ i • p.get i := by
    intro n
    induction n with
    | zero =>
      intro _
      refine ⟨(List.replicate (p.degree * q.degree + 1) 0).set 0 (p.get 0), by simp [Poly.composeStep], by simp, fun t => ?_⟩
      have : (List.replicate (p.degree * q.degree + 1) 0).set 0 (p.get 0) =
          Poly.addAt (List.replicate (p.degree * q.degree + 1) 0) 0 (p.get 0) := by
        simp [Poly.addAt, List.replicate_succ, List.modify_cons]
      rw [this, listValue_addAt _ _ _ _ (by simp), listValue_replicate]
      simp
    | succ n ih =>
      intro hn
      obtain ⟨c, e, l, v⟩ := ih (by omega)
      have hd : (q.subConstant p.origin).degree = q.degree := degree_map_range _ _ _
      obtain ⟨r, er, or', dr, vr⟩ := ppow_spec (n + 1) (by omega) (q.subConstant p.origin)
      rw [List.range_succ, List.foldlM_append, e]
      simp only [List.foldlM_cons, List.foldlM_nil, Option.bind_eq_bind, Option.bind_some, Poly.composeStep, Nat.add_eq_zero_iff,
        one_ne_zero, and_false, if_false, er, Option.pure_def]
      have hm := (value_vmul (p.get (n + 1)) r 0).2
      have := listValue_foldl_addAt (K := K) (fun j => (Poly.vmul (p.get (n + 1)) r).get j) 0 ((Poly.vmul (p.get (n + 1)) r).degree + 1) c
      simp only [Nat.zero_add, pow_zero, one_smul] at this
      have hl : (Poly.vmul (p.get (n + 1)) r).degree + 1 ≤ c.length := by
        rw [hm, dr, hd, l]
        have := Nat.mul_le_mul_right q.degree hn
        omega
      refine ⟨_, rfl, by rw [(this (0 : K) hl).2, l], fun t => ?_⟩
      rw [(this _ hl).1, v, sum_range_succ _ (n + 1)]
      congr 1
      have : q.origin = (Poly.vmul (p.get (n + 1)) r).origin := by
        show _ = r.origin
        rw [or']; rfl
      have hv := (value_vmul (p.get (n + 1)) r t).1
      unfold Poly.value at hv
      rw [this]
      refine hv.trans ?_
      have := vr t
      unfold Poly.value at this
      rw [this]
      have hc := (C38_constant q p.origin t).2.1
      unfold Poly.value at hc ⊢
      rw [hc]
  obtain ⟨c, e, l, v⟩ := key p.degree (Nat.le_refl _)
  refine ⟨{ coeffs := c, origin := q.origin }, by simp [Poly.compose, e], rfl, by simp [Poly.degree] at l ⊢; omega, fun t => ?_⟩
  rw [value_eq_list]
  exact v t

end

/-- **C38** (change of origin): the values do not change, and the origin is the one requested. -/
theorem C38_at_origin (p : Poly K V) (o t : K) :
    (p.atOrigin o).value t = p.value t ∧ (p.atOrigin o).origin = o ∧ (p.atOrigin o).degree = p.degree := by
  have key : ∀ (l : List (List V)) (s : List V) (y : K), (∀ c ∈ l, c.length = s.length) →
      listValue (l.foldl (fun sum c => List.zipWith (· + ·) sum c) s) y = listValue s y + (l.map fun c => listValue c y).sum ∧
      (l.foldl (fun sum c => List.zipWith (· + ·) sum c) s).length = s.length := by
    intro l
    induction l with
    | nil => intro s y _; simp
    | cons c l ih =>
      intro s y h
      have hc := h c (by simp)
      have hz : (List.zipWith (· + ·) s c).length = s.length := by simp [hc]
      obtain ⟨i1, i2⟩ := ih (List.zipWith (· + ·) s c) y (fun d hd => by rw [hz]; exact h d (by simp [hd]))
      rw [List.foldl_cons]
      refine ⟨?_, by rw [i2, hz]⟩
      rw [i1, List.map_cons, List.sum_cons, ← add_assoc]
      congr 1
      unfold listValue
      rw [hz, hc, ← sum_add_distrib]
      refine sum_congr rfl fun i hi => ?_
      have hi := mem_range.1 hi
      rw [← smul_add]
      congr 1
      simp only [List.getD_eq_getElem?_getD, List.getElem?_zipWith]
      rw [List.getElem?_eq_getElem hi, List.getElem?_eq_getElem (by rw [hc]; exact hi)]
      simp
  have hl : ∀ c ∈ (List.range (p.degree + 1)).map (fun n => Poly.monomialAtOrigin p.degree n (p.get n) (o - p.origin)),
      c.length = (List.replicate (p.degree + 1) (0 : V)).length := by
    intro c hc
    obtain ⟨n, _, rfl⟩ := List.mem_map.1 hc
    simp [Poly.monomialAtOrigin]
  refine ⟨?_, rfl, ?_⟩
  · rw [value_eq_list]
    refine ((key _ (List.replicate (p.degree + 1) (0 : V)) (t - o) hl).1).trans ?_
    rw [listValue_replicate, zero_add, List.map_map]
    have hs : ∀ (n : Nat) (f : Nat → V), ((List.range n).map f).sum = ∑ i ∈ range n, f i := by
      intro n f
      induction n with
      | zero => simp
      | succ n ih => simp [List.range_succ, sum_range_succ, ih]
    rw [hs, Poly.value]
    refine sum_congr rfl fun n hn => ?_
    have hn := mem_range.1 hn
    simp only [Function.comp_apply, Poly.monomialAtOrigin]
    rw [listValue_map_range]
    have e : t - p.origin = (t - o) + (o - p.origin) := by ring
    rw [e, add_pow, sum_smul]
    obtain ⟨k, hk⟩ := Nat.exists_eq_add_of_le (show n + 1 ≤ p.degree + 1 by omega)
    rw [hk, sum_range_add]
    have z : ∑ x ∈ range k, (t - o) ^ (n + 1 + x) •
        (if n + 1 + x ≤ n then pow (o - p.origin) (n - (n + 1 + x)) • ((binomial n ((n + 1 + x : Nat) : Int) : Int) : K) • p.get n else 0) = 0 :=
      sum_eq_zero fun i _ => by rw [if_neg (by omega), smul_zero]
    rw [z, add_zero]
    refine sum_congr rfl fun i hi => ?_
    have hi := mem_range.1 hi
    rw [if_pos (by omega), pow_eq, binomial_eq n i (by omega), smul_smul, smul_smul]
    congr 1
    push_cast
    ring
  · have := (key _ (List.replicate (p.degree + 1) (0 : V)) 0 hl).2
    simp only [List.length_replicate] at this
    simp only [Poly.degree, Poly.atOrigin] at this ⊢
    omega

/-! ### Calculus, over the real numbers -/

section

variable {W : Type} [NormedAddCommGroup W] [NormedSpace ℝ W]

theorem hasDerivAt_sum (f : Nat → W) (n : Nat) (o t : ℝ) :
    HasDerivAt (fun t => ∑ i ∈ range (n + 1), (t - o) ^ i • f i) (∑ i ∈ range n, (t - o) ^ i • ((i + 1 : Nat) : ℝ) • f (i + 1)) t := by
  have h : ∀ i ∈ range (n + 1), HasDerivAt (fun t => (t - o) ^ i • f i) (((i : ℝ) * (t - o) ^ (i - 1)) • f i) t := by
    intro i _
    have := ((hasDerivAt_id t).sub_const o).pow i
    have := this.smul_const (f i)
    simpa using this
  refine (HasDerivAt.fun_sum h).congr_deriv ?_
  rw [sum_range_succ']
  simp only [Nat.cast_zero, zero_mul, zero_smul, add_zero]
  refine sum_congr rfl fun i _ => ?_
  rw [smul_smul, mul_comm, Nat.add_sub_cancel]

/-- **C38** (derivative evaluation): `EvaluateDerivative` computes the derivative of the polynomial, with both evaluators. -/
theorem C38_evaluate_derivative (ev : Evaluator) (p : Poly ℝ W) (t : ℝ) : HasDerivAt p.value (p.evalDerivative ev t) t := by
  rw [evalDerivative_eq]
  exact hasDerivAt_sum p.get p.degree p.origin t

/-- **C38** (derivative): the polynomial `Derivative<order>()` is the derivative of that order. -/
theorem C38_derivative (p : Poly ℝ W) (order : Nat) (h : order ≤ p.degree) :
    iteratedDeriv order p.value = (p.derivative order).value ∧ (p.derivative order).degree = p.degree - order := by
  refine ⟨?_, degree_map_range _ _ _⟩
  induction order with
  | zero =>
    rw [iteratedDeriv_zero]
    funext t
    rw [Poly.derivative, value_map_range]
    simp [Poly.value, fallingFactorial]
  | succ k ih =>
    rw [iteratedDeriv_succ, ih (by omega)]
    funext t
    have e1 : ∀ t, (p.derivative k).value t =
        ∑ i ∈ range (p.degree - k + 1), (t - p.origin) ^ i • ((fallingFactorial ((i + k : Nat) : Int) k : Int) : ℝ) • p.get (i + k) :=
      fun t => by rw [Poly.derivative, value_map_range]
    rw [funext e1, Poly.derivative, value_map_range, show p.degree - k = (p.degree - (k + 1) + 1) by omega]
    refine (hasDerivAt_sum _ _ _ _).deriv.trans ?_
    refine sum_congr rfl fun i _ => ?_
    congr 1
    rw [smul_smul, fallingFactorial_le (i + (k + 1)) (k + 1) (by omega), show i + 1 + k = i + (k + 1) by omega,
      fallingFactorial_le (i + (k + 1)) k (by omega), Nat.descFactorial_succ, show i + (k + 1) - k = i + 1 by omega]
    push_cast
    rfl

/-- **C38** (primitive): the derivative of the primitive is the polynomial, and the primitive vanishes at the origin. -/
theorem C38_primitive (p : Poly ℝ W) (t : ℝ) :
    HasDerivAt p.primitive.value (p.value t) t ∧ p.primitive.value p.origin = 0 ∧ p.primitive.degree = p.degree + 1 := by
  have e1 : ∀ t, p.primitive.value t =
      ∑ i ∈ range (p.degree + 1 + 1), (t - p.origin) ^ i • (if i = 0 then 0 else ((i : ℝ)⁻¹) • p.get (i - 1)) :=
    fun t => by rw [Poly.primitive, value_map_range]
  refine ⟨?_, ?_, degree_map_range _ _ _⟩
  · rw [funext e1]
    refine (hasDerivAt_sum _ _ _ _).congr_deriv ?_
    unfold Poly.value
    refine sum_congr rfl fun i _ => ?_
    have : ((i + 1 : Nat) : ℝ) ≠ 0 := by positivity
    rw [if_neg (by omega), Nat.add_sub_cancel, smul_smul, smul_smul, mul_assoc, mul_inv_cancel₀ this, mul_one]
  · rw [e1, sum_range_succ']
    simp

end

/-! ### Examples -/

/-- `1 + 2 (t - 3) + 5 (t - 3)² - (t - 3)³`. -/
def exP : Poly ℚ ℚ := ⟨[1, 2, 5, -1], 3⟩

/-- `2 (t - 3)²`. -/
def exQ : Poly ℚ ℚ := ⟨[0, 0, 2], 3⟩

example : exP.value 5 = 17 := by norm_num [Poly.value, exP, Poly.degree, Poly.get, sum_range_succ]
example : exP.degree = 3 ∧ exQ.degree = 2 ∧ exP.origin = exQ.origin := ⟨rfl, rfl, rfl⟩
example : exP.value 5 + exQ.value 5 = 25 := by norm_num [Poly.value, exP, exQ, Poly.degree, Poly.get, sum_range_succ]

end Principia.Polynomial
