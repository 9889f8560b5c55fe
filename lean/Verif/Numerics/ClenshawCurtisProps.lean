import Verif.Numerics.ClenshawCurtisModel
import Verif.Numerics.ClenshawCurtisSpec
import Verif.Numerics.ClenshawCurtisLemmas
import Verif.Numerics.FourierProps
import Verif.Base.BitsProps
import Mathlib.Data.List.Range
import Mathlib.Data.List.Perm.Basic
import Mathlib.Tactic.Module
import Mathlib.Tactic.ByContra

/-!
C81: the Clenshaw-Curtis quadrature.
-/

set_option linter.unusedSimpArgs false
set_option linter.unusedVariables false
set_option linter.unusedSectionVars false

namespace Principia.Numerics.Quadrature

open Geometry

noncomputable section

variable {V : Type} [NormedAddCommGroup V] [NormedSpace ℝ V]

/-! ## The cache -/

theorem rev_low (b k : ℕ) (hk : k < 2 ^ b) : Bits.rev (b + 1) k = 2 * Bits.rev b k := by
  induction b generalizing k with
  | zero => obtain rfl : k = 0 := by simpa using hk
            simp [Bits.rev]
  | succ b ih =>
    rw [Bits.rev, ih (k / 2) (by rw [pow_succ] at hk; omega)]
    conv_rhs => rw [Bits.rev]
    rw [pow_succ]; ring

theorem rev_high (b k : ℕ) (hk : k < 2 ^ b) : Bits.rev (b + 1) (2 ^ b + k) = 2 * Bits.rev b k + 1 := by
  induction b generalizing k with
  | zero => obtain rfl : k = 0 := by simpa using hk
            simp [Bits.rev]
  | succ b ih =>
    have e1 : (2 ^ (b + 1) + k) / 2 = 2 ^ b + k / 2 := by rw [pow_succ]; omega
    have e2 : (2 ^ (b + 1) + k) % 2 = k % 2 := by rw [pow_succ]; omega
    rw [Bits.rev, e1, e2, ih (k / 2) (by rw [pow_succ] at hk; omega)]
    conv_rhs => rw [Bits.rev]
    rw [pow_succ]; ring

theorem node_eq (lower upper : ℝ) (N s : ℕ) : lower + (upper - lower) / 2 * (1 + lobattoPoint N s) = node lower upper N s := by
  rw [node, lobattoPoint]; ring

theorem node_double (lower upper : ℝ) (N s : ℕ) : node lower upper (2 * N) (2 * s) = node lower upper N s := by
  rw [node, node]; congr 3; push_cast
  rw [← mul_assoc, mul_comm Real.pi 2, mul_assoc, mul_div_mul_left _ _ two_ne_zero]

theorem node_zero (lower upper : ℝ) (N : ℕ) : node lower upper N 0 = upper := by
  rw [node]; simp; ring

theorem node_last (lower upper : ℝ) (N : ℕ) (hN : 0 < N) : node lower upper N N = lower := by
  have : (N : ℝ) ≠ 0 := by exact_mod_cast hN.ne'
  rw [node, mul_div_cancel_right₀ _ this, Real.cos_pi]; ring

theorem node_mirror (lower upper : ℝ) (N s : ℕ) (hN : 0 < N) (hs : s ≤ 2 * N) : node lower upper N (2 * N - s) = node lower upper N s := by
  have : (N : ℝ) ≠ 0 := by exact_mod_cast hN.ne'
  rw [node, node, Nat.cast_sub hs]
  have e : Real.pi * (((2 * N : ℕ) : ℝ) - s) / N = 2 * Real.pi - Real.pi * s / N := by push_cast; field_simp
  rw [e, Real.cos_two_pi_sub]

/-- The arguments in the order in which they are put in the cache. -/
def order (lower upper : ℝ) (l : ℕ) : List ℝ := lower :: (List.range (2 ^ l)).map fun j => node lower upper (2 ^ l) (Bits.rev l j)

def filled (f : ℝ → V) (lower upper : ℝ) (l : ℕ) : Cache V := ⟨(order lower upper l).map f, order lower upper l⟩

theorem fillLoop_eq (f : ℝ → V) (lower upper : ℝ) (N bits : ℕ) (hb : bits < 32) (k j : ℕ) (c : Cache V) :
    fillLoop f lower ((upper - lower) / 2) N bits k (Bits.rev bits j) c =
      some ⟨c.values ++ (List.range k).map (fun i => f (node lower upper N (2 * Bits.rev bits (j + i) + 1))),
        c.calls ++ (List.range k).map (fun i => node lower upper N (2 * Bits.rev bits (j + i) + 1))⟩ := by
  induction k generalizing j c with
  | zero => simp [fillLoop]
  | succ k ih =>
    rw [fillLoop, Bits.bitReversedIncrement_eq _ _ hb (Bits.rev_lt _ _), Bits.incTop_rev]
    simp only [Option.bind_eq_bind, Option.bind_some, node_eq]
    rw [ih (j + 1)]
    simp only [Cache.push, List.range_succ_eq_map, List.map_cons, List.map_map, List.append_assoc, List.cons_append, List.nil_append, Nat.add_zero, Function.comp_def, Nat.succ_eq_add_one]
    simp only [show ∀ i, j + 1 + i = j + (i + 1) from fun i => by omega]

theorem filled_succ (f : ℝ → V) (lower upper : ℝ) (l : ℕ) (hl : l < 32) :
    fillLoop f lower ((upper - lower) / 2) (2 ^ (l + 1)) (l + 1 - 1) (2 ^ (l + 1) / 2) 0 (filled f lower upper l) = some (filled f lower upper (l + 1)) := by
  have e : 2 ^ (l + 1) / 2 = 2 ^ l := by rw [pow_succ]; omega
  have h := fillLoop_eq f lower upper (2 ^ (l + 1)) l hl (2 ^ l) 0 (filled f lower upper l)
  rw [Bits.rev_zero] at h
  rw [e, Nat.add_sub_cancel, h]
  have o : order lower upper (l + 1) = order lower upper l ++ (List.range (2 ^ l)).map fun i => node lower upper (2 ^ (l + 1)) (2 * Bits.rev l (0 + i) + 1) := by
    have e2 : 2 ^ (l + 1) = 2 ^ l + 2 ^ l := by rw [pow_succ]; omega
    have hr : List.range (2 ^ (l + 1)) = List.range (2 ^ l) ++ (List.range (2 ^ l)).map (2 ^ l + ·) := by rw [e2, List.range_add]
    rw [order, order, hr, List.map_append, List.cons_append, List.map_map]
    congr 2
    · apply List.map_congr_left
      intro j hj
      rw [rev_low _ _ (List.mem_range.mp hj), pow_succ, Nat.mul_comm (2 ^ l), node_double]
    · apply List.map_congr_left
      intro j hj
      simp only [Function.comp, Nat.zero_add]
      rw [rev_high _ _ (List.mem_range.mp hj)]
  simp only [filled, o, List.map_append, List.map_map, Function.comp_def]

theorem filled_length (f : ℝ → V) (lower upper : ℝ) (l : ℕ) : (filled f lower upper l).values.length = 2 ^ l + 1 := by
  simp [filled, order]

/-- A state of the cache when it is used for `2 ^ l + 1` points. -/
def Usable (f : ℝ → V) (lower upper : ℝ) (l : ℕ) (c : Cache V) : Prop := c = ⟨[], []⟩ ∨ ∃ m, m ≤ l ∧ c = filled f lower upper m

theorem fill_eq (f : ℝ → V) (lower upper : ℝ) (l : ℕ) (hl : l ≤ 32) (c : Cache V) (hc : Usable f lower upper l c) :
    fill f lower upper l c = some (filled f lower upper l) := by
  induction l with
  | zero =>
    rcases hc with rfl | ⟨m, hm, rfl⟩
    · simp [fill, filled, order, Cache.push, Bits.rev, node_zero]
    · obtain rfl : m = 0 := by omega
      rw [fill, if_pos (by rw [filled_length])]
  | succ l ih =>
    have two : 2 ^ l < 2 ^ (l + 1) := Nat.pow_lt_pow_right (by norm_num) (by omega)
    by_cases h : c = filled f lower upper (l + 1)
    · rw [h, fill, if_pos (by rw [filled_length])]
    · have hu : Usable f lower upper l c := by
        rcases hc with rfl | ⟨m, hm, rfl⟩
        · exact Or.inl rfl
        · refine Or.inr ⟨m, ?_, rfl⟩
          by_contra h'
          obtain rfl : m = l + 1 := by omega
          exact h rfl
      have hlen : c.values.length < 2 ^ (l + 1) + 1 := by
        rcases hu with rfl | ⟨m, hm, rfl⟩
        · simp
        · rw [filled_length]
          have := Nat.pow_le_pow_right (n := 2) (by norm_num) hm
          omega
      rw [fill, if_neg (by omega), ih (by omega) hu]
      simp only [Option.bind_eq_bind, Option.bind_some]
      exact filled_succ f lower upper l (by omega)

/-! ## The array given to the Fourier transform -/

theorem copyLoop_eq (f : ℝ → V) (lower upper : ℝ) (l : ℕ) (hl : l < 32) (k j : ℕ) (hj : j + k = 2 ^ l) (a : ℕ → V)
    (ha : ∀ t, t < 2 * 2 ^ l → t ≠ 2 ^ l → Bits.rev l (if t < 2 ^ l then t else 2 * 2 ^ l - t) < j → a t = f (node lower upper (2 ^ l) t)) :
    ∃ b, copyLoop (filled f lower upper l).values (2 ^ l) l k (j + 1) (Bits.rev l j) a = some b ∧
      ∀ t, t < 2 * 2 ^ l → t ≠ 2 ^ l → b t = f (node lower upper (2 ^ l) t) := by
  have pos : 0 < 2 ^ l := by positivity
  induction k generalizing j a with
  | zero =>
    refine ⟨a, rfl, fun t h1 h2 => ha t h1 h2 ?_⟩
    obtain rfl : j = 2 ^ l := by omega
    exact Bits.rev_lt _ _
  | succ k ih =>
    have hv : (filled f lower upper l).values[j + 1]? = some (f (node lower upper (2 ^ l) (Bits.rev l j))) := by
      simp [filled, order, show j < 2 ^ l by omega]
    rw [copyLoop, hv]
    simp only [Option.bind_eq_bind, Option.bind_some]
    rw [Bits.bitReversedIncrement_eq _ _ hl (Bits.rev_lt _ _), Bits.incTop_rev]
    simp only [Option.bind_some]
    apply ih (j + 1) (by omega)
    intro t h1 h2 h3
    have hs := Bits.rev_lt l j
    set s := Bits.rev l j with hsd
    by_cases t1 : t = s
    · subst t1
      by_cases h0 : 0 < s
      · rw [if_pos h0, Function.update_of_ne (by omega), Function.update_self]
      · rw [if_neg h0, Function.update_self]
    · by_cases t2 : t = 2 * 2 ^ l - s
      · by_cases h0 : 0 < s
        · rw [if_pos h0, t2, Function.update_self, Function.update_self, node_mirror _ _ _ _ pos (by omega)]
        · omega
      · have : (if 0 < s then Function.update (Function.update a s (f (node lower upper (2 ^ l) s))) (2 * 2 ^ l - s)
            (Function.update a s (f (node lower upper (2 ^ l) s)) s) else Function.update a s (f (node lower upper (2 ^ l) s))) t = a t := by
          by_cases h0 : 0 < s
          · rw [if_pos h0, Function.update_of_ne t2, Function.update_of_ne t1]
          · rw [if_neg h0, Function.update_of_ne t1]
        rw [this]
        apply ha t h1 h2
        have hne : Bits.rev l (if t < 2 ^ l then t else 2 * 2 ^ l - t) ≠ j := by
          intro h
          have h4 : (if t < 2 ^ l then t else 2 * 2 ^ l - t) < 2 ^ l := by split <;> omega
          have := Bits.rev_rev l _ h4
          rw [h, ← hsd] at this
          split at this <;> omega
        omega

/-! ## The sum -/

theorem sum_re {ι : Type} (s : Finset ι) (z : ι → Cx V) : (∑ i ∈ s, z i).re = ∑ i ∈ s, (z i).re := by
  classical
  induction s using Finset.induction_on with
  | empty => rfl
  | insert a s ha ih => rw [Finset.sum_insert ha, Finset.sum_insert ha, ← ih]; rfl

theorem fourier_re (N n : ℕ) (v : ℕ → V) (hN : 0 < N) : (Fourier.fourier (2 * N) (fun r => Cx.ofReal (v r)) n).re = ∑ r ∈ Finset.range (2 * N), Real.cos (Real.pi * r * n / N) • v r := by
  have hN' : (N : ℂ) ≠ 0 := by exact_mod_cast hN.ne'
  rw [Fourier.fourier, sum_re]
  refine Finset.sum_congr rfl fun r _ => ?_
  have e : -(2 * (Real.pi : ℂ) * Complex.I * r * n / ((2 * N : ℕ) : ℂ)) = ((-(Real.pi * r * n / N) : ℝ) : ℂ) * Complex.I := by
    push_cast; field_simp
  rw [Cx.smul_re, e, Complex.exp_ofReal_mul_I_re, Real.cos_neg]
  simp [Cx.ofReal]

/-- The sum computed by the quadrature. -/
def ruleV (N : ℕ) (a : ℕ → V) : V :=
  (N : ℝ)⁻¹ • ∑ j ∈ Finset.range (N / 2 + 1), (1 - ((2 * j : ℕ) : ℝ) * ((2 * j : ℕ) : ℝ))⁻¹ •
    ((if 2 * j = 0 ∨ 2 * j = N then (1 : ℝ) else 2) • ∑ r ∈ Finset.range (2 * N), Real.cos (Real.pi * r * ((2 * j : ℕ) : ℝ) / N) • a r)

theorem foldl_add (n : ℕ) (t : ℕ → V) : (List.range n).foldl (fun sum k => sum + t k) 0 = ∑ k ∈ Finset.range n, t k := by
  induction n with
  | zero => rfl
  | succ n ih => rw [List.range_succ, List.foldl_append, ih, Finset.sum_range_succ]; rfl

/-- The value of the quadrature. -/
def value (f : ℝ → V) (lower upper : ℝ) (l : ℕ) : V := ((upper - lower) / 2) • ruleV (2 ^ l) fun r => f (node lower upper (2 ^ l) r)

theorem implementation_eq (f : ℝ → V) (lower upper : ℝ) (l : ℕ) (hl : l < 31) (c : Cache V) (hc : Usable f lower upper l c) :
    implementation f lower upper l c = some (value f lower upper l, filled f lower upper l) := by
  have pos : 0 < 2 ^ l := by positivity
  have hpos : ((2 ^ l : ℕ) : ℝ) ≠ 0 := by exact_mod_cast pos.ne'
  obtain ⟨b, hb, hb'⟩ := copyLoop_eq f lower upper l (by omega) (2 ^ l) 0 (by omega) (fun _ => 0) (by intro t _ _ h; omega)
  rw [Bits.rev_zero, Nat.zero_add] at hb
  have h0 : (filled f lower upper l).values[0]? = some (f lower) := by simp [filled, order]
  set a := Function.update b (2 ^ l) (f lower) with ha
  have ha' : ∀ t, t < 2 * 2 ^ l → a t = f (node lower upper (2 ^ l) t) := by
    intro t ht
    by_cases h : t = 2 ^ l
    · rw [h, ha, Function.update_self, node_last _ _ _ pos]
    · rw [ha, Function.update_of_ne h, hb' t ht h]
  have hπ : Real.pi / ((2 ^ l : ℕ) : ℝ) ≠ 0 := div_ne_zero Real.pi_ne_zero hpos
  obtain ⟨fft, h1, h2, -⟩ := Fourier.C40_dft (l + 1) (by omega) a (Real.pi / ((2 ^ l : ℕ) : ℝ)) hπ
  have e2 : 2 ^ (l + 1) = 2 * 2 ^ l := by rw [pow_succ, Nat.mul_comm]
  rw [e2] at h1 h2
  rw [implementation]
  simp only [fill_eq f lower upper l (by omega) c hc, Option.bind_eq_bind, Option.bind_some, hb, h0, ← ha, h1]
  rw [foldl_add]
  simp only [Option.pure_def, Option.some.injEq, Prod.mk.injEq, and_true]
  rw [value, ruleV]
  congr 2
  refine Finset.sum_congr rfl fun j hj => ?_
  rw [Finset.mem_range] at hj
  have hj' : 2 * j < 2 * 2 ^ l := by omega
  rw [term, h2 _ hj', fourier_re _ _ _ pos]
  congr 2
  refine Finset.sum_congr rfl fun r hr => ?_
  rw [Finset.mem_range] at hr
  rw [ha' r hr]

/-! ## The theorems -/

theorem clenshawCurtis_eq (f : ℝ → V) (lower upper : ℝ) (l : ℕ) (hl : l < 31) :
    clenshawCurtis f lower upper l = some (value f lower upper l, filled f lower upper l) :=
  implementation_eq f lower upper l hl _ (Or.inl rfl)

theorem ruleV_smul (N : ℕ) (b : ℕ → ℝ) (v : V) : ruleV N (fun r => b r • v) = rule N b • v := by
  simp only [ruleV, rule, Finset.sum_smul, Finset.smul_sum, Finset.mul_sum, smul_smul]

theorem ruleV_add (N : ℕ) (a b : ℕ → V) : ruleV N (fun r => a r + b r) = ruleV N a + ruleV N b := by
  simp only [ruleV, smul_add, Finset.sum_add_distrib]

theorem ruleV_zero (N : ℕ) : ruleV N (fun _ => (0 : V)) = 0 := by
  simp [ruleV]

theorem value_polynomial (lower upper : ℝ) (l : ℕ) (f : ℝ → V) (c : ℕ → V) (d : ℕ) (hd : d ≤ 2 ^ l + 1)
    (hf : ∀ r, f (node lower upper (2 ^ l) r) = ∑ k ∈ Finset.range d, node lower upper (2 ^ l) r ^ k • c k) :
    value f lower upper l = ∑ k ∈ Finset.range d, (∫ x in lower..upper, x ^ k) • c k := by
  have pos : 0 < 2 ^ l := by positivity
  rw [value]
  simp only [hf]
  clear hf
  induction d with
  | zero => simp [ruleV_zero]
  | succ d ih =>
    simp only [Finset.sum_range_succ]
    rw [ruleV_add, smul_add, ih (by omega), ruleV_smul, smul_smul]
    congr 2
    have h := rule_exact_interval (2 ^ l) pos (Polynomial.X ^ d) (by simp; omega) lower upper
    simp only [Polynomial.eval_pow, Polynomial.eval_X] at h
    rw [← h]
    simp only [← node_eq, lobattoPoint]

/-- C81.  The result of the quadrature with `N + 1` points, where `N = 2 ^ l`, is the integral of the polynomial of degree at most `N` that takes the same values as `f` at the `N + 1` nodes.  In
particular, the quadrature is exact if `f` is a polynomial of degree at most `N`. -/
theorem C81_exact [CompleteSpace V] (f : ℝ → V) (lower upper : ℝ) (l : ℕ) (hl : l < 31) (c : ℕ → V)
    (hf : ∀ s, s ≤ 2 ^ l → f (node lower upper (2 ^ l) s) = polynomial c (2 ^ l) (node lower upper (2 ^ l) s)) :
    ∃ cache, clenshawCurtis f lower upper l = some (∫ x in lower..upper, polynomial c (2 ^ l) x, cache) := by
  have pos : 0 < 2 ^ l := by positivity
  refine ⟨filled f lower upper l, ?_⟩
  rw [clenshawCurtis_eq f lower upper l hl]
  congr 2
  have key : value f lower upper l = value (polynomial c (2 ^ l)) lower upper l := by
    rw [value, value, ruleV, ruleV]
    congr 2
    refine Finset.sum_congr rfl fun j _ => ?_
    congr 2
    refine Finset.sum_congr rfl fun r hr => ?_
    rw [Finset.mem_range] at hr
    congr 1
    by_cases h : r ≤ 2 ^ l
    · exact hf r h
    · have := hf (2 * 2 ^ l - r) (by omega)
      rwa [node_mirror _ _ _ _ pos (by omega)] at this
  rw [key, value_polynomial lower upper l (polynomial c (2 ^ l)) c (2 ^ l + 1) le_rfl (fun r => rfl)]
  simp only [polynomial]
  rw [intervalIntegral.integral_finsetSum]
  · refine Finset.sum_congr rfl fun k _ => ?_
    rw [intervalIntegral.integral_smul_const]
  · intro k _
    exact ((continuous_pow k).smul continuous_const).intervalIntegrable _ _

/-- The hypothesis of C81_exact: the square root is not a polynomial, but it takes at the nodes 0, 1/2 and 1 the same values as a polynomial; in that case the quadrature is Simpson's rule. -/
example (f : ℝ → ℝ) : ∃ c : ℕ → ℝ, ∀ s, s ≤ 2 ^ 1 → f (node 0 1 (2 ^ 1) s) = polynomial c (2 ^ 1) (node 0 1 (2 ^ 1) s) := by
  have n0 : node 0 1 (2 ^ 1) 0 = 1 := node_zero _ _ _
  have n1 : node 0 1 (2 ^ 1) 1 = 1 / 2 := by simp [node]
  have n2 : node 0 1 (2 ^ 1) 2 = 0 := node_last 0 1 2 (by norm_num)
  refine ⟨fun k => if k = 0 then f 0 else if k = 1 then 4 * f (1 / 2) - 3 * f 0 - f 1 else 2 * f 0 - 4 * f (1 / 2) + 2 * f 1, ?_⟩
  intro s hs
  obtain rfl | rfl | rfl : s = 0 ∨ s = 1 ∨ s = 2 := by omega
  · rw [n0]; simp [polynomial, Finset.sum_range_succ]; ring
  · rw [n1]; simp [polynomial, Finset.sum_range_succ]; ring
  · rw [n2]; simp [polynomial, Finset.sum_range_succ]

theorem order_perm (lower upper : ℝ) (l : ℕ) : (order lower upper l).Perm ((List.range (2 ^ l + 1)).map (node lower upper (2 ^ l))) := by
  have pos : 0 < 2 ^ l := by positivity
  have h : ((List.range (2 ^ l)).map (Bits.rev l)).Perm (List.range (2 ^ l)) := by
    refine (List.perm_ext_iff_of_nodup ?_ List.nodup_range).mpr ?_
    · refine List.Nodup.map_on ?_ List.nodup_range
      intro x hx y hy e
      rw [← Bits.rev_rev l x (List.mem_range.mp hx), e, Bits.rev_rev l y (List.mem_range.mp hy)]
    · intro a
      rw [List.mem_map, List.mem_range]
      constructor
      · rintro ⟨k, -, rfl⟩; exact Bits.rev_lt _ _
      · intro ha; exact ⟨Bits.rev l a, List.mem_range.mpr (Bits.rev_lt _ _), Bits.rev_rev l a ha⟩
  rw [List.range_succ, List.map_append, List.map_singleton, node_last _ _ _ pos, order]
  refine List.Perm.trans ?_ (List.perm_append_comm (l₁ := [lower]))
  refine List.Perm.cons _ ?_
  have := h.map (node lower upper (2 ^ l))
  rwa [List.map_map] at this

/-- C81.  The function is evaluated exactly once at each of the nodes, and nowhere else. -/
theorem C81_evaluations (f : ℝ → V) (lower upper : ℝ) (l : ℕ) (hl : l < 31) :
    ∃ r cache, clenshawCurtis f lower upper l = some (r, cache) ∧ cache.calls.Perm ((List.range (2 ^ l + 1)).map (node lower upper (2 ^ l))) :=
  ⟨_, _, clenshawCurtis_eq f lower upper l hl, order_perm lower upper l⟩

open Classical in
theorem automaticImplementation_eq (f : ℝ → V) (lower upper : ℝ) (e : Option ℝ) (p : Option ℤ) (l : ℕ) (hl : l + 1 < 31) (r : V) (c : Cache V) :
    automaticImplementation f lower upper e p (l + 1) (value f lower upper l) (filled f lower upper l) = some (r, c) ↔
      ∃ m, l < m ∧ (m ≤ 24 ∨ m = l + 1) ∧ Acceptable e p (value f lower upper (m - 1)) (value f lower upper m) (2 ^ m + 1) ∧
        (∀ j, l < j → j < m → ¬ Acceptable e p (value f lower upper (j - 1)) (value f lower upper j) (2 ^ j + 1)) ∧
        (value f lower upper m, filled f lower upper m) = (r, c) := by
  rw [automaticImplementation, implementation_eq f lower upper (l + 1) hl _ (Or.inr ⟨l, by omega, rfl⟩)]
  simp only [Option.bind_eq_bind, Option.bind_some]
  have hA : ((∀ x ∈ e, x * ‖value f lower upper (l + 1)‖ < ‖value f lower upper l - value f lower upper (l + 1)‖) ∧ ∀ m ∈ p, ((2 ^ (l + 1) + 1 : ℕ) : ℤ) < m) ↔
      ¬ Acceptable e p (value f lower upper (l + 1 - 1)) (value f lower upper (l + 1)) (2 ^ (l + 1) + 1) := by
    rw [Acceptable, Nat.add_sub_cancel]
    simp only [Option.mem_def]
    push Not
    rfl
  by_cases h : Acceptable e p (value f lower upper (l + 1 - 1)) (value f lower upper (l + 1)) (2 ^ (l + 1) + 1)
  · rw [if_neg (by rw [hA]; exact not_not.mpr h), Option.pure_def, Option.some.injEq]
    constructor
    · intro h'
      exact ⟨l + 1, by omega, Or.inr rfl, h, fun j h1 h2 => by omega, h'⟩
    · rintro ⟨m, h1, -, -, h4, h5⟩
      obtain rfl : m = l + 1 := by
        by_contra hm
        exact h4 (l + 1) (by omega) (by omega) h
      exact h5
  · rw [if_pos (hA.mpr h)]
    by_cases h24 : 2 ^ 24 < 2 ^ (l + 1) + 1
    · rw [dif_pos h24]
      have : 24 ≤ l + 1 := by
        by_contra hc
        have := Nat.pow_le_pow_right (n := 2) (by norm_num) (show l + 1 ≤ 23 by omega)
        norm_num at this h24; omega
      constructor
      · intro h; cases h
      · rintro ⟨m, h1, h2, h3, -⟩
        obtain rfl : m = l + 1 := by omega
        exact absurd h3 h
    · rw [dif_neg h24]
      have : l + 1 < 24 := by
        by_contra hc
        have := Nat.pow_le_pow_right (n := 2) (by norm_num) (show 24 ≤ l + 1 by omega)
        omega
      rw [automaticImplementation_eq f lower upper e p (l + 1) (by omega) r c]
      constructor
      · rintro ⟨m, h1, h2, h3, h4, h5⟩
        refine ⟨m, by omega, by omega, h3, fun j j1 j2 => ?_, h5⟩
        by_cases hj : j = l + 1
        · rw [hj]; exact h
        · exact h4 j (by omega) j2
      · rintro ⟨m, h1, h2, h3, h4, h5⟩
        have : m ≠ l + 1 := by rintro rfl; exact h h3
        exact ⟨m, by omega, by omega, h3, fun j j1 j2 => h4 j (by omega) j2, h5⟩
termination_by 24 - l

/-- The criterion for the estimate with `2 ^ m + 1` points, in terms of the quadratures with `2 ^ (m - 1) + 1` and `2 ^ m + 1` points. -/
def AcceptableAt (f : ℝ → V) (lower upper : ℝ) (e : Option ℝ) (p : Option ℤ) (m : ℕ) : Prop :=
  ∃ previous estimate c c', clenshawCurtis f lower upper (m - 1) = some (previous, c) ∧ clenshawCurtis f lower upper m = some (estimate, c') ∧
    Acceptable e p previous estimate (2 ^ m + 1)

theorem acceptableAt_iff (f : ℝ → V) (lower upper : ℝ) (e : Option ℝ) (p : Option ℤ) (m : ℕ) (hm : m < 31) :
    AcceptableAt f lower upper e p m ↔ Acceptable e p (value f lower upper (m - 1)) (value f lower upper m) (2 ^ m + 1) := by
  rw [AcceptableAt, clenshawCurtis_eq f lower upper m hm, clenshawCurtis_eq f lower upper (m - 1) (by omega)]
  simp only [Option.some.injEq, Prod.mk.injEq]
  constructor
  · rintro ⟨_, _, _, _, ⟨rfl, -⟩, ⟨rfl, -⟩, h⟩; exact h
  · intro h; exact ⟨_, _, _, _, ⟨rfl, rfl⟩, ⟨rfl, rfl⟩, h⟩

/-- C81.  The automatic quadrature returns the same result, with the same evaluations of the function, each done only once, as the quadrature for the first number of points, greater than the initial
one, for which the criterion is met.  If there is no such number of points up to `2 ^ 24 + 1`, it fails. -/
theorem C81_automatic (f : ℝ → V) (lower upper : ℝ) (e : Option ℝ) (p : Option ℤ) (l : ℕ) (hl : l < 30) (r : V) (c : Cache V) :
    automaticClenshawCurtis f lower upper e p l = some (r, c) ↔
      ∃ m, l < m ∧ (m ≤ 24 ∨ m = l + 1) ∧ AcceptableAt f lower upper e p m ∧ (∀ j, l < j → j < m → ¬ AcceptableAt f lower upper e p j) ∧
        clenshawCurtis f lower upper m = some (r, c) := by
  rw [automaticClenshawCurtis, implementation_eq f lower upper l (by omega) _ (Or.inl rfl)]
  simp only [Option.bind_eq_bind, Option.bind_some]
  rw [automaticImplementation_eq f lower upper e p l (by omega)]
  constructor
  · rintro ⟨m, h1, h2, h3, h4, h5⟩
    refine ⟨m, h1, h2, (acceptableAt_iff _ _ _ _ _ _ (by omega)).mpr h3, fun j j1 j2 h => h4 j j1 j2 ((acceptableAt_iff _ _ _ _ _ _ (by omega)).mp h), ?_⟩
    rw [clenshawCurtis_eq _ _ _ _ (by omega), h5]
  · rintro ⟨m, h1, h2, h3, h4, h5⟩
    refine ⟨m, h1, h2, (acceptableAt_iff _ _ _ _ _ _ (by omega)).mp h3, fun j j1 j2 h => h4 j j1 j2 ((acceptableAt_iff _ _ _ _ _ _ (by omega)).mpr h), ?_⟩
    rw [clenshawCurtis_eq _ _ _ _ (by omega)] at h5
    exact Option.some.inj h5

/-- C81.  If the number of points is limited, the automatic quadrature succeeds, and the number of evaluations of the function is at most twice the limit, or the number of points obtained by
one refinement of the initial ones. -/
theorem C81_max_points (f : ℝ → V) (lower upper : ℝ) (e : Option ℝ) (p : ℤ) (hp : p ≤ 2 ^ 24) (l : ℕ) (hl : l < 30) :
    ∃ r c, automaticClenshawCurtis f lower upper e (some p) l = some (r, c) ∧ ((c.calls.length : ℤ) = 2 ^ (l + 1) + 1 ∨ (c.calls.length : ℤ) ≤ 2 * p - 3) := by
  classical
  have hex : ∃ m, l < m ∧ Acceptable e (some p) (value f lower upper (m - 1)) (value f lower upper m) (2 ^ m + 1) := by
    refine ⟨max (l + 1) 24, by omega, Or.inr ⟨p, rfl, ?_⟩⟩
    have := Nat.pow_le_pow_right (n := 2) (by norm_num) (show 24 ≤ max (l + 1) 24 by omega)
    have : ((2 ^ 24 : ℕ) : ℤ) ≤ ((2 ^ max (l + 1) 24 : ℕ) : ℤ) := by exact_mod_cast this
    push_cast at *; linarith
  have hm := Nat.find_spec hex
  have hmin := fun j h => Nat.find_min hex (m := j) h
  set m := Nat.find hex with hmd
  have hle : m ≤ max (l + 1) 24 := by
    apply Nat.find_min' hex
    refine ⟨by omega, Or.inr ⟨p, rfl, ?_⟩⟩
    have := Nat.pow_le_pow_right (n := 2) (by norm_num) (show 24 ≤ max (l + 1) 24 by omega)
    have : ((2 ^ 24 : ℕ) : ℤ) ≤ ((2 ^ max (l + 1) 24 : ℕ) : ℤ) := by exact_mod_cast this
    push_cast at *; linarith
  refine ⟨value f lower upper m, filled f lower upper m, ?_, ?_⟩
  · rw [C81_automatic f lower upper e (some p) l hl]
    refine ⟨m, hm.1, by omega, (acceptableAt_iff _ _ _ _ _ _ (by omega)).mpr hm.2, ?_, clenshawCurtis_eq _ _ _ _ (by omega)⟩
    intro j j1 j2 h
    exact hmin j j2 ⟨j1, (acceptableAt_iff _ _ _ _ _ _ (by omega)).mp h⟩
  · have hlen : (filled f lower upper m).calls.length = 2 ^ m + 1 := by simp [filled, order]
    rw [hlen]
    by_cases h : m = l + 1
    · left; rw [h]; push_cast; rfl
    · right
      have h1 := hmin (m - 1) (by omega)
      have h2 : ((2 ^ (m - 1) + 1 : ℕ) : ℤ) < p := by
        by_contra h3
        exact h1 ⟨by omega, Or.inr ⟨p, rfl, by omega⟩⟩
      have h3 : (2 : ℕ) ^ m = 2 * 2 ^ (m - 1) := by
        rw [← pow_succ']; congr 1; omega
      rw [h3]; push_cast at *; omega

/-- C81.  The number of points may exceed `max_points`, contrary to what numerics/quadrature.hpp:28-29 says: for any function, a limit of 6 points results in 9 evaluations. -/
theorem C81_max_points_counterexample (f : ℝ → V) (lower upper : ℝ) :
    ∃ r c, automaticClenshawCurtis f lower upper none (some 6) 1 = some (r, c) ∧ c.calls.length = 9 := by
  refine ⟨value f lower upper 3, filled f lower upper 3, ?_, by simp [filled, order]⟩
  rw [C81_automatic f lower upper none (some 6) 1 (by norm_num)]
  refine ⟨3, by norm_num, by norm_num, (acceptableAt_iff _ _ _ _ _ _ (by norm_num)).mpr (Or.inr ⟨6, rfl, by norm_num⟩), ?_, clenshawCurtis_eq _ _ _ _ (by norm_num)⟩
  intro j j1 j2 h
  obtain rfl : j = 2 := by omega
  rcases (acceptableAt_iff _ _ _ _ _ _ (by norm_num)).mp h with ⟨_, h, -⟩ | ⟨m, h, h'⟩
  · cases h
  · cases h; norm_num at h'

/-- The hypotheses of C81_automatic and C81_max_points: the default number of initial points is 3, and the limit may be that of the heuristics for an oscillating function. -/
example (f : ℝ → ℝ) : ∃ r c, automaticClenshawCurtis f 0 1 (some (1 / 1000)) (some 100) 1 = some (r, c) ∧ ((c.calls.length : ℤ) = 5 ∨ (c.calls.length : ℤ) ≤ 197) :=
  C81_max_points f 0 1 (some (1 / 1000)) 100 (by norm_num) 1 (by norm_num)

/-! ## The midpoint rule -/

theorem midpoint_aux (lower h : ℝ) (v w : V) (n : ℕ) :
    (List.range n).foldl (fun result (i : ℕ) => result + h • ((lower + ((i : ℝ) + 1 / 2) * h) • v + w)) 0 =
      (((lower + n * h) ^ 2 - lower ^ 2) / 2) • v + (n * h) • w := by
  induction n with
  | zero => simp
  | succ n ih =>
    rw [List.range_succ, List.foldl_append, ih]
    simp only [List.foldl_cons, List.foldl_nil]
    push_cast
    module

/-- C81.  The midpoint rule is exact for the polynomials of degree at most 1. -/
theorem C81_midpoint [CompleteSpace V] (lower upper : ℝ) (intervals : ℤ) (hi : 0 < intervals) (v w : V) :
    midpoint (fun x => x • v + w) lower upper intervals = ∫ x in lower..upper, (x • v + w) := by
  rw [midpoint, midpoint_aux, intervalIntegral.integral_add, intervalIntegral.integral_smul_const, integral_id, intervalIntegral.integral_const]
  · have h1 : ((intervals.toNat : ℕ) : ℝ) = (intervals : ℝ) := by exact_mod_cast Int.toNat_of_nonneg hi.le
    have h2 : (intervals : ℝ) ≠ 0 := by exact_mod_cast hi.ne'
    rw [h1, mul_div_cancel₀ _ h2]
    congr 2; ring
  · exact (continuous_id.smul continuous_const).intervalIntegrable _ _
  · exact continuous_const.intervalIntegrable _ _

example : midpoint (fun x : ℝ => x • (3 : ℝ) + 1) 0 2 5 = 8 := by
  rw [C81_midpoint 0 2 5 (by norm_num), intervalIntegral.integral_add (by simp) (by simp), intervalIntegral.integral_smul_const, integral_id, intervalIntegral.integral_const]
  norm_num

end

end Principia.Numerics.Quadrature
