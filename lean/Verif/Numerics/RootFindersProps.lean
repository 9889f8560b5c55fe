import Verif.Numerics.RootFindersModel
import Mathlib.Tactic.Ring
import Mathlib.Tactic.Linarith
import Mathlib.Tactic.FieldSimp
import Mathlib.Tactic.LinearCombination
import Mathlib.Tactic.Positivity
import Mathlib.Tactic.NormNum
import Mathlib.Order.Interval.Finset.Nat
import Mathlib.Data.Int.Interval

set_option linter.unusedSimpArgs false
set_option linter.unusedVariables false
set_option linter.unusedSectionVars false

/-!
# C41: bisection and quadratic equations
-/

namespace Principia.RootFinders

theorem add_div (o x y : ℝ) (hy : y ≠ 0) : Ext.add o (Ext.div x y) = .fin (o + x / y) := by simp [Ext.div, hy, Ext.add]

/-- **C41** (quadratic equation): unless the polynomial is constant, the finite numbers returned are exactly its real roots, and they are
returned in increasing order.  If the leading coefficient is not zero all the numbers returned are finite. -/
theorem C41_quadratic (o a0 a1 a2 : ℝ) (h : a1 ≠ 0 ∨ a2 ≠ 0) :
    (∀ x, Ext.fin x ∈ solveQuadratic o a0 a1 a2 ↔ a0 + a1 * (x - o) + a2 * (x - o) ^ 2 = 0) ∧
    (solveQuadratic o a0 a1 a2).Pairwise Ext.lt ∧
    (a2 ≠ 0 → ∀ e ∈ solveQuadratic o a0 a1 a2, ∃ x, e = .fin x) := by
  unfold solveQuadratic
  simp only
  by_cases hd : a1 * a1 - 4 * a0 * a2 = 0
  · rw [if_pos hd]
    have h2 : a2 ≠ 0 := by
      rintro rfl
      simp at hd
      rcases h with h | h
      · exact h hd
      · exact h rfl
    have e : Ext.sub o (Ext.div (1 / 2 * a1) a2) = .fin (o - 1 / 2 * a1 / a2) := by simp [Ext.div, h2, Ext.sub]
    rw [e]
    refine ⟨fun x => ?_, List.pairwise_singleton _ _, fun _ e he => ⟨_, List.mem_singleton.1 he⟩⟩
    rw [List.mem_singleton, Ext.fin.injEq]
    have key : 4 * a2 * (a0 + a1 * (x - o) + a2 * (x - o) ^ 2) = (2 * a2 * (x - o) + a1) ^ 2 := by
      linear_combination -hd
    constructor
    · intro hx
      have : 2 * a2 * (x - o) + a1 = 0 := by rw [hx]; field_simp; ring
      rw [this] at key
      have : 4 * a2 ≠ 0 := by positivity
      simpa [this] using key
    · intro hx
      rw [hx, mul_zero] at key
      have := pow_eq_zero_iff (two_ne_zero) |>.1 key.symm
      field_simp
      linear_combination this
  · rw [if_neg hd]
    by_cases hn : a1 * a1 - 4 * a0 * a2 < 0
    · rw [if_pos hn]
      refine ⟨fun x => ?_, List.Pairwise.nil, by simp⟩
      simp only [List.not_mem_nil, false_iff]
      intro hx
      have key : 4 * a2 * (a0 + a1 * (x - o) + a2 * (x - o) ^ 2) = (2 * a2 * (x - o) + a1) ^ 2 - (a1 * a1 - 4 * a0 * a2) := by ring
      rw [hx, mul_zero] at key
      nlinarith [sq_nonneg (2 * a2 * (x - o) + a1)]
    · rw [if_neg hn]
      have hp : 0 < a1 * a1 - 4 * a0 * a2 := lt_of_le_of_ne (not_lt.1 hn) (Ne.symm hd)
      obtain ⟨s, hs⟩ : ∃ s, s = Real.sqrt (a1 * a1 - 4 * a0 * a2) := ⟨_, rfl⟩
      have s0 : 0 < s := hs ▸ Real.sqrt_pos.2 hp
      have ss : s * s = a1 * a1 - 4 * a0 * a2 := hs ▸ Real.mul_self_sqrt hp.le
      rw [← hs]
      obtain ⟨n, hn'⟩ : ∃ n, n = if 0 < a1 then -a1 - s else -a1 + s := ⟨_, rfl⟩
      rw [← hn']
      have n1 : (n + a1) * (n + a1) = s * s := by rw [hn']; split <;> ring
      have n0 : n ≠ 0 := by
        rw [hn']
        split
        · intro h; linarith
        · rename_i h; intro h'; linarith [not_lt.1 h]
      have n2 : n * n + 2 * a1 * n + 4 * a0 * a2 = 0 := by linear_combination n1 + ss
      rw [add_div o (2 * a0) n n0]
      by_cases h2 : a2 = 0
      · have h1 : a1 ≠ 0 := by rcases h with h | h; exact h; exact absurd h2 h
        have e : ∀ x, a0 + a1 * (x - o) + a2 * (x - o) ^ 2 = 0 ↔ x = o + 2 * a0 / n := by
          intro x
          have n3 : n = -2 * a1 := by
            rw [h2] at n2
            have : n * (n + 2 * a1) = 0 := by linear_combination n2
            rcases mul_eq_zero.1 this with h | h
            · exact absurd h n0
            · linarith
          rw [h2, n3]
          constructor
          · intro hx; field_simp; linear_combination hx
          · intro hx; rw [hx]; field_simp; ring
        have d : Ext.add o (Ext.div n (2 * a2)) = .posInf ∨ Ext.add o (Ext.div n (2 * a2)) = .negInf := by
          rw [h2, mul_zero, Ext.div, if_pos rfl, if_neg n0]
          split
          · exact .inl rfl
          · exact .inr rfl
        rcases d with d | d
        · rw [d]
          have : ¬ Ext.lt .posInf (.fin (o + 2 * a0 / n)) := by simp [Ext.lt]
          rw [if_neg this]
          refine ⟨fun x => ?_, ?_, fun h => absurd h2 h⟩
          · rw [e]; simp
          · simp [Ext.lt]
        · rw [d]
          have : Ext.lt .negInf (.fin (o + 2 * a0 / n)) := by simp [Ext.lt]
          rw [if_pos this]
          refine ⟨fun x => ?_, ?_, fun h => absurd h2 h⟩
          · rw [e]; simp
          · simp [Ext.lt]
      · rw [add_div o n (2 * a2) (by simpa using h2)]
        have ne : o + n / (2 * a2) ≠ o + 2 * a0 / n := by
          intro he
          have : n / (2 * a2) = 2 * a0 / n := by linarith
          rw [div_eq_div_iff (by simpa using h2) n0] at this
          have : 2 * n * (n + a1) = 0 := by linear_combination n2 + this
          have : n + a1 = 0 := by
            rcases mul_eq_zero.1 this with h | h
            · exact absurd (by simpa using h) n0
            · exact h
          rw [this] at n1
          nlinarith
        have e : ∀ x, a0 + a1 * (x - o) + a2 * (x - o) ^ 2 = 0 ↔ x = o + n / (2 * a2) ∨ x = o + 2 * a0 / n := by
          intro x
          have key : (2 * a2 * (x - o) - n) * (n * (x - o) - 2 * a0) = 2 * n * (a0 + a1 * (x - o) + a2 * (x - o) ^ 2) := by
            linear_combination -(x - o) * n2
          constructor
          · intro hx
            rw [hx, mul_zero] at key
            rcases mul_eq_zero.1 key with h | h
            · left; field_simp; linear_combination h
            · right; field_simp; linear_combination h
          · intro hx
            have : (2 * a2 * (x - o) - n) * (n * (x - o) - 2 * a0) = 0 := by
              rcases hx with hx | hx
              · rw [hx]; have : 2 * a2 * (o + n / (2 * a2) - o) - n = 0 := by field_simp; ring
                rw [this, zero_mul]
              · rw [hx]; have : n * (o + 2 * a0 / n - o) - 2 * a0 = 0 := by field_simp; ring
                rw [this, mul_zero]
            rw [this] at key
            have : 2 * n ≠ 0 := by simpa using n0
            rcases mul_eq_zero.1 key.symm with h | h
            · exact absurd h this
            · exact h
        by_cases hlt : Ext.lt (.fin (o + n / (2 * a2))) (.fin (o + 2 * a0 / n))
        · rw [if_pos hlt]
          refine ⟨fun x => ?_, ?_, fun _ e he => ?_⟩
          · rw [e]; simp
          · simpa using hlt
          · simp only [List.mem_cons, List.not_mem_nil, or_false] at he
            rcases he with he | he <;> exact ⟨_, he⟩
        · rw [if_neg hlt]
          refine ⟨fun x => ?_, ?_, fun _ e he => ?_⟩
          · rw [e]; simp [or_comm]
          · have : o + 2 * a0 / n < o + n / (2 * a2) := lt_of_le_of_ne (not_lt.1 hlt) ne.symm
            rw [List.pairwise_pair]; exact this
          · simp only [List.mem_cons, List.not_mem_nil, or_false] at he
            rcases he with he | he <;> exact ⟨_, he⟩

/-- `t² - 3 t + 2` about 0 has the roots 1 and 2. -/
example : Ext.fin 1 ∈ solveQuadratic 0 2 (-3) 1 ∧ Ext.fin 2 ∈ solveQuadratic 0 2 (-3) 1 ∧ Ext.fin 3 ∉ solveQuadratic 0 2 (-3) 1 := by
  have h := (C41_quadratic 0 2 (-3) 1 (.inr one_ne_zero)).1
  refine ⟨(h 1).2 (by norm_num), (h 2).2 (by norm_num), fun h3 => ?_⟩
  have := (h 3).1 h3
  norm_num at this

/-- **C41** (degenerate equation): if the polynomial is constant no finite number is returned. -/
theorem C41_quadratic_constant (o a0 : ℝ) (x : ℝ) : Ext.fin x ∉ solveQuadratic o a0 0 0 := by
  unfold solveQuadratic
  simp [Ext.div, Ext.sub]

/-! ### Bisection -/

variable {A : Type} [LinearOrder A]

/-- What is expected of the arithmetic mean on the type of arguments: it is between the two arguments, and distinct from both if there is
an argument strictly between them.  This holds for floating-point numbers in the absence of overflow. -/
structure MidpointOk (m : Midpoint A) : Prop where
  between : ∀ a b, a ≤ b → a ≤ m.mid a b ∧ m.mid a b ≤ b
  strict : ∀ a b c, a < c → c < b → a < m.mid a b ∧ m.mid a b < b

theorem bisectLoop_spec [LocallyFiniteOrder A] {m : Midpoint A} (hm : MidpointOk m) (f : A → ℝ) (fUpper : ℝ) (fuel : Nat) (lower upper : A)
    (hl : lower < upper) (hu : negative (f upper) = negative fUpper) (hd : negative (f lower) ≠ negative fUpper)
    (z1 : f lower ≠ 0) (z2 : f upper ≠ 0)
    (hf : (Finset.Ioo lower upper).card < fuel) :
    ∃ a, bisectLoop m f fUpper fuel lower upper = some a ∧ lower ≤ a ∧ a ≤ upper ∧
      (f a = 0 ∨ ∃ b c, lower ≤ b ∧ b < c ∧ c ≤ upper ∧ (∀ x, ¬ (b < x ∧ x < c)) ∧ (a = b ∨ a = c) ∧
        negative (f b) ≠ negative (f c) ∧ f b ≠ 0 ∧ f c ≠ 0) := by
  induction fuel generalizing lower upper with
  | zero => omega
  | succ fuel ih =>
    rw [bisectLoop]
    obtain ⟨b1, b2⟩ := hm.between lower upper hl.le
    obtain ⟨md, hmd⟩ : ∃ md, md = m.mid lower upper := ⟨_, rfl⟩
    rw [← hmd] at b1 b2 ⊢
    by_cases h1 : md = lower ∨ md = upper
    · rw [if_pos h1]
      refine ⟨md, rfl, b1, b2, .inr ⟨lower, upper, le_refl _, hl, le_refl _, fun x hx => ?_, h1, by rw [hu]; exact hd, z1, z2⟩⟩
      have := hm.strict lower upper x hx.1 hx.2
      rw [← hmd] at this
      rcases h1 with h1 | h1
      · exact absurd h1 this.1.ne'
      · exact absurd h1 this.2.ne
    · rw [if_neg h1]
      push Not at h1
      have l1 : lower < md := lt_of_le_of_ne b1 (Ne.symm h1.1)
      have l2 : md < upper := lt_of_le_of_ne b2 h1.2
      by_cases h0 : f md = 0
      · rw [if_pos h0]; exact ⟨md, rfl, b1, b2, .inl h0⟩
      · rw [if_neg h0]
        have c1 : (Finset.Ioo lower md).card < (Finset.Ioo lower upper).card :=
          Finset.card_lt_card ⟨fun x hx => by
            rw [Finset.mem_Ioo] at hx ⊢; exact ⟨hx.1, hx.2.trans l2⟩, fun h => by
            have := h (Finset.mem_Ioo.2 ⟨l1, l2⟩); rw [Finset.mem_Ioo] at this; exact lt_irrefl _ this.2⟩
        have c2 : (Finset.Ioo md upper).card < (Finset.Ioo lower upper).card :=
          Finset.card_lt_card ⟨fun x hx => by
            rw [Finset.mem_Ioo] at hx ⊢; exact ⟨l1.trans hx.1, hx.2⟩, fun h => by
            have := h (Finset.mem_Ioo.2 ⟨l1, l2⟩); rw [Finset.mem_Ioo] at this; exact lt_irrefl _ this.1⟩
        by_cases hsg : negative (f md) = negative fUpper
        · rw [if_pos hsg]
          obtain ⟨a, e, r1, r2, r3⟩ := ih lower md l1 hsg hd z1 h0 (by omega)
          refine ⟨a, e, r1, r2.trans l2.le, r3.imp id ?_⟩
          rintro ⟨b, c, q1, q2, q3, q4⟩
          exact ⟨b, c, q1, q2, q3.trans l2.le, q4⟩
        · rw [if_neg hsg]
          obtain ⟨a, e, r1, r2, r3⟩ := ih md upper l2 hu hsg h0 z2 (by omega)
          refine ⟨a, e, l1.le.trans r1, r2, r3.imp id ?_⟩
          rintro ⟨b, c, q1, q2, q3, q4⟩
          exact ⟨b, c, l1.le.trans q1, q2, q3, q4⟩

/-- **C41** (bisection): on an interval at whose bounds the function has opposite signs, or is zero, `Bisect` terminates and returns an
argument of the interval which is either a zero of the function or one of two consecutive arguments at which the function has opposite
signs. -/
theorem C41_bisect [LocallyFiniteOrder A] {m : Midpoint A} (hm : MidpointOk m) (f : A → ℝ) (lower upper : A) (hl : lower ≤ upper)
    (hs : f lower * f upper ≤ 0) (fuel : Nat) (hf : (Finset.Ioo lower upper).card < fuel) :
    ∃ a, bisect m f fuel lower upper = .returned a ∧ lower ≤ a ∧ a ≤ upper ∧
      (f a = 0 ∨ ∃ b c, lower ≤ b ∧ b < c ∧ c ≤ upper ∧ (∀ x, ¬ (b < x ∧ x < c)) ∧ (a = b ∨ a = c) ∧
        f b * f c < 0) := by
  unfold bisect
  simp only
  by_cases hu : f upper = 0
  · rw [if_pos hu]; exact ⟨upper, rfl, hl, le_refl _, .inl hu⟩
  rw [if_neg hu]
  by_cases h0 : f lower = 0
  · rw [if_pos h0]; exact ⟨lower, rfl, le_refl _, hl, .inl h0⟩
  rw [if_neg h0]
  have hd : negative (f lower) ≠ negative (f upper) := by
    unfold negative
    intro h
    rw [decide_eq_decide] at h
    by_cases hlt : f lower < 0
    · nlinarith [h.1 hlt]
    · have h1 : 0 < f lower := lt_of_le_of_ne (not_lt.1 hlt) (Ne.symm h0)
      have h2 : 0 < f upper := lt_of_le_of_ne (not_lt.1 fun h' => hlt (h.2 h')) (Ne.symm hu)
      nlinarith
  rw [if_neg hd]
  have hlt : lower < upper := lt_of_le_of_ne hl (by rintro rfl; exact hd rfl)
  obtain ⟨a, e, r1, r2, r3⟩ := bisectLoop_spec hm f (f upper) fuel lower upper hlt rfl hd h0 hu hf
  rw [e]
  refine ⟨a, rfl, r1, r2, r3.imp id ?_⟩
  rintro ⟨b, c, q1, q2, q3, q4, q5, q6, y1, y2⟩
  refine ⟨b, c, q1, q2, q3, q4, q5, ?_⟩
  unfold negative at q6
  by_cases hb : f b < 0
  · have : 0 < f c := lt_of_le_of_ne (not_lt.1 fun hc => q6 (by simp [hb, hc])) (Ne.symm y2)
    nlinarith
  · have h1 : 0 < f b := lt_of_le_of_ne (not_lt.1 hb) (Ne.symm y1)
    have h2 : f c < 0 := lt_of_not_ge fun hc => q6 (by simp [hb, not_lt.2 hc])
    nlinarith

/-- **C41** (bisection): if the function has the same nonzero sign at both bounds, a `CHECK` fails. -/
theorem C41_bisect_check (m : Midpoint A) (f : A → ℝ) (fuel : Nat) (lower upper : A) (h : 0 < f lower * f upper) :
    bisect m f fuel lower upper = .crashed := by
  unfold bisect
  have hu : f upper ≠ 0 := by intro h'; rw [h', mul_zero] at h; exact lt_irrefl _ h
  have hl : f lower ≠ 0 := by intro h'; rw [h', zero_mul] at h; exact lt_irrefl _ h
  have : negative (f lower) = negative (f upper) := by
    unfold negative
    rw [decide_eq_decide]
    constructor
    · intro h'; nlinarith
    · intro h'; nlinarith
  simp [hu, hl, this]

/-- The integers, with the mean rounded down, satisfy the hypotheses. -/
def exMid : Midpoint Int := ⟨fun a b => (a + b) / 2⟩

theorem exMid_ok : MidpointOk exMid := ⟨fun a b h => by simp only [exMid]; omega, fun a b c h1 h2 => by simp only [exMid]; omega⟩

example : ∃ a, bisect exMid (fun x => (x : ℝ) * x - 50) 100 0 40 = .returned a ∧ 0 ≤ a ∧ a ≤ 40 :=
  let ⟨a, h, h1, h2, _⟩ := C41_bisect exMid_ok (fun x => (x : ℝ) * x - 50) 0 40 (by decide) (by norm_num) 100 (by simp)
  ⟨a, h, h1, h2⟩

end Principia.RootFinders
