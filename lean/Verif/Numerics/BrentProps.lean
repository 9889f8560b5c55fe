import Verif.Numerics.BrentModel
import Verif.Numerics.RootFindersProps
import Mathlib.Topology.Order.IntermediateValue
import Mathlib.Topology.Algebra.Order.LiminfLimsup
import Mathlib.Topology.Instances.Real.Lemmas
import Mathlib.Tactic.GCongr

set_option linter.unusedSimpArgs false
set_option linter.unusedVariables false
set_option linter.unusedSectionVars false

/-!
# C41: Brent's method for the zeroes
-/

namespace Principia.RootFinders

theorem brentε_pos : 0 < brentε := by unfold brentε; positivity

theorem brentε_le : 8 * brentε ≤ 1 := by unfold brentε; norm_num

theorem negative_eq_true {x : ℝ} : negative x = true ↔ x < 0 := by simp [negative]

theorem negative_eq_false {x : ℝ} : negative x = false ↔ 0 ≤ x := by simp [negative]

theorem abs_signTimes (m x : ℝ) : |signTimes m x| = |x| := by unfold signTimes; split <;> simp

/-- The invariant of the loop. -/
structure BrentInv (f : ℝ → ℝ) (lo hi : ℝ) (s : BrentState) : Prop where
  fa : s.fa = f s.a
  fb : s.fb = f s.b
  fc : s.fc = f s.c
  sign : negative s.fb ≠ negative s.fc
  b : lo ≤ s.b ∧ s.b ≤ hi
  c : lo ≤ s.c ∧ s.c ≤ hi

variable {f : ℝ → ℝ} {lo hi : ℝ} {s : BrentState}

theorem BrentInv.order (h : BrentInv f lo hi s) : BrentInv f lo hi s.order := by
  unfold BrentState.order
  split
  · exact ⟨h.fb, h.fc, h.fb, fun e => h.sign e.symm, h.c, h.b⟩
  · exact h

theorem order_length (s : BrentState) : |s.order.c - s.order.b| = |s.c - s.b| := by
  unfold BrentState.order
  split
  · exact abs_sub_comm _ _
  · rfl

theorem order_d (s : BrentState) : s.order.d = s.d := by unfold BrentState.order; split <;> rfl

theorem order_e (s : BrentState) : s.order.e = s.e := by unfold BrentState.order; split <;> rfl

theorem order_b (s : BrentState) : s.order.b = s.b ∨ s.order.b = s.c := by
  unfold BrentState.order
  split
  · exact .inr rfl
  · exact .inl rfl

theorem δ_nonneg (s : BrentState) : 0 ≤ s.δ := mul_nonneg (mul_nonneg (by norm_num) brentε_pos.le) (abs_nonneg _)

theorem abs_m (s : BrentState) : 2 * |s.m| = |s.c - s.b| := by
  unfold BrentState.m
  rw [abs_mul, abs_of_pos (by norm_num : (0 : ℝ) < 1 / 2)]
  ring

theorem adjustSigns_nonneg (pq : ℝ × ℝ) : 0 ≤ (adjustSigns pq).1 := by
  unfold adjustSigns
  split
  · rename_i h; exact (neg_pos.2 (negative_eq_true.1 h)).le
  · rename_i h; exact negative_eq_false.1 (by simpa using h)

/-- Either the displacement is a bisection, or it is towards `c`, not too large, and smaller than half of that of two iterations before. -/
theorem displacements_cases (s : BrentState) :
    s.displacements = (s.m, s.m) ∨
      ¬ |s.e| < s.δ ∧ ∃ d, s.displacements = (d, s.d) ∧ 0 ≤ d * s.m ∧ 2 * |d| < 3 * |s.m| ∧ 2 * |d| < |s.e| := by
  unfold BrentState.displacements
  by_cases h1 : |s.e| < s.δ ∨ |s.fa| ≤ |s.fb|
  · rw [if_pos h1]; exact .inl rfl
  rw [if_neg h1]
  simp only
  obtain ⟨p, q, hpq, hp⟩ : ∃ p q, adjustSigns s.interpolation = (p, q) ∧ 0 ≤ p := ⟨_, _, rfl, adjustSigns_nonneg _⟩
  rw [hpq]
  by_cases h2 : 2 * p < 3 * s.m * q - |s.δ * q| ∧ p < |1 / 2 * s.e * q|
  · rw [if_pos h2]
    refine .inr ⟨fun h => h1 (.inl h), p / q, rfl, ?_⟩
    have hmq : 0 < s.m * q := by nlinarith [abs_nonneg (s.δ * q), h2.1]
    have hq : q ≠ 0 := by rintro rfl; simp at hmq
    have hqa : 0 < |q| := abs_pos.2 hq
    have hmqa : s.m * q = |s.m| * |q| := by rw [← abs_mul, abs_of_pos hmq]
    have hd : |p / q| * |q| = p := by rw [abs_div, abs_of_nonneg hp, div_mul_cancel₀ _ hqa.ne']
    refine ⟨?_, ?_, ?_⟩
    · have : p / q * s.m = p * (s.m * q) / (q * q) := by field_simp
      rw [this]
      exact div_nonneg (mul_nonneg hp hmq.le) (mul_self_nonneg q)
    · have : (2 * |p / q|) * |q| < (3 * |s.m|) * |q| := by
        nlinarith [abs_nonneg (s.δ * q), h2.1]
      exact lt_of_mul_lt_mul_right this hqa.le
    · have h3 := h2.2
      rw [abs_mul, abs_mul, abs_of_pos (by norm_num : (0 : ℝ) < 1 / 2)] at h3
      have : (2 * |p / q|) * |q| < |s.e| * |q| := by nlinarith
      exact lt_of_mul_lt_mul_right this hqa.le
  · rw [if_neg h2]; exact .inl rfl

/-- The actual displacement. -/
noncomputable def BrentState.move (s : BrentState) : ℝ := if |s.displacements.1| > s.δ then s.displacements.1 else signTimes s.m s.δ

theorem move_of_le (s : BrentState) (h : |s.displacements.1| ≤ s.δ) : |s.move| = s.δ := by
  unfold BrentState.move
  rw [if_neg (not_lt.2 h), abs_signTimes, abs_of_nonneg (δ_nonneg s)]

/-- The displacement is towards `c`, and doesn't reach it. -/
theorem move_spec (s : BrentState) (h : s.δ < |s.m|) : 0 ≤ s.move * s.m ∧ 2 * |s.move| ≤ 3 * |s.m| := by
  have h0 := δ_nonneg s
  unfold BrentState.move
  by_cases h1 : |s.displacements.1| > s.δ
  · rw [if_pos h1]
    rcases displacements_cases s with e | ⟨_, d, e, p1, p2, _⟩
    · rw [e]; exact ⟨mul_self_nonneg _, by linarith [abs_nonneg s.m]⟩
    · rw [e]; exact ⟨p1, p2.le⟩
  · rw [if_neg h1]
    refine ⟨?_, by rw [abs_signTimes, abs_of_nonneg h0]; linarith [abs_nonneg s.m]⟩
    unfold signTimes
    split
    · rename_i hn; nlinarith [negative_eq_true.1 hn]
    · rename_i hn; nlinarith [negative_eq_false.1 (by simpa using hn : negative s.m = false)]

theorem next_cases (s : BrentState) :
    (s.next f = ⟨s.b, s.b + s.move, s.c, s.displacements.1, s.displacements.2, s.fb, f (s.b + s.move), s.fc⟩ ∧ negative (f (s.b + s.move)) ≠ negative s.fc) ∨
    (s.next f = ⟨s.b, s.b + s.move, s.b, s.move, s.move, s.fb, f (s.b + s.move), s.fb⟩ ∧ negative (f (s.b + s.move)) = negative s.fc) := by
  unfold BrentState.next
  simp only
  by_cases h : negative (f (s.b + s.move)) ≠ negative s.fc
  · left
    refine ⟨?_, h⟩
    have h' := h
    unfold BrentState.move at h' ⊢
    rw [if_pos h']
  · right
    push Not at h
    refine ⟨?_, h⟩
    have h' := h
    unfold BrentState.move at h' ⊢
    rw [if_neg (not_not.2 h')]
    simp [BrentState.restart]

theorem between {b c m t lo hi : ℝ} (hm : m = 1 / 2 * (c - b)) (h1 : 0 ≤ t * m) (h2 : 2 * |t| ≤ 3 * |m|) (hm0 : m ≠ 0) (hb : lo ≤ b ∧ b ≤ hi) (hc : lo ≤ c ∧ c ≤ hi) :
    (lo ≤ b + t ∧ b + t ≤ hi) ∧ |c - (b + t)| = |c - b| - |t| := by
  rcases lt_or_gt_of_ne hm0 with h | h
  · have ht : t ≤ 0 := by by_contra hh; push Not at hh; nlinarith
    rw [abs_of_nonpos ht, abs_of_neg h] at h2
    refine ⟨⟨by nlinarith, by linarith⟩, ?_⟩
    rw [abs_of_nonpos (by linarith), abs_of_nonpos (by linarith), abs_of_nonpos ht]; ring
  · have ht : 0 ≤ t := by by_contra hh; push Not at hh; nlinarith
    rw [abs_of_nonneg ht, abs_of_pos h] at h2
    refine ⟨⟨by linarith, by nlinarith⟩, ?_⟩
    rw [abs_of_nonneg (by linarith), abs_of_nonneg (by linarith), abs_of_nonneg ht]; ring

theorem BrentInv.next (h : BrentInv f lo hi s) (hm : s.δ < |s.m|) : BrentInv f lo hi (s.next f) ∧ |(s.next f).c - (s.next f).b| ≤ |s.c - s.b| := by
  have hm0 : s.m ≠ 0 := abs_pos.1 ((δ_nonneg s).trans_lt hm)
  obtain ⟨p1, p2⟩ := move_spec s hm
  obtain ⟨q1, q2⟩ := between (by rfl) p1 p2 hm0 h.b h.c
  have hL := abs_m s
  rcases next_cases (f := f) s with ⟨e, hs⟩ | ⟨e, hs⟩
  · rw [e]
    exact ⟨⟨h.fb, rfl, h.fc, hs, q1, h.c⟩, by show |s.c - (s.b + s.move)| ≤ _; rw [q2]; linarith [abs_nonneg s.move]⟩
  · rw [e]
    refine ⟨⟨h.fb, rfl, h.fb, ?_, q1, h.b⟩, ?_⟩
    · show negative (f (s.b + s.move)) ≠ negative s.fb
      rw [hs]; exact fun e => h.sign e.symm
    · show |s.b - (s.b + s.move)| ≤ _
      rw [show s.b - (s.b + s.move) = -s.move by ring, abs_neg]; linarith [abs_nonneg s.move, abs_nonneg s.m]

/-- What is known of the result. -/
def BrentResult (f : ℝ → ℝ) (lo hi r : ℝ) : Prop :=
  lo ≤ r ∧ r ≤ hi ∧ (f r = 0 ∨ ∃ c, lo ≤ c ∧ c ≤ hi ∧ |c - r| ≤ 4 * brentε * |r| ∧ negative (f c) ≠ negative (f r))

theorem brentLoop_result (fuel : ℕ) (s : BrentState) (h : BrentInv f lo hi s) :
    brentLoop f fuel s = .outOfFuel ∨ ∃ r, brentLoop f fuel s = .returned r ∧ BrentResult f lo hi r := by
  induction fuel generalizing s with
  | zero => exact .inl rfl
  | succ fuel ih =>
    rw [brentLoop]
    have h' := h.order
    obtain ⟨s', hs'⟩ : ∃ s', s' = s.order := ⟨_, rfl⟩
    rw [← hs'] at h' ⊢
    by_cases hr : |s'.m| ≤ s'.δ ∨ s'.fb = 0
    · rw [if_pos hr]
      refine .inr ⟨s'.b, rfl, h'.b.1, h'.b.2, ?_⟩
      rcases hr with hr | hr
      · refine .inr ⟨s'.c, h'.c.1, h'.c.2, ?_, ?_⟩
        · rw [← abs_m]; unfold BrentState.δ at hr; linarith
        · rw [← h'.fb, ← h'.fc]; exact fun e => h'.sign e.symm
      · exact .inl (by rw [← h'.fb]; exact hr)
    · rw [if_neg hr]
      push Not at hr
      exact ih _ (h'.next hr.1).1

theorem restart_inv (a b fa fb : ℝ) (ha : fa = f a) (hb : fb = f b) (hs : negative fa ≠ negative fb) (h1 : lo ≤ a ∧ a ≤ hi) (h2 : lo ≤ b ∧ b ≤ hi) :
    BrentInv f lo hi (BrentState.restart ⟨a, b, 0, 0, 0, fa, fb, 0⟩) :=
  ⟨ha, hb, ha, fun e => hs e.symm, h2, h1⟩

/-- **C41** (Brent's method for a zero, partial correctness): whatever it returns is in the interval, and is either an exact zero or within 4 ϵ, in relative value, of another point of the interval where the
function has the opposite sign.  The only failed check is that of a function with the same sign at both bounds. -/
theorem C41_brent_sign (f : ℝ → ℝ) (fuel : ℕ) (lower upper : ℝ) :
    (brent f fuel lower upper = .crashed ↔ 0 < f lower * f upper) ∧
      ∀ r, brent f fuel lower upper = .returned r →
        min lower upper ≤ r ∧ r ≤ max lower upper ∧
          (f r = 0 ∨ ∃ c, min lower upper ≤ c ∧ c ≤ max lower upper ∧ |c - r| ≤ 4 / 2 ^ 53 * |r| ∧ f c * f r ≤ 0) := by
  have hlu : (min lower upper ≤ lower ∧ lower ≤ max lower upper) ∧ (min lower upper ≤ upper ∧ upper ≤ max lower upper) :=
    ⟨⟨min_le_left _ _, le_max_left _ _⟩, min_le_right _ _, le_max_right _ _⟩
  unfold brent
  simp only
  by_cases ha : f lower = 0
  · rw [if_pos ha]
    refine ⟨by simp [ha], fun r hr => ?_⟩
    simp only [Outcome.returned.injEq] at hr
    subst hr
    exact ⟨hlu.1.1, hlu.1.2, .inl ha⟩
  rw [if_neg ha]
  by_cases hb : f upper = 0
  · rw [if_pos hb]
    refine ⟨by simp [hb], fun r hr => ?_⟩
    simp only [Outcome.returned.injEq] at hr
    subst hr
    exact ⟨hlu.2.1, hlu.2.2, .inl hb⟩
  rw [if_neg hb]
  by_cases hs : negative (f lower) = negative (f upper)
  · rw [if_pos hs]
    refine ⟨⟨fun _ => ?_, fun _ => rfl⟩, by simp⟩
    cases hn : negative (f lower) with
    | true => exact mul_pos_of_neg_of_neg (negative_eq_true.1 hn) (negative_eq_true.1 (hs ▸ hn))
    | false => exact mul_pos (lt_of_le_of_ne (negative_eq_false.1 hn) (Ne.symm ha)) (lt_of_le_of_ne (negative_eq_false.1 (hs ▸ hn)) (Ne.symm hb))
  rw [if_neg hs]
  have hpos : ¬ 0 < f lower * f upper := by
    intro hp
    apply hs
    cases hn : negative (f lower) with
    | true => exact (negative_eq_true.2 (by have := negative_eq_true.1 hn; nlinarith)).symm
    | false => exact (negative_eq_false.2 (by have := negative_eq_false.1 hn; by_contra hh; push Not at hh; nlinarith)).symm
  have := brentLoop_result fuel _ (restart_inv (f := f) lower upper (f lower) (f upper) rfl rfl hs hlu.1 hlu.2)
  rcases this with e | ⟨r, e, r1, r2, r3⟩
  · rw [e]; exact ⟨by simp [hpos], by simp⟩
  · rw [e]
    refine ⟨by simp [hpos], fun r' hr' => ?_⟩
    simp only [Outcome.returned.injEq] at hr'
    subst hr'
    refine ⟨r1, r2, r3.imp id ?_⟩
    rintro ⟨c, c1, c2, c3, c4⟩
    refine ⟨c, c1, c2, by unfold brentε at c3; simpa [div_eq_mul_inv] using c3, ?_⟩
    cases hn : negative (f c) with
    | true =>
      rw [hn] at c4
      have : negative (f r) = false := by cases h : negative (f r) <;> simp_all
      exact mul_nonpos_of_nonpos_of_nonneg (negative_eq_true.1 hn).le (negative_eq_false.1 this)
    | false =>
      rw [hn] at c4
      have : negative (f r) = true := by cases h : negative (f r) <;> simp_all
      exact mul_nonpos_of_nonneg_of_nonpos (negative_eq_false.1 hn) (negative_eq_true.1 this).le

/-- A continuous function that changes sign has a zero. -/
theorem exists_zero {f : ℝ → ℝ} {a b : ℝ} (hf : ContinuousOn f (Set.uIcc a b)) (h : f a * f b ≤ 0) : ∃ x ∈ Set.uIcc a b, f x = 0 := by
  have h1 := intermediate_value_uIcc hf
  have : (0 : ℝ) ∈ Set.uIcc (f a) (f b) := by
    rw [Set.mem_uIcc]
    rcases le_total (f a) 0 with ha | ha
    · rcases le_total 0 (f b) with hb | hb
      · exact .inl ⟨ha, hb⟩
      · rcases eq_or_lt_of_le ha with e | e
        · exact .inr ⟨hb, e.ge⟩
        · rcases eq_or_lt_of_le hb with e' | e'
          · exact .inl ⟨ha, e'.ge⟩
          · nlinarith
    · rcases le_total 0 (f b) with hb | hb
      · rcases eq_or_lt_of_le ha with e | e
        · exact .inl ⟨e.ge, hb⟩
        · rcases eq_or_lt_of_le hb with e' | e'
          · exact .inr ⟨e'.ge, ha⟩
          · nlinarith
      · exact .inr ⟨hb, ha⟩
  obtain ⟨x, hx, e⟩ := h1 this
  exact ⟨x, hx, e⟩

/-- **C41** (Brent's method for a zero): for a continuous function, what is returned is within 4 ϵ, in relative value, of a zero of the function in the interval. -/
theorem C41_brent (f : ℝ → ℝ) (fuel : ℕ) (lower upper : ℝ) (hlu : lower ≤ upper) (hf : ContinuousOn f (Set.Icc lower upper)) (r : ℝ)
    (h : brent f fuel lower upper = .returned r) :
    lower ≤ r ∧ r ≤ upper ∧ ∃ x, lower ≤ x ∧ x ≤ upper ∧ f x = 0 ∧ |x - r| ≤ 4 / 2 ^ 53 * |r| := by
  obtain ⟨r1, r2, r3⟩ := (C41_brent_sign f fuel lower upper).2 r h
  rw [min_eq_left hlu, max_eq_right hlu] at r3
  rw [min_eq_left hlu] at r1
  rw [max_eq_right hlu] at r2
  refine ⟨r1, r2, ?_⟩
  rcases r3 with h0 | ⟨c, c1, c2, c3, c4⟩
  · exact ⟨r, r1, r2, h0, by rw [sub_self, abs_zero]; positivity⟩
  · have hsub : Set.uIcc c r ⊆ Set.Icc lower upper := Set.uIcc_subset_Icc ⟨c1, c2⟩ ⟨r1, r2⟩
    obtain ⟨x, hx, e⟩ := exists_zero (hf.mono hsub) c4
    refine ⟨x, (hsub hx).1, (hsub hx).2, e, le_trans ?_ c3⟩
    rw [Set.mem_uIcc] at hx
    rcases hx with hx | hx
    · rw [abs_le]; constructor
      · have := neg_abs_le (c - r); linarith
      · linarith [hx.2, abs_nonneg (c - r)]
    · rw [abs_le]; constructor
      · linarith [hx.1, abs_nonneg (c - r)]
      · have := le_abs_self (c - r); linarith

/-! ### Termination -/

theorem next_returns (s : BrentState) (h : BrentInv f lo hi s) (hm : s.δ < |s.m|) (hneg : negative (f (s.b + s.move)) = negative s.fc) (hd : |s.displacements.1| ≤ s.δ) (fuel : ℕ) :
    ∃ r, brentLoop f (fuel + 1) (s.next f) = .returned r := by
  have hmv := move_of_le s hd
  rcases next_cases (f := f) s with ⟨e, hs⟩ | ⟨e, hs⟩
  · exact absurd hneg hs
  rw [brentLoop]
  have hl := order_length (s.next f)
  have hb := order_b (s.next f)
  have hL : |(s.next f).c - (s.next f).b| = s.δ := by
    rw [e]; show |s.b - (s.b + s.move)| = _
    rw [show s.b - (s.b + s.move) = -s.move by ring, abs_neg, hmv]
  have hb' : |s.b| ≤ 2 * |(s.next f).order.b| := by
    rcases hb with hb | hb <;> rw [hb, e]
    · show |s.b| ≤ 2 * |s.b + s.move|
      have h1 : |s.b| ≤ |s.b + s.move| + |s.move| := by
        have := abs_sub_abs_le_abs_sub s.b (-s.move)
        rw [sub_neg_eq_add, abs_neg] at this; linarith
      rw [hmv] at h1
      unfold BrentState.δ at h1
      nlinarith [brentε_le, brentε_pos, abs_nonneg s.b]
    · show |s.b| ≤ 2 * |s.b|
      linarith [abs_nonneg s.b]
  have : |(s.next f).order.m| ≤ (s.next f).order.δ := by
    have h2 := abs_m (s.next f).order
    rw [hl, hL] at h2
    unfold BrentState.δ at h2 ⊢
    nlinarith [brentε_pos, abs_nonneg s.b]
  rw [if_pos (.inl this)]
  exact ⟨_, rfl⟩

theorem pow_two_half (ρ : ℕ) (h : 2 ≤ ρ) : (2 : ℝ) ^ (ρ / 2) = 2 * 2 ^ ((ρ - 2) / 2) := by
  have : ρ / 2 = (ρ - 2) / 2 + 1 := by omega
  rw [this, pow_succ]; ring

/-- With `D` a lower bound of the tolerance: after `n` bisections the interval is small enough, and there are at most 2 `K` + 1 iterations between two bisections. -/
theorem brentLoop_returns {D : ℝ} (hD : 0 < D) (hδ : ∀ b, lo ≤ b → b ≤ hi → D ≤ 2 * brentε * |b|) (K : ℕ) (hK : hi - lo < D * 2 ^ K) (fuel : ℕ) (n ρ : ℕ)
    (s : BrentState) (h : BrentInv f lo hi s) (hL : |s.c - s.b| ≤ 2 * D * 2 ^ n) (hρ : 1 ≤ ρ) (he : |s.e| < D * 2 ^ (ρ / 2)) (hd : |s.d| < D * 2 ^ ((ρ - 1) / 2))
    (hfuel : n * (2 * K + 2) + ρ + 1 ≤ fuel) : ∃ r, brentLoop f fuel s = .returned r := by
  induction fuel generalizing n ρ s with
  | zero => omega
  | succ fuel ih =>
    rw [brentLoop]
    have h' := h.order
    have hL' : |s.order.c - s.order.b| ≤ 2 * D * 2 ^ n := by rw [order_length]; exact hL
    have he' : |s.order.e| < D * 2 ^ (ρ / 2) := by rw [order_e]; exact he
    have hd' : |s.order.d| < D * 2 ^ ((ρ - 1) / 2) := by rw [order_d]; exact hd
    obtain ⟨t, ht⟩ : ∃ t, t = s.order := ⟨_, rfl⟩
    rw [← ht] at h' hL' he' hd' ⊢
    by_cases hr : |t.m| ≤ t.δ ∨ t.fb = 0
    · rw [if_pos hr]; exact ⟨_, rfl⟩
    rw [if_neg hr]
    push Not at hr
    obtain ⟨hm, hfb⟩ := hr
    have hDt : D ≤ t.δ := hδ t.b h'.b.1 h'.b.2
    have hm2 := abs_m t
    obtain ⟨hi1, hi2⟩ := h'.next hm
    have hn : n ≠ 0 := by
      rintro rfl
      simp only [pow_zero, mul_one] at hL'
      linarith
    have hlen : |t.c - t.b| ≤ hi - lo := by
      rw [abs_le]; constructor <;> linarith [h'.b.1, h'.b.2, h'.c.1, h'.c.2]
    have hm0 : t.m ≠ 0 := abs_pos.1 ((δ_nonneg t).trans_lt hm)
    obtain ⟨p1, p2⟩ := move_spec t hm
    obtain ⟨q1, q2⟩ := between (by rfl) p1 p2 hm0 h'.b h'.c
    rcases displacements_cases t with hdis | ⟨hne, d, hdis, d1, d2, d3⟩
    · -- A bisection.
      have hmove : t.move = t.m := by unfold BrentState.move; rw [hdis, if_pos hm]
      have hmK : |t.m| < D * 2 ^ K := by linarith [abs_nonneg t.m]
      have k1 : (2 * K + 1) / 2 = K := by omega
      have k2 : (2 * K + 1 - 1) / 2 = K := by omega
      refine ih (n - 1) (2 * K + 1) _ hi1 ?_ (by omega) ?_ ?_ ?_
      · have h2n : (2 : ℝ) ^ n = 2 * 2 ^ (n - 1) := by
          have : n = n - 1 + 1 := by omega
          rw [this, pow_succ]; simp; ring
        rw [h2n] at hL'
        have hhalf : |t.m| ≤ 2 * D * 2 ^ (n - 1) := by linarith
        rcases next_cases (f := f) t with ⟨e, _⟩ | ⟨e, _⟩ <;> rw [e] <;> simp only
        · rw [q2, hmove]; linarith
        · rw [show t.b - (t.b + t.move) = -t.move by ring, abs_neg, hmove]; exact hhalf
      · rw [k1]; rcases next_cases (f := f) t with ⟨e, _⟩ | ⟨e, _⟩ <;> rw [e] <;> simp only
        · rw [hdis]; exact hmK
        · rw [hmove]; exact hmK
      · rw [k2]; rcases next_cases (f := f) t with ⟨e, _⟩ | ⟨e, _⟩ <;> rw [e] <;> simp only
        · rw [hdis]; exact hmK
        · rw [hmove]; exact hmK
      · obtain ⟨k, rfl⟩ : ∃ k, n = k + 1 := ⟨n - 1, by omega⟩
        simp only [Nat.add_sub_cancel]
        rw [Nat.add_mul, Nat.one_mul] at hfuel
        omega
    · -- An interpolation.
      have hρ2 : 2 ≤ ρ := by
        by_contra hh
        have : ρ / 2 = 0 := by omega
        rw [this, pow_zero, mul_one] at he'
        exact hne (lt_of_lt_of_le he' hDt)
      have hhalf : |d| < D * 2 ^ ((ρ - 2) / 2) := by
        rw [pow_two_half ρ hρ2] at he'; linarith
      have hmono : (2 : ℝ) ^ ((ρ - 2) / 2) ≤ 2 ^ ((ρ - 1) / 2) := pow_le_pow_right₀ (by norm_num) (by omega)
      rcases next_cases (f := f) t with ⟨e, hs⟩ | ⟨e, hs⟩
      · refine ih n (ρ - 1) _ hi1 (hi2.trans hL') (by omega) ?_ ?_ (by omega)
        · rw [e]; simp only; rw [hdis]; exact hd'
        · rw [e]; simp only; rw [hdis, show ρ - 1 - 1 = ρ - 2 by omega]; exact hhalf
      · by_cases hsmall : |t.displacements.1| ≤ t.δ
        · obtain ⟨k, rfl⟩ : ∃ k, fuel = k + 1 := ⟨fuel - 1, by omega⟩
          exact next_returns t h' hm hs hsmall k
        · have hmove : t.move = d := by
            unfold BrentState.move; rw [if_pos (not_le.1 hsmall), hdis]
          refine ih n (ρ - 1) _ hi1 (hi2.trans hL') (by omega) ?_ ?_ (by omega)
          · rw [e]; simp only; rw [hmove]; exact hhalf.trans_le (mul_le_mul_of_nonneg_left hmono hD.le)
          · rw [e]; simp only; rw [hmove, show ρ - 1 - 1 = ρ - 2 by omega]; exact hhalf

/-- **C41** (Brent's method for a zero, termination): on an interval which doesn't contain the origin, if the function doesn't have the same sign at both bounds, the number of iterations is at most quadratic in the
logarithm of the ratio of the length of the interval and of the tolerance. -/
theorem C41_brent_terminates (f : ℝ → ℝ) (lower upper : ℝ) (hlu : lower ≤ upper) (h0 : 0 < lower ∨ upper < 0) (hs : f lower * f upper ≤ 0) (K : ℕ)
    (hK : upper - lower < 2 / 2 ^ 53 * min |lower| |upper| * 2 ^ K) (fuel : ℕ) (hfuel : 2 * (K + 1) ^ 2 ≤ fuel) :
    ∃ r, brent f fuel lower upper = .returned r := by
  by_cases hcr : brent f fuel lower upper = .crashed
  · have := (C41_brent_sign f fuel lower upper).1.1 hcr; linarith
  unfold brent at hcr ⊢
  simp only at hcr ⊢
  by_cases ha : f lower = 0
  · rw [if_pos ha]; exact ⟨_, rfl⟩
  rw [if_neg ha] at hcr ⊢
  by_cases hb : f upper = 0
  · rw [if_pos hb]; exact ⟨_, rfl⟩
  rw [if_neg hb] at hcr ⊢
  by_cases hsg : negative (f lower) = negative (f upper)
  · rw [if_pos hsg] at hcr; exact absurd rfl hcr
  rw [if_neg hsg]
  have hε := brentε_pos
  have hmin : 0 < min |lower| |upper| := by
    rw [lt_min_iff, abs_pos, abs_pos]
    rcases h0 with h | h
    · exact ⟨h.ne', (h.trans_le hlu).ne'⟩
    · exact ⟨(hlu.trans_lt h).ne, h.ne⟩
  have hD : 0 < 2 * brentε * min |lower| |upper| := by positivity
  have hK' : upper - lower < 2 * brentε * min |lower| |upper| * 2 ^ K := by
    have : 2 * brentε = 2 / 2 ^ 53 := by unfold brentε; ring
    rw [this]; exact hK
  have hδ : ∀ b, lower ≤ b → b ≤ upper → 2 * brentε * min |lower| |upper| ≤ 2 * brentε * |b| := by
    intro b h1 h2
    refine mul_le_mul_of_nonneg_left ?_ (by positivity)
    rcases h0 with h | h
    · exact (min_le_left _ _).trans (by rw [abs_of_pos h, abs_of_pos (h.trans_le h1)]; exact h1)
    · exact (min_le_right _ _).trans (by rw [abs_of_neg h, abs_of_neg (h2.trans_lt h)]; linarith)
  have habs : |upper - lower| = upper - lower := abs_of_nonneg (by linarith)
  refine brentLoop_returns hD hδ K hK' fuel K (2 * K + 1) _
    (restart_inv (f := f) lower upper (f lower) (f upper) rfl rfl hsg ⟨le_refl _, hlu⟩ ⟨hlu, le_refl _⟩) ?_ (by omega) ?_ ?_ ?_
  · show |lower - upper| ≤ _
    rw [abs_sub_comm, habs]
    have : 0 < 2 * brentε * min |lower| |upper| * 2 ^ K := by positivity
    linarith
  · show |upper - lower| < _
    rw [habs, show (2 * K + 1) / 2 = K by omega]; exact hK'
  · show |upper - lower| < _
    rw [habs, show (2 * K + 1 - 1) / 2 = K by omega]; exact hK'
  · have : 2 * (K + 1) ^ 2 = K * (2 * K + 2) + (2 * K + 1) + 1 := by ring
    omega

/-- The square root of two, between 1 and 2. -/
example : ∃ r, brent (fun x => x * x - 2) 6272 1 2 = .returned r ∧ ∃ x, 1 ≤ x ∧ x ≤ 2 ∧ x * x = 2 ∧ |x - r| ≤ 4 / 2 ^ 53 * |r| := by
  obtain ⟨r, hr⟩ := C41_brent_terminates (fun x => x * x - 2) 1 2 (by norm_num) (.inl (by norm_num)) (by norm_num) 55 (by norm_num) 6272 (by norm_num)
  obtain ⟨_, _, x, h1, h2, h3, h4⟩ := C41_brent (fun x => x * x - 2) 6272 1 2 (by norm_num) (by fun_prop) r hr
  exact ⟨r, hr, x, h1, h2, by linarith, h4⟩

end Principia.RootFinders
