import Verif.Numerics.BrentProps
import Mathlib.Topology.Order.LocalExtr
import Mathlib.Topology.Order.Compact
import Mathlib.Order.Monotone.Defs

set_option linter.unusedSimpArgs false
set_option linter.unusedVariables false
set_option linter.unusedSectionVars false

/-!
# C41: Brent's method for the extrema, `DoubleBrent` and the golden section search
-/

namespace Principia.RootFinders

theorem φ_bounds : 8 / 5 < φ ∧ φ < 17 / 10 := by
  unfold φ
  have h1 : (11 / 5 : ℝ) < √5 := by
    rw [Real.lt_sqrt (by norm_num)]; norm_num
  have h2 : √5 < (12 / 5 : ℝ) := by
    rw [Real.sqrt_lt' (by norm_num)]; norm_num
  constructor <;> linarith

theorem φ_sq : φ * φ = φ + 1 := by
  unfold φ
  have := Real.mul_self_sqrt (by norm_num : (0 : ℝ) ≤ 5)
  nlinarith

theorem brentT_pos : 0 < brentT := by unfold brentT; positivity

variable {f : ℝ → ℝ} {eps : ℝ}

theorem tol_pos (heps : 0 ≤ eps) (s : MinState) : brentT ≤ s.tol eps := by
  unfold MinState.tol
  have := mul_nonneg heps (abs_nonneg s.x)
  linarith

/-- The point at which the function is evaluated. -/
noncomputable def MinState.u (eps : ℝ) (s : MinState) : ℝ :=
  s.x + if |(s.displacements eps).1| > s.tol eps then (s.displacements eps).1 else signTimes (s.displacements eps).1 (s.tol eps)

/-- The stopping criterion. -/
def MinState.Stops (eps : ℝ) (s : MinState) : Prop := |s.x - s.m| ≤ 2 * s.tol eps - 1 / 2 * (s.b - s.a)

theorem stops_iff (s : MinState) (ha : s.a ≤ s.x) (hb : s.x ≤ s.b) : s.Stops eps ↔ s.x - s.a ≤ 2 * s.tol eps ∧ s.b - s.x ≤ 2 * s.tol eps := by
  unfold MinState.Stops MinState.m
  rw [abs_le]
  constructor
  · rintro ⟨h1, h2⟩; constructor <;> linarith
  · rintro ⟨h1, h2⟩; constructor <;> linarith

theorem move_min {x t d : ℝ} (ht : 0 < t) :
    (t < |d| ∧ (if |d| > t then d else signTimes d t) = d) ∨ (|d| ≤ t ∧ 0 ≤ d ∧ (if |d| > t then d else signTimes d t) = t) ∨
      (|d| ≤ t ∧ d < 0 ∧ (if |d| > t then d else signTimes d t) = -t) := by
  by_cases h : |d| > t
  · exact .inl ⟨h, if_pos h⟩
  · rw [if_neg h]
    unfold signTimes
    cases hn : negative d with
    | true => exact .inr (.inr ⟨not_lt.1 h, negative_eq_true.1 hn, by simp⟩)
    | false => exact .inr (.inl ⟨not_lt.1 h, negative_eq_false.1 hn, by simp⟩)

theorem parabola_nonneg (s : MinState) : 0 ≤ (s.parabola eps).2 := by
  unfold MinState.parabola
  split
  · simp only
    split
    · rename_i h; exact (neg_pos.2 (negative_eq_true.1 h)).le
    · rename_i h; exact negative_eq_false.1 (by simpa using h)
  · exact le_refl _

/-- The function is not evaluated too close to the bounds of the interval, or to the previous best point. -/
theorem u_spec (s : MinState) (ht : 0 < s.tol eps) (ha : s.a ≤ s.x) (hb : s.x ≤ s.b) (hs : ¬ s.Stops eps) :
    s.tol eps ≤ s.u eps - s.a ∧ s.tol eps ≤ s.b - s.u eps ∧ s.tol eps ≤ |s.u eps - s.x| := by
  rw [stops_iff s ha hb] at hs
  have hm : s.x < s.m ↔ s.x - s.a < s.b - s.x := by
    unfold MinState.m; constructor <;> intro h <;> linarith
  have hbig1 : s.x < s.m → 2 * s.tol eps < s.b - s.x := by
    intro h; rw [hm] at h; by_contra hh; exact hs ⟨by linarith, by linarith⟩
  have hbig2 : ¬ s.x < s.m → 2 * s.tol eps < s.x - s.a := by
    intro h; rw [hm] at h; by_contra hh; exact hs ⟨by linarith, by linarith⟩
  obtain ⟨t, et⟩ : ∃ t, t = s.tol eps := ⟨_, rfl⟩
  rw [← et] at ht hbig1 hbig2
  have key : ∃ d, (s.displacements eps).1 = d ∧
      ((2 * t ≤ s.x + d - s.a ∧ 2 * t ≤ s.b - (s.x + d)) ∨ (s.x < s.m ∧ d = t) ∨ (¬ s.x < s.m ∧ d = -t) ∨
        (s.x < s.m ∧ d = (2 - φ) * (s.b - s.x)) ∨ (¬ s.x < s.m ∧ d = (2 - φ) * (s.a - s.x))) := by
    unfold MinState.displacements
    simp only
    rw [← et]
    split
    · rename_i hpar
      split
      · by_cases hx : s.x < s.m
        · exact ⟨t, by rw [if_pos hx], .inr (.inl ⟨hx, rfl⟩)⟩
        · exact ⟨-t, by rw [if_neg hx], .inr (.inr (.inl ⟨hx, rfl⟩))⟩
      · rename_i hnear
        push Not at hnear
        exact ⟨_, rfl, .inl hnear⟩
    · by_cases hx : s.x < s.m
      · exact ⟨_, rfl, .inr (.inr (.inr (.inl ⟨hx, by rw [if_pos hx]⟩)))⟩
      · exact ⟨_, rfl, .inr (.inr (.inr (.inr ⟨hx, by rw [if_neg hx]⟩)))⟩
  obtain ⟨d, hd, hc⟩ := key
  unfold MinState.u
  rw [hd, ← et]
  obtain ⟨φ1, φ2⟩ := φ_bounds
  obtain ⟨mv, emv⟩ : ∃ mv, mv = (if |d| > t then d else signTimes d t) := ⟨_, rfl⟩
  have hmv := move_min (x := s.x) (t := t) (d := d) ht
  rw [← emv] at hmv ⊢
  have habs : |s.x + mv - s.x| = |mv| := by rw [add_sub_cancel_left]
  rw [habs]
  have htm : t ≤ |mv| := by
    rcases hmv with ⟨h, e⟩ | ⟨h, h', e⟩ | ⟨h, h', e⟩ <;> rw [e]
    · exact h.le
    · rw [abs_of_pos ht]
    · rw [abs_neg, abs_of_pos ht]
  refine ⟨?_, ?_, htm⟩
  · rcases hc with ⟨h1, h2⟩ | ⟨hx, rfl⟩ | ⟨hx, rfl⟩ | ⟨hx, rfl⟩ | ⟨hx, rfl⟩
    · rcases hmv with ⟨h, e⟩ | ⟨h, h', e⟩ | ⟨h, h', e⟩ <;> rw [e] <;> linarith
    · have := hbig1 hx
      rcases hmv with ⟨h, e⟩ | ⟨h, h', e⟩ | ⟨h, h', e⟩ <;> rw [e] <;> linarith
    · have := hbig2 hx
      rcases hmv with ⟨h, e⟩ | ⟨h, h', e⟩ | ⟨h, h', e⟩ <;> rw [e] <;> linarith
    · have := hbig1 hx
      rcases hmv with ⟨h, e⟩ | ⟨h, h', e⟩ | ⟨h, h', e⟩ <;> rw [e]
      · rw [abs_of_nonneg (by nlinarith)] at h; linarith
      · linarith
      · nlinarith
    · have := hbig2 hx
      rcases hmv with ⟨h, e⟩ | ⟨h, h', e⟩ | ⟨h, h', e⟩ <;> rw [e]
      · nlinarith
      · nlinarith
      · linarith
  · rcases hc with ⟨h1, h2⟩ | ⟨hx, rfl⟩ | ⟨hx, rfl⟩ | ⟨hx, rfl⟩ | ⟨hx, rfl⟩
    · rcases hmv with ⟨h, e⟩ | ⟨h, h', e⟩ | ⟨h, h', e⟩ <;> rw [e] <;> linarith
    · have := hbig1 hx
      rcases hmv with ⟨h, e⟩ | ⟨h, h', e⟩ | ⟨h, h', e⟩ <;> rw [e] <;> linarith
    · have := hbig2 hx
      rcases hmv with ⟨h, e⟩ | ⟨h, h', e⟩ | ⟨h, h', e⟩ <;> rw [e] <;> linarith
    · have := hbig1 hx
      rcases hmv with ⟨h, e⟩ | ⟨h, h', e⟩ | ⟨h, h', e⟩ <;> rw [e]
      · nlinarith
      · linarith
      · nlinarith
    · have := hbig2 hx
      rcases hmv with ⟨h, e⟩ | ⟨h, h', e⟩ | ⟨h, h', e⟩ <;> rw [e]
      · rw [abs_of_nonpos (by nlinarith)] at h; linarith
      · nlinarith
      · linarith

/-- The invariant of the loop. -/
structure MinInv (f : ℝ → ℝ) (lower upper τ : ℝ) (s : MinState) : Prop where
  pos : 0 < τ
  fx : s.fx = f s.x
  ax : τ ≤ s.x - s.a
  xb : τ ≤ s.b - s.x
  la : lower ≤ s.a
  bu : s.b ≤ upper
  fa : s.a = lower ∨ f s.x ≤ f s.a
  fb : s.b = upper ∨ f s.x ≤ f s.b

variable {lower upper τ : ℝ}

theorem update_fields (s : MinState) (d e u : ℝ) :
    (f u ≤ s.fx → (s.update f d e u).x = u ∧ (s.update f d e u).fx = f u ∧ (s.update f d e u).a = (if u < s.x then s.a else s.x) ∧
      (s.update f d e u).b = if u < s.x then s.x else s.b) ∧
    (¬ f u ≤ s.fx → (s.update f d e u).x = s.x ∧ (s.update f d e u).fx = s.fx ∧ (s.update f d e u).a = (if u < s.x then u else s.a) ∧
      (s.update f d e u).b = if u < s.x then s.b else u) := by
  unfold MinState.update
  simp only
  constructor
  · intro h; rw [if_pos h]; exact ⟨rfl, rfl, rfl, rfl⟩
  · intro h; rw [if_neg h]
    split
    · exact ⟨rfl, rfl, rfl, rfl⟩
    · split <;> exact ⟨rfl, rfl, rfl, rfl⟩

theorem MinInv.update {s : MinState} (h : MinInv f lower upper τ s) {d e u : ℝ} (h1 : τ ≤ u - s.a) (h2 : τ ≤ s.b - u) (h3 : τ ≤ |u - s.x|) :
    MinInv f lower upper τ (s.update f d e u) ∧ (s.update f d e u).b - (s.update f d e u).a ≤ s.b - s.a - τ := by
  have hτ := h.pos
  have hfx := h.fx
  obtain ⟨U1, U2⟩ := update_fields (f := f) s d e u
  have hux : u < s.x ∨ s.x < u := by
    rcases lt_trichotomy u s.x with hh | hh | hh
    · exact .inl hh
    · rw [hh, sub_self, abs_zero] at h3; linarith
    · exact .inr hh
  have hax := h.ax
  have hxb := h.xb
  have hla := h.la
  have hbu := h.bu
  by_cases hc : f u ≤ s.fx
  · obtain ⟨e1, e2, e3, e4⟩ := U1 hc
    rw [hfx] at hc
    rcases hux with hl | hl
    · rw [if_pos hl] at e3 e4
      rw [abs_of_neg (by linarith)] at h3
      refine ⟨⟨hτ, by rw [e1, e2], by rw [e1, e3]; exact h1, by rw [e1, e4]; linarith, by rw [e3]; exact hla, by rw [e4]; linarith, ?_, ?_⟩, by rw [e3, e4]; linarith⟩
      · rw [e1, e3]; exact h.fa.imp id hc.trans
      · rw [e1, e4]; exact .inr hc
    · rw [if_neg (not_lt.2 hl.le)] at e3 e4
      rw [abs_of_pos (by linarith)] at h3
      refine ⟨⟨hτ, by rw [e1, e2], by rw [e1, e3]; exact h3, by rw [e1, e4]; linarith, by rw [e3]; linarith, by rw [e4]; linarith, ?_, ?_⟩, by rw [e3, e4]; linarith⟩
      · rw [e1, e3]; exact .inr hc
      · rw [e1, e4]; exact h.fb.imp id hc.trans
  · obtain ⟨e1, e2, e3, e4⟩ := U2 hc
    rw [hfx] at hc
    push Not at hc
    rcases hux with hl | hl
    · rw [if_pos hl] at e3 e4
      rw [abs_of_neg (by linarith)] at h3
      refine ⟨⟨hτ, by rw [e1, e2, hfx], by rw [e1, e3]; linarith, by rw [e1, e4]; linarith, by rw [e3]; linarith, by rw [e4]; linarith, ?_, ?_⟩, by rw [e3, e4]; linarith⟩
      · rw [e1, e3]; exact .inr hc.le
      · rw [e1, e4]; exact h.fb
    · rw [if_neg (not_lt.2 hl.le)] at e3 e4
      rw [abs_of_pos (by linarith)] at h3
      refine ⟨⟨hτ, by rw [e1, e2, hfx], by rw [e1, e3]; linarith, by rw [e1, e4]; linarith, by rw [e3]; linarith, by rw [e4]; linarith, ?_, ?_⟩, by rw [e3, e4]; linarith⟩
      · rw [e1, e3]; exact h.fa
      · rw [e1, e4]; exact .inr hc.le

theorem next_eq (s : MinState) : s.next f eps = s.update f (s.displacements eps).1 (s.displacements eps).2 (s.u eps) := rfl

theorem MinInv.next {s : MinState} (heps : 0 ≤ eps) (hτ : τ ≤ brentT) (h : MinInv f lower upper τ s) (hs : ¬ s.Stops eps) :
    MinInv f lower upper τ (s.next f eps) ∧ (s.next f eps).b - (s.next f eps).a ≤ s.b - s.a - τ := by
  have ht := tol_pos heps s
  obtain ⟨h1, h2, h3⟩ := u_spec s (brentT_pos.trans_le ht) (by linarith [h.ax, h.pos]) (by linarith [h.xb, h.pos]) hs
  rw [next_eq]
  exact h.update (by linarith) (by linarith) (by linarith)

theorem minimumLoop_invariant (P : MinState → Prop) (hP : ∀ s, P s → ¬ s.Stops eps → P (s.next f eps)) (fuel : ℕ) (s : MinState) (h : P s) (r : ℝ)
    (hr : minimumLoop f eps fuel s = .returned r) : ∃ s', P s' ∧ s'.Stops eps ∧ s'.x = r := by
  induction fuel generalizing s with
  | zero => simp [minimumLoop] at hr
  | succ fuel ih =>
    rw [minimumLoop] at hr
    by_cases hs : |s.x - s.m| ≤ 2 * s.tol eps - 1 / 2 * (s.b - s.a)
    · rw [if_pos hs] at hr
      simp only [Outcome.returned.injEq] at hr
      exact ⟨s, h, hs, hr⟩
    · rw [if_neg hs] at hr
      exact ih _ (hP s h hs) hr

theorem minimumLoop_returns (heps : 0 ≤ eps) (hτ : τ ≤ brentT) (fuel : ℕ) (s : MinState) (h : MinInv f lower upper τ s) (hfuel : s.b - s.a ≤ τ * fuel) :
    ∃ r, minimumLoop f eps fuel s = .returned r := by
  induction fuel generalizing s with
  | zero =>
    have := h.ax; have := h.xb; have := h.pos
    simp only [Nat.cast_zero, mul_zero] at hfuel
    linarith
  | succ fuel ih =>
    rw [minimumLoop]
    by_cases hs : |s.x - s.m| ≤ 2 * s.tol eps - 1 / 2 * (s.b - s.a)
    · rw [if_pos hs]; exact ⟨_, rfl⟩
    · rw [if_neg hs]
      obtain ⟨n1, n2⟩ := h.next heps hτ hs
      refine ih _ n1 ?_
      push_cast at hfuel
      linarith

/-- The number of iterations that suffices, in exact arithmetic. -/
noncomputable def iterations (lower upper : ℝ) : ℕ := ⌈(upper - lower) / min brentT ((2 - φ) * (upper - lower))⌉₊

theorem initial_inv (h : lower < upper) :
    MinInv f lower upper (min brentT ((2 - φ) * (upper - lower)))
      ⟨lower, upper, 0, 0, lower + (2 - φ) * (upper - lower), lower + (2 - φ) * (upper - lower), lower + (2 - φ) * (upper - lower),
        f (lower + (2 - φ) * (upper - lower)), f (lower + (2 - φ) * (upper - lower)), f (lower + (2 - φ) * (upper - lower))⟩ := by
  obtain ⟨φ1, φ2⟩ := φ_bounds
  have h0 : 0 < upper - lower := by linarith
  refine ⟨lt_min brentT_pos (by nlinarith), rfl, ?_, ?_, le_refl _, le_refl _, .inl rfl, .inl rfl⟩
  · show _ ≤ lower + (2 - φ) * (upper - lower) - lower
    exact (min_le_right _ _).trans (by linarith)
  · show _ ≤ upper - (lower + (2 - φ) * (upper - lower))
    refine (min_le_right _ _).trans ?_
    nlinarith

theorem eps_nonneg (eps : ℝ) : 0 ≤ max eps (2 * brentε) := le_max_of_le_right (by linarith [brentε_pos])

/-- **C41** (Brent's method for an extremum, termination). -/
theorem C41_brent_minimum_terminates (f : ℝ → ℝ) (lower upper eps : ℝ) (h : lower < upper) : ∃ N, ∀ fuel ≥ N, ∃ r, brentMinimum f fuel lower upper eps = .returned r := by
  refine ⟨iterations lower upper, fun fuel hf => ?_⟩
  unfold brentMinimum
  simp only
  have hI := initial_inv (f := f) h
  refine minimumLoop_returns (eps_nonneg eps) (min_le_left _ _) fuel _ hI ?_
  show upper - lower ≤ _
  have h1 : (upper - lower) / min brentT ((2 - φ) * (upper - lower)) ≤ fuel := (Nat.le_ceil _).trans (by exact_mod_cast hf)
  rw [div_le_iff₀ hI.pos] at h1
  linarith

/-- **C41** (Brent's method for an extremum): for a continuous function, what is returned is within the tolerance of a local minimum of the function on the interval (possibly at a bound), where the function isn't
larger. -/
theorem C41_brent_minimum (f : ℝ → ℝ) (fuel : ℕ) (lower upper eps : ℝ) (h : lower < upper) (hf : ContinuousOn f (Set.Icc lower upper)) (r : ℝ)
    (hr : brentMinimum f fuel lower upper eps = .returned r) :
    lower < r ∧ r < upper ∧
      ∃ y ∈ Set.Icc lower upper, IsLocalMinOn f (Set.Icc lower upper) y ∧ f y ≤ f r ∧ |y - r| ≤ 2 * (max eps (2 / 2 ^ 53) * |r| + 1 / 2 ^ 1074) := by
  unfold brentMinimum at hr
  simp only at hr
  obtain ⟨s, I, hs, rfl⟩ := minimumLoop_invariant (fun s => MinInv f lower upper (min brentT ((2 - φ) * (upper - lower))) s)
    (fun s h1 h2 => (h1.next (eps_nonneg eps) (min_le_left _ _) h2).1) fuel _ (initial_inv h) r hr
  have hτ := I.pos
  have hax : s.a < s.x := by linarith [I.ax]
  have hxb : s.x < s.b := by linarith [I.xb]
  obtain ⟨s1, s2⟩ := (stops_iff s hax.le hxb.le).1 hs
  have htol : s.tol (max eps (2 * brentε)) = max eps (2 / 2 ^ 53) * |s.x| + 1 / 2 ^ 1074 := by
    unfold MinState.tol brentT
    rw [show 2 * brentε = 2 / 2 ^ 53 by unfold brentε; ring]
  rw [htol] at s1 s2
  have hsub : Set.Icc s.a s.b ⊆ Set.Icc lower upper := Set.Icc_subset_Icc I.la I.bu
  obtain ⟨y, hy, hmin⟩ := isCompact_Icc.exists_isMinOn (Set.nonempty_Icc.2 (hax.trans hxb).le) (hf.mono hsub)
  have hmin' : ∀ z ∈ Set.Icc s.a s.b, f y ≤ f z := fun z hz => hmin hz
  have hx : s.x ∈ Set.Icc s.a s.b := ⟨hax.le, hxb.le⟩
  have close : ∀ z ∈ Set.Icc s.a s.b, |z - s.x| ≤ 2 * (max eps (2 / 2 ^ 53) * |s.x| + 1 / 2 ^ 1074) := by
    intro z hz
    rw [abs_le]; constructor <;> linarith [hz.1, hz.2]
  -- A minimum over the small interval, which is local if it's in its interior, or at a bound of the large one.
  have local_of : ∀ z ∈ Set.Icc s.a s.b, (∀ w ∈ Set.Icc s.a s.b, f z ≤ f w) → (s.a = lower ∨ s.a < z) → (s.b = upper ∨ z < s.b) → IsLocalMinOn f (Set.Icc lower upper) z := by
    intro z hz hm h1 h2
    have : Set.Icc s.a s.b ∈ nhdsWithin z (Set.Icc lower upper) := by
      have e1 : Set.Ici s.a ∈ nhdsWithin z (Set.Icc lower upper) := by
        rcases h1 with h1 | h1
        · rw [h1]; exact Filter.mem_of_superset self_mem_nhdsWithin fun w hw => hw.1
        · exact mem_nhdsWithin_of_mem_nhds (Ici_mem_nhds h1)
      have e2 : Set.Iic s.b ∈ nhdsWithin z (Set.Icc lower upper) := by
        rcases h2 with h2 | h2
        · rw [h2]; exact Filter.mem_of_superset self_mem_nhdsWithin fun w hw => hw.2
        · exact mem_nhdsWithin_of_mem_nhds (Iic_mem_nhds h2)
      exact Filter.inter_mem e1 e2
    exact Filter.mem_of_superset this hm
  refine ⟨by linarith [I.la], by linarith [I.bu], ?_⟩
  by_cases hya : s.a = lower ∨ s.a < y
  · by_cases hyb : s.b = upper ∨ y < s.b
    · exact ⟨y, hsub hy, local_of y hy hmin' hya hyb, hmin' _ hx, close y hy⟩
    · push Not at hyb
      have hyb' : y = s.b := le_antisymm hy.2 hyb.2
      have hle : f s.x ≤ f y := by rw [hyb']; exact I.fb.resolve_left hyb.1
      exact ⟨s.x, hsub hx, local_of _ hx (fun w hw => hle.trans (hmin' w hw)) (.inr hax) (.inr hxb), le_refl _, close _ hx⟩
  · push Not at hya
    have hya' : y = s.a := le_antisymm hya.2 hy.1
    have hle : f s.x ≤ f y := by rw [hya']; exact I.fa.resolve_left hya.1
    exact ⟨s.x, hsub hx, local_of _ hx (fun w hw => hle.trans (hmin' w hw)) (.inr hax) (.inr hxb), le_refl _, close _ hx⟩

/-- **C41** (Brent's method for an extremum): for a continuous function, and with `std::greater<>`, what is returned is within the tolerance of a local maximum of the function on the interval (possibly at a
bound), where the function isn't smaller; and something is returned. -/
theorem C41_brent_maximum (f : ℝ → ℝ) (lower upper eps : ℝ) (h : lower < upper) (hf : ContinuousOn f (Set.Icc lower upper)) :
    (∃ N, ∀ fuel ≥ N, ∃ r, brentMaximum f fuel lower upper eps = .returned r) ∧
    ∀ fuel r, brentMaximum f fuel lower upper eps = .returned r → lower < r ∧ r < upper ∧
      ∃ y ∈ Set.Icc lower upper, IsLocalMaxOn f (Set.Icc lower upper) y ∧ f r ≤ f y ∧ |y - r| ≤ 2 * (max eps (2 / 2 ^ 53) * |r| + 1 / 2 ^ 1074) := by
  refine ⟨C41_brent_minimum_terminates (fun x => -f x) lower upper eps h, fun fuel r hr => ?_⟩
  obtain ⟨h1, h2, y, hy, hm, hle, hd⟩ := C41_brent_minimum (fun x => -f x) fuel lower upper eps h hf.neg r hr
  refine ⟨h1, h2, y, hy, ?_, neg_le_neg_iff.1 hle, hd⟩
  have := hm.neg
  simpa using this

/-- A function that decreases up to a point, and increases after it. -/
structure Unimodal (f : ℝ → ℝ) (lower upper z : ℝ) : Prop where
  mem : z ∈ Set.Icc lower upper
  decreasing : StrictAntiOn f (Set.Icc lower z)
  increasing : StrictMonoOn f (Set.Icc z upper)

/-- **C41** (Brent's method for an extremum): for a function that decreases strictly up to its minimum and increases strictly after it, be it continuous or not, what is returned is within the tolerance of the
minimum. -/
theorem C41_brent_minimum_unimodal (f : ℝ → ℝ) (fuel : ℕ) (lower upper eps z : ℝ) (h : lower < upper) (hz : Unimodal f lower upper z) (r : ℝ)
    (hr : brentMinimum f fuel lower upper eps = .returned r) : |z - r| ≤ 2 * (max eps (2 / 2 ^ 53) * |r| + 1 / 2 ^ 1074) := by
  unfold brentMinimum at hr
  simp only at hr
  obtain ⟨s, ⟨I, hza, hzb⟩, hs, rfl⟩ := minimumLoop_invariant (fun s => MinInv f lower upper (min brentT ((2 - φ) * (upper - lower))) s ∧ s.a ≤ z ∧ z ≤ s.b)
    (fun s h1 h2 => by
      refine ⟨(h1.1.next (eps_nonneg eps) (min_le_left _ _) h2).1, ?_⟩
      obtain ⟨I, za, zb⟩ := h1
      have ht := tol_pos (eps_nonneg eps) s
      have hT := brentT_pos
      have hax := I.ax
      have hxb := I.xb
      have hτ := I.pos
      obtain ⟨u1, u2, u3⟩ := u_spec s (brentT_pos.trans_le ht) (by linarith) (by linarith) h2
      rw [next_eq]
      obtain ⟨u, hu⟩ : ∃ u, u = s.u (max eps (2 * brentε)) := ⟨_, rfl⟩
      rw [← hu] at u1 u2 u3 ⊢
      obtain ⟨U1, U2⟩ := update_fields (f := f) s (s.displacements (max eps (2 * brentε))).1 (s.displacements (max eps (2 * brentε))).2 u
      have hla := I.la
      have hbu := I.bu
      have hne : u ≠ s.x := by rintro rfl; rw [sub_self, abs_zero] at u3; linarith
      by_cases hc : f u ≤ s.fx
      · obtain ⟨_, _, e3, e4⟩ := U1 hc
        rw [I.fx] at hc
        by_cases hl : u < s.x
        · rw [if_pos hl] at e3 e4
          rw [e3, e4]
          refine ⟨za, ?_⟩
          by_contra hh
          push Not at hh
          have := hz.decreasing ⟨by linarith, by linarith⟩ ⟨by linarith, hh.le⟩ hl
          linarith
        · rw [if_neg hl] at e3 e4
          rw [e3, e4]
          refine ⟨?_, zb⟩
          by_contra hh
          push Not at hh
          have := hz.increasing ⟨hh.le, by linarith⟩ ⟨by linarith, by linarith⟩ (lt_of_le_of_ne (not_lt.1 hl) (Ne.symm hne))
          linarith
      · obtain ⟨_, _, e3, e4⟩ := U2 hc
        rw [I.fx] at hc
        push Not at hc
        by_cases hl : u < s.x
        · rw [if_pos hl] at e3 e4
          rw [e3, e4]
          refine ⟨?_, zb⟩
          by_contra hh
          push Not at hh
          have := hz.increasing ⟨hh.le, by linarith⟩ ⟨by linarith, by linarith⟩ hl
          linarith
        · rw [if_neg hl] at e3 e4
          rw [e3, e4]
          refine ⟨za, ?_⟩
          by_contra hh
          push Not at hh
          have := hz.decreasing ⟨by linarith, by linarith⟩ ⟨by linarith, hh.le⟩ (lt_of_le_of_ne (not_lt.1 hl) (Ne.symm hne))
          linarith)
    fuel _ ⟨initial_inv h, hz.mem.1, hz.mem.2⟩ r hr
  have hτ := I.pos
  have hax : s.a < s.x := by linarith [I.ax]
  have hxb : s.x < s.b := by linarith [I.xb]
  obtain ⟨s1, s2⟩ := (stops_iff s hax.le hxb.le).1 hs
  have htol : s.tol (max eps (2 * brentε)) = max eps (2 / 2 ^ 53) * |s.x| + 1 / 2 ^ 1074 := by
    unfold MinState.tol brentT
    rw [show 2 * brentε = 2 / 2 ^ 53 by unfold brentε; ring]
  rw [htol] at s1 s2
  rw [abs_le]; constructor <;> linarith

theorem unimodal_sq : Unimodal (fun x => (x - 1) ^ 2) 0 3 1 where
  mem := ⟨by norm_num, by norm_num⟩
  decreasing := fun x hx y hy hxy => by
    simp only [Set.mem_Icc] at hx hy
    show (y - 1) ^ 2 < (x - 1) ^ 2
    nlinarith
  increasing := fun x hx y hy hxy => by
    simp only [Set.mem_Icc] at hx hy
    show (x - 1) ^ 2 < (y - 1) ^ 2
    nlinarith

example : ∃ fuel r, brentMinimum (fun x => (x - 1) ^ 2) fuel 0 3 0 = .returned r ∧ |1 - r| ≤ 2 * (2 / 2 ^ 53 * |r| + 1 / 2 ^ 1074) := by
  obtain ⟨N, hN⟩ := C41_brent_minimum_terminates (fun x => (x - 1) ^ 2) 0 3 0 (by norm_num)
  obtain ⟨r, hr⟩ := hN N (le_refl _)
  refine ⟨N, r, hr, ?_⟩
  have := C41_brent_minimum_unimodal _ N 0 3 0 1 (by norm_num) unimodal_sq r hr
  rwa [max_eq_right (by norm_num : (0 : ℝ) ≤ 2 / 2 ^ 53)] at this

/-! ### `DoubleBrent` -/

/-- Near a zero. -/
def NearZero (f : ℝ → ℝ) (lower upper r : ℝ) : Prop :=
  lower ≤ r ∧ r ≤ upper ∧ ∃ x, lower ≤ x ∧ x ≤ upper ∧ f x = 0 ∧ |x - r| ≤ 4 / 2 ^ 53 * |r|

theorem NearZero.mono {a b a' b' r : ℝ} (h : NearZero f a b r) (h1 : a' ≤ a) (h2 : b ≤ b') : NearZero f a' b' r := by
  obtain ⟨x1, x2, x, x3, x4, x5, x6⟩ := h
  exact ⟨h1.trans x1, x2.trans h2, x, h1.trans x3, x4.trans h2, x5, x6⟩

theorem NearZero.of_zero {a b r : ℝ} (h1 : a ≤ r) (h2 : r ≤ b) (h : f r = 0) : NearZero f a b r :=
  ⟨h1, h2, r, h1, h2, h, by rw [sub_self, abs_zero]; positivity⟩

theorem bind_returned {A B : Type} {o : Outcome A} {g : A → Outcome B} {b : B} : o.bind g = .returned b ↔ ∃ a, o = .returned a ∧ g a = .returned b := by
  cases o <;> simp [Outcome.bind]

/-- **C41** (all the zeroes, partial correctness): every number returned is near a zero of the function, and at least one is returned if the function changes sign between the bounds. -/
theorem C41_double_brent (f : ℝ → ℝ) (eps : ℝ) (heps : 0 ≤ eps) (fuel : ℕ) (lower upper : ℝ) (hlu : lower ≤ upper) (hf : ContinuousOn f (Set.Icc lower upper)) (zeroes : Finset ℝ)
    (h : doubleBrent f eps fuel lower upper = .returned zeroes) :
    (∀ r ∈ zeroes, lower ≤ r ∧ r ≤ upper ∧ ∃ x, lower ≤ x ∧ x ≤ upper ∧ f x = 0 ∧ |x - r| ≤ 4 / 2 ^ 53 * |r|) ∧ (f lower * f upper ≤ 0 → zeroes.Nonempty) := by
  suffices hs : (∀ r ∈ zeroes, NearZero f lower upper r) ∧ (f lower * f upper ≤ 0 → zeroes.Nonempty) from hs
  induction fuel generalizing lower upper zeroes with
  | zero => simp [doubleBrent] at h
  | succ fuel ih =>
    have ht : 0 ≤ eps * max |lower| |upper| := mul_nonneg heps ((abs_nonneg _).trans (le_max_left _ _))
    have around : ∀ x z, lower ≤ x → x ≤ upper → ((doubleBrent f eps fuel x upper).bind fun above => (doubleBrent f eps fuel lower x).bind fun below => .returned (above ∪ below)) = .returned z →
        (∀ r ∈ z, NearZero f lower upper r) ∧ (f lower * f x ≤ 0 ∨ f x * f upper ≤ 0 → z.Nonempty) := by
      intro x z h1 h2 hz
      obtain ⟨above, ha, hz⟩ := bind_returned.1 hz
      obtain ⟨below, hb, hz⟩ := bind_returned.1 hz
      simp only [Outcome.returned.injEq] at hz
      subst hz
      obtain ⟨a1, a2⟩ := ih x upper h2 (hf.mono (Set.Icc_subset_Icc h1 le_rfl)) above ha
      obtain ⟨b1, b2⟩ := ih lower x h1 (hf.mono (Set.Icc_subset_Icc le_rfl h2)) below hb
      refine ⟨fun r hr => ?_, ?_⟩
      · rcases Finset.mem_union.1 hr with hr | hr
        · exact (a1 r hr).mono h1 le_rfl
        · exact (b1 r hr).mono le_rfl h2
      · rintro (h | h)
        · exact (b2 h).inr
        · exact (a2 h).inl
    have inside : ∀ x, (x ≥ lower + eps * max |lower| |upper| ∧ x ≤ upper - eps * max |lower| |upper|) → lower ≤ x ∧ x ≤ upper :=
      fun x hx => ⟨by linarith [hx.1], by linarith [hx.2]⟩
    rw [doubleBrent] at h
    simp only at h
    open Classical in
    have atBound : ∀ zs z, (∀ r ∈ zs, NearZero f lower upper r) → zs.Nonempty →
        ((brentMinimum f fuel lower upper brentEps).bind fun minimum =>
          if minimum ≥ lower + eps * max |lower| |upper| ∧ minimum ≤ upper - eps * max |lower| |upper| then
            ((doubleBrent f eps fuel minimum upper).bind fun above => (doubleBrent f eps fuel lower minimum).bind fun below => .returned (above ∪ below)).bind fun z => .returned (zs ∪ z)
          else (brentMaximum f fuel lower upper brentEps).bind fun maximum =>
            if maximum ≥ lower + eps * max |lower| |upper| ∧ maximum ≤ upper - eps * max |lower| |upper| then
              ((doubleBrent f eps fuel maximum upper).bind fun above => (doubleBrent f eps fuel lower maximum).bind fun below => .returned (above ∪ below)).bind fun z => .returned (zs ∪ z)
            else .returned zs) = Outcome.returned z →
        (∀ r ∈ z, NearZero f lower upper r) ∧ z.Nonempty := by
      intro zs z hzs hne hz
      obtain ⟨mn, hmn, hz⟩ := bind_returned.1 hz
      have union : ∀ x, (x ≥ lower + eps * max |lower| |upper| ∧ x ≤ upper - eps * max |lower| |upper|) →
          (((doubleBrent f eps fuel x upper).bind fun above => (doubleBrent f eps fuel lower x).bind fun below => .returned (above ∪ below)).bind fun z => .returned (zs ∪ z)) = Outcome.returned z →
          (∀ r ∈ z, NearZero f lower upper r) ∧ z.Nonempty := by
        intro x hx hz
        obtain ⟨z', hz', hz⟩ := bind_returned.1 hz
        simp only [Outcome.returned.injEq] at hz
        subst hz
        have := (around x z' (inside x hx).1 (inside x hx).2 hz').1
        exact ⟨fun r hr => (Finset.mem_union.1 hr).elim (hzs r) (this r), hne.inl⟩
      by_cases h1 : mn ≥ lower + eps * max |lower| |upper| ∧ mn ≤ upper - eps * max |lower| |upper|
      · rw [if_pos h1] at hz; exact union mn h1 hz
      · rw [if_neg h1] at hz
        obtain ⟨mx, hmx, hz⟩ := bind_returned.1 hz
        by_cases h2 : mx ≥ lower + eps * max |lower| |upper| ∧ mx ≤ upper - eps * max |lower| |upper|
        · rw [if_pos h2] at hz; exact union mx h2 hz
        · rw [if_neg h2] at hz
          simp only [Outcome.returned.injEq] at hz
          subst hz
          exact ⟨hzs, hne⟩
    by_cases h0 : f lower = 0 ∨ f upper = 0
    · rw [if_pos h0] at h
      have := atBound _ zeroes ?_ ?_ h
      · exact ⟨this.1, fun _ => this.2⟩
      · intro r hr
        rcases Finset.mem_union.1 hr with hr | hr
        · split at hr
          · rename_i e; rw [Finset.mem_singleton] at hr; subst hr; exact .of_zero le_rfl hlu e
          · simp at hr
        · split at hr
          · rename_i e; rw [Finset.mem_singleton] at hr; subst hr; exact .of_zero hlu le_rfl e
          · simp at hr
      · rcases h0 with h0 | h0
        · rw [if_pos h0]; exact (Finset.singleton_nonempty _).inl
        · rw [if_pos h0]; exact (Finset.singleton_nonempty _).inr
    · rw [if_neg h0] at h
      push Not at h0
      by_cases hs : negative (f lower) = negative (f upper)
      · rw [if_pos hs] at h
        obtain ⟨x, hx, h⟩ := bind_returned.1 h
        have hpos : ¬ f lower * f upper ≤ 0 := by
          cases hn : negative (f lower) with
          | true => exact not_le.2 (mul_pos_of_neg_of_neg (negative_eq_true.1 hn) (negative_eq_true.1 (hs ▸ hn)))
          | false => exact not_le.2 (mul_pos (lt_of_le_of_ne (negative_eq_false.1 hn) (Ne.symm h0.1)) (lt_of_le_of_ne (negative_eq_false.1 (hs ▸ hn)) (Ne.symm h0.2)))
        by_cases hi : x ≥ lower + eps * max |lower| |upper| ∧ x ≤ upper - eps * max |lower| |upper|
        · rw [if_pos hi] at h
          exact ⟨(around x zeroes (inside x hi).1 (inside x hi).2 h).1, fun hh => absurd hh hpos⟩
        · rw [if_neg hi] at h
          simp only [Outcome.returned.injEq] at h
          subst h
          exact ⟨by simp, fun hh => absurd hh hpos⟩
      · rw [if_neg hs] at h
        obtain ⟨c, hc, h⟩ := bind_returned.1 h
        have hcz := C41_brent f fuel lower upper hlu hf c hc
        by_cases hcb : lower = c ∨ upper = c
        · rw [if_pos hcb] at h
          have := atBound {c} zeroes ?_ ?_ h
          · exact ⟨this.1, fun _ => this.2⟩
          · intro r hr; rw [Finset.mem_singleton] at hr; subst hr; exact hcz
          · exact Finset.singleton_nonempty _
        · rw [if_neg hcb] at h
          obtain ⟨a1, a2⟩ := around c zeroes hcz.1 hcz.2.1 h
          refine ⟨a1, fun _ => a2 ?_⟩
          by_contra hh
          push Not at hh
          apply hs
          cases hn : negative (f lower) with
          | true =>
            have h1 := negative_eq_true.1 hn
            have : f c < 0 := by nlinarith
            exact (negative_eq_true.2 (by nlinarith)).symm
          | false =>
            have h1 := lt_of_le_of_ne (negative_eq_false.1 hn) (Ne.symm h0.1)
            have : 0 < f c := by by_contra hc; push Not at hc; nlinarith
            exact (negative_eq_false.2 (by by_contra hc; push Not at hc; nlinarith)).symm

theorem brentEps_le : brentEps ≤ 1 / 1000 := by
  unfold brentEps brentε
  rw [Real.sqrt_le_left (by norm_num)]
  norm_num

theorem within_small (z r : ℝ) (h1 : 1 ≤ r) (h2 : r ≤ 2) (h : |z - r| ≤ 2 * (max brentEps (2 / 2 ^ 53) * |r| + 1 / 2 ^ 1074)) : |z - r| ≤ 1 / 100 := by
  have hm : max brentEps (2 / 2 ^ 53) ≤ 1 / 1000 := max_le brentEps_le (by norm_num)
  have ht : (1 : ℝ) / 2 ^ 1074 ≤ 1 / 1000 := by
    apply one_div_le_one_div_of_le (by norm_num)
    calc (1000 : ℝ) ≤ 2 ^ 10 := by norm_num
      _ ≤ 2 ^ 1074 := pow_le_pow_right₀ (by norm_num) (by norm_num)
  rw [abs_of_nonneg (by linarith : (0 : ℝ) ≤ r)] at h
  have : max brentEps (2 / 2 ^ 53) * r ≤ 1 / 1000 * 2 := mul_le_mul hm h2 (by linarith) (by norm_num)
  linarith

/-- The hypothesis of the above theorem is met, for instance, for `x - 1` between 1 and 2. -/
example : ∃ fuel, doubleBrent (fun x => x - 1) (1 / 10) fuel 1 2 = .returned {1} := by
  obtain ⟨N, hN⟩ := C41_brent_minimum_terminates (fun x => x - 1) 1 2 brentEps (by norm_num)
  obtain ⟨M, hM⟩ := C41_brent_minimum_terminates (fun x => -(x - 1)) 1 2 brentEps (by norm_num)
  obtain ⟨r, hr⟩ := hN (max N M) (le_max_left _ _)
  obtain ⟨q, hq⟩ := hM (max N M) (le_max_right _ _)
  have ur : Unimodal (fun x : ℝ => x - 1) 1 2 1 :=
    ⟨by norm_num, fun x hx y hy h => by simp only [Set.mem_Icc] at hx hy; linarith, fun x _ y _ h => by show x - 1 < y - 1; linarith⟩
  have uq : Unimodal (fun x : ℝ => -(x - 1)) 1 2 2 :=
    ⟨by norm_num, fun x _ y _ h => by show -(y - 1) < -(x - 1); linarith, fun x hx y hy h => by simp only [Set.mem_Icc] at hx hy; linarith⟩
  have hr1 := C41_brent_minimum _ _ 1 2 _ (by norm_num) (by fun_prop) r hr
  have hq1 := C41_brent_minimum _ _ 1 2 _ (by norm_num) (by fun_prop) q hq
  have hr2 := within_small 1 r hr1.1.le hr1.2.1.le (C41_brent_minimum_unimodal _ _ 1 2 _ 1 (by norm_num) ur r hr)
  have hq2 := within_small 2 q hq1.1.le hq1.2.1.le (C41_brent_minimum_unimodal _ _ 1 2 _ 2 (by norm_num) uq q hq)
  rw [abs_le] at hr2 hq2
  have hmax : max |(1 : ℝ)| |2| = 2 := by rw [abs_one, abs_two]; norm_num
  have hq' : brentMaximum (fun x => x - 1) (max N M) 1 2 brentEps = .returned q := hq
  refine ⟨max N M + 1, ?_⟩
  rw [doubleBrent]
  simp only [hmax, hr, hq', Outcome.bind]
  rw [if_pos (.inl (by norm_num)), if_neg (fun h => by linarith [h.1, hr2.1]), if_neg (fun h => by linarith [h.2, hq2.2])]
  norm_num

/-- The search for a minimum only looks at finitely many values of the function. -/
theorem minimumLoop_finite (f : ℝ → ℝ) (eps : ℝ) (fuel : ℕ) (s : MinState) :
    ∃ S : Finset ℝ, ∀ g : ℝ → ℝ, (∀ x ∈ S, g x = f x) → minimumLoop g eps fuel s = minimumLoop f eps fuel s := by
  classical
  induction fuel generalizing s with
  | zero => exact ⟨∅, fun g _ => rfl⟩
  | succ fuel ih =>
    obtain ⟨S, hS⟩ := ih (s.next f eps)
    refine ⟨insert (s.u eps) S, fun g hg => ?_⟩
    have hu : g (s.u eps) = f (s.u eps) := hg _ (Finset.mem_insert_self _ _)
    have hn : s.next g eps = s.next f eps := by
      rw [next_eq, next_eq]
      unfold MinState.update
      simp only [hu]
    rw [minimumLoop, minimumLoop, hn, hS g fun x hx => hg x (Finset.mem_insert_of_mem hx)]

/-- **C41** (all the zeroes, counterexample): `DoubleBrent` does not always find all the zeroes of a continuous function: it may return none although there is one strictly between the bounds. -/
theorem C41_double_brent_counterexample :
    ∃ (f : ℝ → ℝ) (p : ℝ) (fuel : ℕ), Continuous f ∧ 1 < p ∧ p < 2 ∧ f p = 0 ∧ doubleBrent f (1 / 10) fuel 1 2 = .returned ∅ := by
  classical
  obtain ⟨N, hN⟩ := C41_brent_minimum_terminates (fun x => x) 1 2 brentEps (by norm_num)
  obtain ⟨r, hr⟩ := hN N (le_refl _)
  have ur : Unimodal (fun x : ℝ => x) 1 2 1 :=
    ⟨by norm_num, fun x hx y hy h => by simp only [Set.mem_Icc] at hx hy; linarith, fun x _ y _ h => h⟩
  have hr1 := C41_brent_minimum _ _ 1 2 _ (by norm_num) (by fun_prop) r hr
  have hr2 := within_small 1 r hr1.1.le hr1.2.1.le (C41_brent_minimum_unimodal _ _ 1 2 _ 1 (by norm_num) ur r hr)
  rw [abs_le] at hr2
  obtain ⟨S, hS⟩ := minimumLoop_finite (fun x => x) (max brentEps (2 * brentε)) N
    ⟨1, 2, 0, 0, 1 + (2 - φ) * (2 - 1), 1 + (2 - φ) * (2 - 1), 1 + (2 - φ) * (2 - 1), 1 + (2 - φ) * (2 - 1), 1 + (2 - φ) * (2 - 1), 1 + (2 - φ) * (2 - 1)⟩
  -- All the points at which the function is evaluated.
  obtain ⟨T, hT⟩ : ∃ T : Finset ℝ, T = insert 1 (insert 2 (insert (1 + (2 - φ) * (2 - 1)) S)) := ⟨_, rfl⟩
  obtain ⟨p, hp, hpT⟩ : ∃ p ∈ Set.Ioo (1 : ℝ) 2, p ∉ T :=
    ((Set.Ioo_infinite (by norm_num : (1 : ℝ) < 2)).exists_notMem_finset T)
  have hK : ∃ K : ℝ, 0 ≤ K ∧ ∀ x ∈ T, x ≤ K * |x - p| := by
    refine ⟨∑ x ∈ T, |x| / |x - p|, Finset.sum_nonneg fun x _ => by positivity, fun x hx => ?_⟩
    have hne : 0 < |x - p| := abs_pos.2 (sub_ne_zero.2 fun e => hpT (e ▸ hx))
    have h1 : |x| / |x - p| ≤ ∑ x ∈ T, |x| / |x - p| := Finset.single_le_sum (f := fun x => |x| / |x - p|) (fun y _ => by positivity) hx
    rw [div_le_iff₀ hne] at h1
    exact (le_abs_self x).trans h1
  obtain ⟨K, hK0, hK⟩ := hK
  obtain ⟨g, hg⟩ : ∃ g : ℝ → ℝ, g = fun x => min x (K * |x - p|) := ⟨_, rfl⟩
  have hgT : ∀ x ∈ T, g x = x := fun x hx => by rw [hg]; exact min_eq_left (hK x hx)
  have g1 : g 1 = 1 := hgT 1 (by simp [hT])
  have g2 : g 2 = 2 := hgT 2 (by simp [hT])
  have g3 : g (1 + (2 - φ) * (2 - 1)) = 1 + (2 - φ) * (2 - 1) := hgT _ (by simp [hT])
  have hmin : brentMinimum g N 1 2 brentEps = .returned r := by
    rw [← hr]
    unfold brentMinimum
    simp only [g3]
    exact hS g fun x hx => hgT x (by simp [hT, hx])
  refine ⟨g, p, N + 1, by rw [hg]; fun_prop, hp.1, hp.2, ?_, ?_⟩
  · rw [hg]; simp only [sub_self, abs_zero, mul_zero]; exact min_eq_right (by linarith [hp.1])
  · have hmax : max |(1 : ℝ)| |2| = 2 := by rw [abs_one, abs_two]; norm_num
    have n1 : negative (1 : ℝ) = false := negative_eq_false.2 (by norm_num)
    have n2 : negative (2 : ℝ) = false := negative_eq_false.2 (by norm_num)
    rw [doubleBrent]
    simp only [hmax, hmin, g1, g2, n1, n2, Outcome.bind]
    rw [if_neg (by norm_num), if_pos trivial]
    simp only [Bool.false_eq_true, if_false]
    rw [if_neg (fun h => by linarith [h.1, hr2.1])]

/-! ### The golden section search -/

theorem golden_next (s : GoldenState) (ℓ : ℝ) (hℓ : 0 < ℓ) (h1 : s.upper = s.lower + ℓ) (h2 : s.lowerInterior = s.lower + (2 - φ) * ℓ) (h3 : s.upperInterior = s.lower + (φ - 1) * ℓ) :
    (s.next f).upper = (s.next f).lower + (φ - 1) * ℓ ∧ (s.next f).lowerInterior = (s.next f).lower + (2 - φ) * ((φ - 1) * ℓ) ∧
      (s.next f).upperInterior = (s.next f).lower + (φ - 1) * ((φ - 1) * ℓ) ∧
      ∀ z, Unimodal f s.lower s.upper z → Unimodal f (s.next f).lower (s.next f).upper z := by
  have hφ := φ_sq
  obtain ⟨φ1, φ2⟩ := φ_bounds
  unfold GoldenState.next
  split
  · rename_i hc
    refine ⟨h3, ?_, ?_, fun z hz => ?_⟩
    · show s.lowerInterior - (s.lowerInterior - s.lower) * (2 - φ) = s.lower + (2 - φ) * ((φ - 1) * ℓ)
      rw [h2]; ring
    · show s.lowerInterior = s.lower + (φ - 1) * ((φ - 1) * ℓ)
      rw [h2]; linear_combination (-ℓ) * hφ
    · have hl : s.lower ≤ s.lowerInterior := by rw [h2]; nlinarith
      have hlu : s.lowerInterior < s.upperInterior := by rw [h2, h3]; nlinarith
      have hu : s.upperInterior ≤ s.upper := by rw [h1, h3]; nlinarith
      have hzu : z ≤ s.upperInterior := by
        by_contra hh
        push Not at hh
        have e1 := hz.decreasing ⟨hl, by linarith⟩ ⟨by linarith, hh.le⟩ hlu
        have e2 : f s.lowerInterior ≤ f s.lower := by
          rcases eq_or_lt_of_le hl with e | e
          · rw [e]
          · exact (hz.decreasing ⟨le_rfl, by linarith [hz.mem.1]⟩ ⟨hl, by linarith⟩ e).le
        rw [min_eq_right e2] at hc
        exact absurd (hc.trans_le (min_le_left _ _)) (not_lt.2 e1.le)
      exact ⟨⟨hz.mem.1, hzu⟩, hz.decreasing, hz.increasing.mono (Set.Icc_subset_Icc le_rfl hu)⟩
  · rename_i hc
    refine ⟨?_, ?_, ?_, fun z hz => ?_⟩
    · show s.upper = s.lowerInterior + (φ - 1) * ℓ
      rw [h1, h2]; ring
    · show s.upperInterior = s.lowerInterior + (2 - φ) * ((φ - 1) * ℓ)
      rw [h2, h3]; linear_combination ℓ * hφ
    · show s.upperInterior + (s.upper - s.upperInterior) * (2 - φ) = s.lowerInterior + (φ - 1) * ((φ - 1) * ℓ)
      rw [h1, h2, h3]; linear_combination (0 : ℝ) * hφ
    · have hl : s.lower ≤ s.lowerInterior := by rw [h2]; nlinarith
      have hlu : s.lowerInterior < s.upperInterior := by rw [h2, h3]; nlinarith
      have hu : s.upperInterior ≤ s.upper := by rw [h1, h3]; nlinarith
      have hzl : s.lowerInterior ≤ z := by
        by_contra hh
        push Not at hh
        have e1 := hz.increasing ⟨hh.le, by linarith⟩ ⟨by linarith, hu⟩ hlu
        have e2 : f s.upperInterior ≤ f s.upper := by
          rcases eq_or_lt_of_le hu with e | e
          · rw [e]
          · exact (hz.increasing ⟨by linarith, hu⟩ ⟨by linarith [hz.mem.2], le_rfl⟩ e).le
        rw [min_eq_left e2] at hc
        exact hc ((min_le_right _ _).trans_lt e1)
      exact ⟨⟨hzl, hz.mem.2⟩, hz.decreasing.mono (Set.Icc_subset_Icc hl le_rfl), hz.increasing⟩

theorem golden_iterate (n : ℕ) (s : GoldenState) (ℓ : ℝ) (hℓ : 0 < ℓ) (h1 : s.upper = s.lower + ℓ) (h2 : s.lowerInterior = s.lower + (2 - φ) * ℓ)
    (h3 : s.upperInterior = s.lower + (φ - 1) * ℓ) (z : ℝ) (hz : Unimodal f s.lower s.upper z) :
    ((GoldenState.next f)^[n] s).upper = ((GoldenState.next f)^[n] s).lower + (φ - 1) ^ n * ℓ ∧
      Unimodal f ((GoldenState.next f)^[n] s).lower ((GoldenState.next f)^[n] s).upper z := by
  induction n generalizing s ℓ with
  | zero => simpa using ⟨h1, hz⟩
  | succ n ih =>
    obtain ⟨φ1, φ2⟩ := φ_bounds
    obtain ⟨g1, g2, g3, g4⟩ := golden_next (f := f) s ℓ hℓ h1 h2 h3
    rw [Function.iterate_succ_apply]
    obtain ⟨i1, i2⟩ := ih (s.next f) ((φ - 1) * ℓ) (by nlinarith) g1 g2 g3 (g4 z hz)
    exact ⟨by rw [i1, pow_succ]; ring, i2⟩

/-- **C41** (golden section search): for a function that decreases strictly up to its minimum and increases strictly after it, each iteration divides by the golden ratio the distance between the result and the
minimum. -/
theorem C41_golden_section (f : ℝ → ℝ) (n : ℕ) (lower upper z : ℝ) (h : lower < upper) (hz : Unimodal f lower upper z) :
    |z - goldenSectionSearch f n lower upper| ≤ (upper - lower) / 2 / ((1 + √5) / 2) ^ n := by
  have hφ := φ_sq
  obtain ⟨φ1, φ2⟩ := φ_bounds
  obtain ⟨i1, i2⟩ := golden_iterate (f := f) n
    ⟨lower, (lower * (φ - 1) + upper * (2 - φ)) / (φ - 1 + (2 - φ)), (lower * (2 - φ) + upper * (φ - 1)) / (2 - φ + (φ - 1)), upper⟩ (upper - lower) (by linarith) (by simp)
    (by show _ / (φ - 1 + (2 - φ)) = lower + _; rw [show φ - 1 + (2 - φ) = 1 by ring]; ring)
    (by show _ / (2 - φ + (φ - 1)) = lower + _; rw [show 2 - φ + (φ - 1) = 1 by ring]; ring) z hz
  have hinv : (φ - 1) ^ n = 1 / ((1 + √5) / 2) ^ n := by
    have : φ - 1 = 1 / φ := by field_simp; linarith
    rw [this, div_pow, one_pow]; rfl
  unfold goldenSectionSearch
  simp only
  obtain ⟨s, hs⟩ : ∃ s, s = (GoldenState.next f)^[n]
    ⟨lower, (lower * (φ - 1) + upper * (2 - φ)) / (φ - 1 + (2 - φ)), (lower * (2 - φ) + upper * (φ - 1)) / (2 - φ + (φ - 1)), upper⟩ := ⟨_, rfl⟩
  rw [← hs] at i1 i2 ⊢
  have hb := i2.mem
  have : (upper - lower) / 2 / ((1 + √5) / 2) ^ n = (φ - 1) ^ n * (upper - lower) / 2 := by rw [hinv]; ring
  rw [this, abs_le]
  constructor <;> linarith [hb.1, hb.2]

example : |1 - goldenSectionSearch (fun x => (x - 1) ^ 2) 100 0 3| ≤ (3 - 0) / 2 / ((1 + √5) / 2) ^ 100 :=
  C41_golden_section _ 100 0 3 1 (by norm_num) unimodal_sq

end Principia.RootFinders
