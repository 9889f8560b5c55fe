import Verif.Numerics.PiecewisePoissonModel
import Mathlib.Data.List.TakeWhile
import Mathlib.Tactic.Linarith
import Mathlib.Tactic.Ring
import Mathlib.Tactic.NormNum
import Mathlib.Tactic.ByContra

/-!
C92: the piecewise Poisson series.
-/

set_option linter.unusedSimpArgs false
set_option linter.unusedVariables false

namespace Principia.Numerics.Piecewise

/-- The functions that may be obtained by constructing, appending, and applying the operators. -/
inductive Reachable : Piecewise → Prop
  | construct (min max : ℝ) (f : ℝ → ℝ) (p : Piecewise) (h : construct min max f = some p) : Reachable p
  | append (p p' : Piecewise) (min max : ℝ) (f : ℝ → ℝ) (hp : Reachable p) (h : p.append min max f = some p') : Reachable p'
  | increment (p : Piecewise) (f : ℝ → ℝ) (hp : Reachable p) : Reachable (p.increment f)
  | decrement (p : Piecewise) (f : ℝ → ℝ) (hp : Reachable p) : Reachable (p.decrement f)
  | neg (p : Piecewise) (hp : Reachable p) : Reachable p.neg
  | smul (c : ℝ) (p : Piecewise) (hp : Reachable p) : Reachable (p.smul c)
  | div (c : ℝ) (p : Piecewise) (hp : Reachable p) : Reachable (p.div c)
  | seriesSub (f : ℝ → ℝ) (p : Piecewise) (hp : Reachable p) : Reachable (seriesSub f p)
  | seriesMul (f : ℝ → ℝ) (p : Piecewise) (hp : Reachable p) : Reachable (seriesMul f p)
  | fourier (p : Piecewise) (points : List (ℕ × ℝ)) (hp : Reachable p) : Reachable (p.fourier points).2

/-- There is one more bound than series, there is a series, and the bounds increase. -/
def Valid (p : Piecewise) : Prop := p.bounds.length = p.series.length + 1 ∧ 0 < p.series.length ∧ p.bounds.Pairwise (· < ·)

theorem valid_append (p p' : Piecewise) (min max : ℝ) (f : ℝ → ℝ) (hp : Valid p) (h : p.append min max f = some p') : Valid p' := by
  rw [Piecewise.append] at h
  by_cases h1 : min < max
  · by_cases h2 : p.bounds.getLast? = some min
    · rw [if_pos h1, if_pos h2] at h
      obtain rfl := Option.some.inj h
      refine ⟨by simp [hp.1], by simp, ?_⟩
      rw [List.pairwise_append]
      refine ⟨hp.2.2, List.pairwise_singleton _ _, ?_⟩
      intro a ha b hb
      rw [List.mem_singleton.1 hb]
      obtain ⟨l, hl⟩ := List.getLast?_eq_some_iff.1 h2
      have hpw := hp.2.2
      rw [hl] at ha hpw
      rcases List.mem_append.1 ha with ha | ha
      · exact ((List.pairwise_append.1 hpw).2.2 a ha min (by simp)).trans h1
      · rw [List.mem_singleton.1 ha]; exact h1
    · rw [if_pos h1, if_neg h2] at h; exact absurd h (by simp)
  · rw [if_neg h1] at h; exact absurd h (by simp)

theorem valid (p : Piecewise) (h : Reachable p) : Valid p := by
  induction h with
  | construct min max f p h =>
    rw [Piecewise.construct] at h
    by_cases h1 : min < max
    · rw [if_pos h1] at h
      obtain rfl := Option.some.inj h
      exact ⟨rfl, by simp, by simp [h1]⟩
    · rw [if_neg h1] at h; exact absurd h (by simp)
  | append p p' min max f hp h ih => exact valid_append p p' min max f ih h
  | increment p f hp ih => rw [Piecewise.increment]; split <;> exact ih
  | decrement p f hp ih => rw [Piecewise.decrement]; split <;> exact ih
  | neg p hp ih => simpa [Valid, Piecewise.neg] using ih
  | smul c p hp ih => simpa [Valid, Piecewise.smul] using ih
  | div c p hp ih => simpa [Valid, Piecewise.div] using ih
  | seriesSub f p hp ih => simpa [Valid, Piecewise.seriesSub] using ih
  | seriesMul f p hp ih => simpa [Valid, Piecewise.seriesMul] using ih
  | fourier p points hp ih => exact ih

theorem upperBound_eq (bounds : List ℝ) (h : bounds.Pairwise (· < ·)) (t : ℝ) (i : ℕ) (hi : i + 1 < bounds.length) (h1 : bounds[i] ≤ t) (h2 : t < bounds[i + 1]) : upperBound bounds t = i + 1 := by
  have hs := List.pairwise_iff_getElem.1 h
  rw [upperBound]
  conv_lhs => rw [← List.take_append_drop (i + 1) bounds]
  rw [List.takeWhile_append_of_pos, List.drop_eq_getElem_cons hi, List.takeWhile_cons_of_neg]
  · simp; omega
  · simpa using h2
  · intro a ha
    obtain ⟨j, hj, rfl⟩ := List.getElem_of_mem ha
    rw [List.length_take] at hj
    rw [List.getElem_take, decide_eq_true_eq]
    rcases lt_or_eq_of_le (show j ≤ i by omega) with h | h
    · exact (hs j i (by omega) (by omega) h).le.trans h1
    · subst h; exact h1

/-- C92.  The value of a piecewise series in one of its intervals, closed on the left, and at the end of the last one, is that of the series of the interval plus the addend.  Outside of the intervals a check fails. -/
theorem C92_value (p : Piecewise) (h : Reachable p) (t : ℝ) :
    (∀ i, (hi : i < p.series.length) → (hb : i + 1 < p.bounds.length) → p.bounds[i] ≤ t → (t < p.bounds[i + 1] ∨ i + 1 = p.series.length ∧ t = p.bounds[i + 1]) → p.at t = some (p.series[i] t + p.evaluateAddend t)) ∧
    ((∀ b ∈ p.bounds, t < b) ∨ (∀ b ∈ p.bounds, b < t) → p.at t = none) := by
  obtain ⟨hlen, hpos, hpw⟩ := valid p h
  have hs := List.pairwise_iff_getElem.1 hpw
  have hlast : p.bounds.getLast? = some p.bounds[p.series.length] := by
    rw [List.getLast?_eq_getElem?, show p.bounds.length - 1 = p.series.length by omega, List.getElem?_eq_getElem]
  constructor
  · intro i hi hb h1 h2
    rcases h2 with h2 | ⟨h2, h3⟩
    · have hne : p.bounds.getLast? ≠ some t := by
        rw [hlast]
        intro e
        have e := Option.some.inj e
        rcases lt_or_eq_of_le (show i + 1 ≤ p.series.length by omega) with h | h
        · have := hs (i + 1) p.series.length hb (by omega) h
          linarith
        · subst_vars
          simp only [← h] at h2
          exact absurd h2 (lt_irrefl _)
      rw [Piecewise.at]
      simp only
      rw [if_neg hne, upperBound_eq p.bounds hpw t i hb h1 h2, if_neg (by omega), if_neg (by omega), Nat.add_sub_cancel, List.getElem?_eq_getElem hi]
      rfl
    · have he : p.bounds.getLast? = some t := by
        rw [hlast, h3]
        simp only [h2]
      rw [Piecewise.at]
      simp only
      rw [if_pos he, List.getLast?_eq_getElem?]
      have : p.series.length - 1 = i := by omega
      rw [this, List.getElem?_eq_getElem hi]
      rfl
  · intro ho
    have hne : p.bounds.getLast? ≠ some t := by
      intro e
      have hm := List.mem_of_getLast? e
      rcases ho with ho | ho
      · exact lt_irrefl _ (ho t hm)
      · exact lt_irrefl _ (ho t hm)
    rw [Piecewise.at]
    simp only
    rw [if_neg hne]
    rcases ho with ho | ho
    · have : upperBound p.bounds t = 0 := by
        rw [upperBound]
        cases hb : p.bounds with
        | nil => rfl
        | cons b bs => rw [List.takeWhile_cons_of_neg (by simpa using ho b (by simp [hb]))]; rfl
      rw [if_pos this]
    · have : upperBound p.bounds t = p.bounds.length := by
        rw [upperBound, List.takeWhile_eq_self_iff.2]
        intro b hb
        simpa using (ho b hb).le
      rw [this, if_neg (by omega), if_pos rfl]

/-- C92.  A series may be appended over an interval that begins at the end of the last one and is not empty; it gives the values there, and the values before are unchanged.  Otherwise a check fails. -/
theorem C92_append (p : Piecewise) (hr : Reachable p) (min max last : ℝ) (f : ℝ → ℝ) (hl : p.bounds.getLast? = some last) :
    (min = last ∧ min < max → ∃ p', p.append min max f = some p' ∧ (∀ t, last ≤ t → t ≤ max → p'.at t = some (f t + p.evaluateAddend t)) ∧ ∀ t < last, p'.at t = p.at t) ∧
    (¬ (min = last ∧ min < max) → p.append min max f = none) := by
  constructor
  · rintro ⟨rfl, hm⟩
    have ha : p.append min max f = some { p with bounds := p.bounds ++ [max], series := p.series ++ [f] } := by rw [Piecewise.append, if_pos hm, if_pos hl]
    obtain ⟨hlen, hpos, hpw⟩ := valid p hr
    refine ⟨_, ha, ?_, ?_⟩
    · intro t h1 h2
      have hr' := Reachable.append p _ min max f hr ha
      have hb : p.bounds[p.series.length]? = some min := by
        rw [List.getLast?_eq_getElem?, show p.bounds.length - 1 = p.series.length by omega] at hl
        exact hl
      have e1 : (p.bounds ++ [max])[p.series.length]? = some min := by rw [List.getElem?_append_left (by omega), hb]
      have e2 : (p.bounds ++ [max])[p.series.length + 1]? = some max := by rw [List.getElem?_append_right (by omega), hlen, Nat.sub_self]; rfl
      have h := (C92_value _ hr' t).1 p.series.length (by simp) (by simp; omega)
      simp only [List.getElem_of_getElem? e1 |>.2, List.getElem_of_getElem? e2 |>.2] at h
      have h3 : t < max ∨ p.series.length + 1 = (p.series ++ [f]).length ∧ t = max := by
        rcases lt_or_eq_of_le h2 with h | h
        · exact Or.inl h
        · exact Or.inr ⟨by simp, h⟩
      rw [h h1 h3]
      simp
      rfl
    · intro t ht
      have hub : upperBound p.bounds t ≠ p.bounds.length := by
        intro e
        rw [upperBound] at e
        have e' := (List.takeWhile_sublist (l := p.bounds) fun b => decide (b ≤ t)).eq_of_length e
        have := List.takeWhile_eq_self_iff.1 e' min (List.mem_of_getLast? hl)
        rw [decide_eq_true_eq] at this
        linarith
      have hub' : upperBound (p.bounds ++ [max]) t = upperBound p.bounds t := by
        have hub2 := hub
        rw [upperBound] at hub2
        rw [upperBound, List.takeWhile_append, if_neg hub2]; rfl
      have hle : upperBound p.bounds t ≤ p.bounds.length := (List.takeWhile_sublist _).length_le
      have n1 : p.bounds.getLast? ≠ some t := by rw [hl]; intro e; exact absurd (Option.some.inj e) (ne_of_gt ht)
      have n2 : (p.bounds ++ [max]).getLast? ≠ some t := by
        rw [List.getLast?_append]; intro e
        have e : max = t := by simpa using e
        linarith
      rw [Piecewise.at, Piecewise.at]
      simp only
      rw [if_neg n1, if_neg n2, hub', if_neg hub, if_neg (show upperBound p.bounds t ≠ (p.bounds ++ [max]).length by rw [List.length_append]; simp; omega)]
      by_cases h0 : upperBound p.bounds t = 0
      · rw [if_pos h0, if_pos h0]
      · rw [if_neg h0, if_neg h0, List.getElem?_append_left (by omega)]; rfl
  · intro h
    rw [Piecewise.append, hl]
    by_cases h1 : min < max
    · rw [if_pos h1, if_neg fun e => h ⟨(Option.some.inj e).symm, h1⟩]
    · rw [if_neg h1]

theorem at_map (p q : Piecewise) (hb : q.bounds = p.bounds) (g : ℝ → ℝ → ℝ) (t : ℝ) (hs : q.series = p.series.map fun f t => g t (f t)) (x : ℝ → ℝ)
    (he : ∀ v, g t v + q.evaluateAddend t = x (v + p.evaluateAddend t)) : q.at t = (p.at t).map x := by
  rw [Piecewise.at, Piecewise.at]
  simp only [hb, hs, List.getLast?_map, List.getElem?_map, Option.map_map]
  split
  · rw [Option.map_map]; congr 1; funext f; exact he (f t)
  · split
    · rfl
    · split
      · rfl
      · rw [Option.map_map]; congr 1; funext f; exact he (f t)

theorem at_addend (p q : Piecewise) (hb : q.bounds = p.bounds) (t : ℝ) (hs : q.series = p.series) (x : ℝ → ℝ) (he : ∀ v, v + q.evaluateAddend t = x (v + p.evaluateAddend t)) : q.at t = (p.at t).map x :=
  at_map p q hb (fun _ v => v) t (by rw [hs]; simp) x he

/-- C92.  The operators act on the values. -/
theorem C92_operators (p : Piecewise) (c : ℝ) (f : ℝ → ℝ) (t : ℝ) :
    (p.increment f).at t = (p.at t).map (· + f t) ∧ (p.decrement f).at t = (p.at t).map (· - f t) ∧ p.neg.at t = (p.at t).map (- ·) ∧ (p.smul c).at t = (p.at t).map (c * ·) ∧
    (p.div c).at t = (p.at t).map (· / c) ∧ (seriesSub f p).at t = (p.at t).map (f t - ·) ∧ (seriesMul f p).at t = (p.at t).map (f t * ·) := by
  obtain ⟨bounds, series, addend, cache⟩ := p
  refine ⟨?_, ?_, ?_, ?_, ?_, ?_, ?_⟩
  · cases addend <;> (refine at_addend _ _ ?_ t ?_ _ ?_ <;> first | rfl | (intro v; simp only [Piecewise.increment, Piecewise.evaluateAddend]; ring))
  · cases addend <;> (refine at_addend _ _ ?_ t ?_ _ ?_ <;> first | rfl | (intro v; simp only [Piecewise.decrement, Piecewise.evaluateAddend]; ring))
  · cases addend <;> (refine at_map _ _ ?_ (fun _ v => -v) t ?_ _ ?_ <;> first | rfl | (intro v; simp only [Piecewise.neg, Piecewise.evaluateAddend, Option.map_some, Option.map_none]; ring))
  · cases addend <;> (refine at_map _ _ ?_ (fun _ v => c * v) t ?_ _ ?_ <;> first | rfl | (intro v; simp only [Piecewise.smul, Piecewise.evaluateAddend, Option.map_some, Option.map_none]; ring))
  · cases addend <;> (refine at_map _ _ ?_ (fun _ v => v / c) t ?_ _ ?_ <;> first | rfl | (intro v; simp only [Piecewise.div, Piecewise.evaluateAddend, Option.map_some, Option.map_none]; ring))
  · cases addend <;> (refine at_map _ _ ?_ (fun _ v => -v) t ?_ _ ?_ <;> first | rfl | (intro v; simp only [seriesSub, Piecewise.evaluateAddend, Option.map_some, Option.map_none]; ring))
  · cases addend <;> (refine at_map _ _ ?_ (fun t v => f t * v) t ?_ _ ?_ <;> first | rfl | (intro v; simp only [seriesMul, Piecewise.evaluateAddend, Option.map_some, Option.map_none]; ring))

theorem loop_spec (p : Piecewise) (points : List (ℕ × ℝ)) (j : ℕ) (cache all : List ℝ) (hd : all.drop j = points.map p.sample) (hc : cache <+: all) (hj : j ≤ cache.length) :
    (p.fourierLoop points j cache).1 = points.map p.sample ∧ (p.fourierLoop points j cache).2 <+: all := by
  induction points generalizing j cache with
  | nil => exact ⟨rfl, hc⟩
  | cons x rest ih =>
    rw [Piecewise.fourierLoop]
    simp only
    have hjl : j < all.length := by
      by_contra hh
      rw [List.drop_of_length_le (by omega)] at hd
      exact absurd hd (by simp)
    rw [List.drop_eq_getElem_cons hjl, List.map_cons] at hd
    obtain ⟨hx, hrest⟩ := List.cons.inj hd
    by_cases h : cache.length ≤ j
    · have hl : cache.length = j := by omega
      rw [if_pos h]
      have hc' : cache ++ [p.sample x] <+: all := by
        obtain ⟨suffix, rfl⟩ := hc
        rw [List.prefix_append_right_inj]
        rw [List.getElem_append_right (by omega)] at hx
        rw [List.length_append] at hjl
        cases suffix with
        | nil => simp at hjl; omega
        | cons s suffix =>
          simp only [hl, Nat.sub_self, List.getElem_cons_zero] at hx
          rw [hx]
          exact ⟨suffix, rfl⟩
      obtain ⟨h1, h2⟩ := ih (j + 1) (cache ++ [p.sample x]) hrest hc' (by simp; omega)
      refine ⟨?_, h2⟩
      rw [h1, List.map_cons]
      congr 1
      rw [← hl]
      simp
    · rw [if_neg h]
      obtain ⟨h1, h2⟩ := ih (j + 1) cache hrest hc (by omega)
      refine ⟨?_, h2⟩
      rw [h1, List.map_cons]
      congr 1
      rw [List.getD_eq_getElem?_getD, List.getElem?_eq_getElem (show j < cache.length by omega), Option.getD_some, ← hx]
      exact hc.getElem (by omega)

/-- C92.  If the cache is empty, or was filled by computing the Fourier transform of this function, before or after appending to it, then the values that enter the integral are those of the function. -/
theorem C92_fourier (p : Piecewise) (points : List (ℕ × ℝ)) (h : p.cache.getD [] <+: points.map p.sample) :
    (p.fourier points).1 = points.map p.sample ∧ ∀ more : List (ℕ × ℝ), ((p.fourier points).2.cache.getD []) <+: (points ++ more).map p.sample := by
  obtain ⟨h1, h2⟩ := loop_spec p points 0 (p.cache.getD []) (points.map p.sample) rfl h (Nat.zero_le _)
  refine ⟨h1, fun more => ?_⟩
  rw [List.map_append]
  exact h2.trans (List.prefix_append _ _)

/-- C92.  In particular, if each point of the quadrature is in the interval whose index it is given with, the values that enter the integral are those that are obtained by evaluating the function. -/
theorem C92_fourier_values (p : Piecewise) (hr : Reachable p) (points : List (ℕ × ℝ)) (h : p.cache.getD [] <+: points.map p.sample)
    (hp : ∀ x ∈ points, ∃ hb : x.1 + 1 < p.bounds.length, p.bounds[x.1] ≤ x.2 ∧ x.2 < p.bounds[x.1 + 1]) :
    (p.fourier points).1.map some = points.map fun x => p.at x.2 := by
  rw [(C92_fourier p points h).1, List.map_map]
  apply List.map_congr_left
  intro x hx
  obtain ⟨hb, h1, h2⟩ := hp x hx
  have hlen := (valid p hr).1
  have hi : x.1 < p.series.length := by omega
  rw [(C92_value p hr x.2).1 x.1 hi hb h1 (Or.inl h2)]
  simp only [Function.comp, Piecewise.sample]
  rw [List.getD_eq_getElem?_getD, List.getElem?_eq_getElem hi, Option.getD_some]

/-- C92.  Appending a series keeps the cache, and the values at the points of the intervals that exist. -/
theorem C92_append_cache (p p' : Piecewise) (min max : ℝ) (f : ℝ → ℝ) (h : p.append min max f = some p') : p'.cache = p.cache ∧ ∀ k < p.series.length, ∀ t, p'.sample (k, t) = p.sample (k, t) := by
  rw [Piecewise.append] at h
  by_cases h1 : min < max
  · by_cases h2 : p.bounds.getLast? = some min
    · rw [if_pos h1, if_pos h2] at h
      obtain rfl := Option.some.inj h
      refine ⟨rfl, fun k hk t => ?_⟩
      simp only [Piecewise.sample]
      rw [List.getD_eq_getElem?_getD, List.getD_eq_getElem?_getD, List.getElem?_append_left hk]
      rfl
    · rw [if_pos h1, if_neg h2] at h; exact absurd h (by simp)
  · rw [if_neg h1] at h; exact absurd h (by simp)

/-- The function 1 on [0, 1], and its quadrature with one point. -/
noncomputable def one : Piecewise := { bounds := [0, 1], series := [fun _ => 1] }

theorem reachable_one : Reachable one := Reachable.construct 0 1 (fun _ => 1) one (by rw [construct, if_pos (by norm_num)]; rfl)

example : Reachable one ∧ one.cache.getD [] <+: [(0, (1 / 2 : ℝ))].map one.sample ∧ ∀ x ∈ [(0, (1 / 2 : ℝ))], ∃ hb : x.1 + 1 < one.bounds.length, one.bounds[x.1] ≤ x.2 ∧ x.2 < one.bounds[x.1 + 1] := by
  refine ⟨reachable_one, List.nil_prefix, ?_⟩
  intro x hx
  rw [List.mem_singleton.1 hx]
  refine ⟨by simp [one], ?_, ?_⟩
  · show (0 : ℝ) ≤ 1 / 2
    norm_num
  · show (1 / 2 : ℝ) < 1
    norm_num

/-- C92.  The cache is not invalidated by `+=`: once the Fourier transform of a function was evaluated, adding a Poisson series to that function changes its values, but not its Fourier transform. -/
theorem C92_stale_cache_counterexample :
    let p := (one.fourier [(0, 1 / 2)]).2.increment fun _ => 1
    Reachable p ∧ p.at (1 / 2) = some 2 ∧ (p.fourier [(0, 1 / 2)]).1 = [1] := by
  intro p
  have hr : Reachable p := Reachable.increment _ _ (Reachable.fourier _ _ reachable_one)
  refine ⟨hr, ?_, ?_⟩
  · have := (C92_value p hr (1 / 2)).1 0 (by simp [p, Piecewise.increment, Piecewise.fourier, one]) (by simp [p, Piecewise.increment, Piecewise.fourier, one]) (by simp [p, Piecewise.increment, Piecewise.fourier, one])
      (Or.inl (by simp [p, Piecewise.increment, Piecewise.fourier, one]; norm_num))
    rw [this]
    have e : (p.series[0]'(by simp [p, Piecewise.increment, Piecewise.fourier, one])) (1 / 2) = 1 := rfl
    have e' : p.evaluateAddend (1 / 2) = 1 := rfl
    rw [e, e']
    norm_num
  · simp [p, Piecewise.increment, Piecewise.fourier, one, Piecewise.evaluateAddend, Piecewise.fourierLoop, Piecewise.sample]

end Principia.Numerics.Piecewise
