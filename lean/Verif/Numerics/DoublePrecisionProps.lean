import Verif.Numerics.DoublePrecisionAccuracy

/-!
C79: the arithmetic in double precision.
-/

set_option linter.unusedVariables false
set_option linter.unusedSimpArgs false

namespace Principia.Numerics.DoublePrecisions

variable (R : Rounding)

theorem properly_of_ordered {a b : ℝ} (h : Ordered a b) : ProperlyOrdered a b := by
  obtain ⟨f, hf, ⟨m, g⟩, -, l⟩ := h
  by_cases hb : b = 0
  · exact Or.inr (Or.inl hb)
  refine Or.inr (Or.inr ?_)
  have h1 := (log_bounds hb).1
  have h2 : Int.log 2 |b| < 53 + f := by
    by_contra h3
    push Not at h3
    exact absurd ((two_le h3).trans h1) (not_le.2 l)
  have g' : Grid (Int.log 2 |b| - 52) a := Grid.mono ⟨m, g⟩ (by omega)
  exact g'

/-- Summing two ordered doubles yields a normal pair. -/
theorem finish {s v : ℝ} (hs : IsDouble s) (hv : IsDouble v) (h : Ordered s v) :
    (quickTwoSum R s v).exact = s + v ∧ (quickTwoSum R s v).Normal R := by
  have e : (quickTwoSum R s v).exact = s + v := by
    rw [quick_two_sum R hs hv h]
    simp only [DoublePrecision.exact]
    ring
  refine ⟨e, ?_⟩
  unfold DoublePrecision.Normal
  rw [e, quick_two_sum R hs hv h]
  exact ⟨(R.nearest _).1, add_error hs hv (R.nearest _), rfl⟩

/-- **C79**: `TwoSum` is exact. -/
theorem C79_two_sum {a b : ℝ} (ha : IsDouble a) (hb : IsDouble b) : IsExact R (twoSum R a b) (a + b) := by
  rw [two_sum R ha hb]
  exact ⟨rfl, by ring, add_error ha hb (R.nearest _)⟩

/-- **C79**: `TwoDifference` is exact. -/
theorem C79_two_difference {a b : ℝ} (ha : IsDouble a) (hb : IsDouble b) :
    IsExact R (twoDifference R a b) (a - b) ∧ IsExact R (twoDifferenceOfPoints R a b) (a - b) := by
  have h : IsExact R ⟨R.round (a - b), a - b - R.round (a - b)⟩ (a - b) :=
    ⟨rfl, by ring, by simpa only [sub_eq_add_neg] using add_error ha hb.neg (R.nearest _)⟩
  rw [two_difference R ha hb, two_difference_of_points R ha hb]
  exact ⟨h, h⟩

/-- **C79**: `QuickTwoSum` is exact if the check of its arguments passes, and in particular if the first argument is the larger one. -/
theorem C79_quick_two_sum {a b : ℝ} (ha : IsDouble a) (hb : IsDouble b) (h : ProperlyOrdered a b ∨ |b| ≤ |a|) : IsExact R (quickTwoSum R a b) (a + b) := by
  have o : Ordered a b := h.elim (ordered_of_properly ha hb) (ordered_of_le ha hb)
  rw [quick_two_sum R ha hb o]
  exact ⟨rfl, by ring, add_error ha hb (R.nearest _)⟩

/-- **C79**: `QuickTwoDifference` is exact if the check of its arguments passes, and in particular if the first argument is the larger one. -/
theorem C79_quick_two_difference {a b : ℝ} (ha : IsDouble a) (hb : IsDouble b) (h : ProperlyOrdered a b ∨ |b| ≤ |a|) :
    IsExact R (quickTwoDifference R a b) (a - b) := by
  have o : Ordered a (-b) := by
    rcases h with h | h
    · obtain ⟨f, hf, g, g', l⟩ := ordered_of_properly ha hb h
      exact ⟨f, hf, g, g'.neg, by rwa [abs_neg]⟩
    · exact ordered_of_le ha hb.neg (by rwa [abs_neg])
  rw [quick_two_difference R ha hb o]
  exact ⟨rfl, by ring, by simpa only [sub_eq_add_neg] using add_error ha hb.neg (R.nearest _)⟩

/-- **C79**: if nothing underflows `TwoProduct` is exact, with or without a fused multiply-add. -/
theorem C79_two_product (fma : Bool) {a b : ℝ} (ha : IsDouble a) (hb : IsDouble b) (h : NoUnderflow a b) : IsExact R (twoProduct R fma a b) (a * b) := by
  rw [two_product R fma ha hb h]
  exact ⟨rfl, by ring, mul_error ha hb (grid_of_large_product ha hb h.2.2) (R.nearest _)⟩

/-- **C79**: with a fused multiply-add `TwoProduct` is exact if the product is a multiple of the smallest double. -/
theorem C79_two_product_fma {a b : ℝ} (ha : IsDouble a) (hb : IsDouble b) (h : ∃ m : ℤ, a * b = m * (2 : ℝ) ^ (-1074 : ℤ)) :
    IsExact R (twoProduct R true a b) (a * b) := by
  rw [fma_product R ha hb h]
  exact ⟨rfl, by ring, mul_error ha hb h (R.nearest _)⟩

namespace DoublePrecision

/-- **C79**: in the results of the operations the error is at most half a unit in the last place of the value. -/
theorem C79_normal {d : DoublePrecision} (h : d.Normal R) : d.Small := by
  obtain ⟨h1, h2, h3⟩ := h
  refine ⟨h1, h2, ?_⟩
  have n : Nearest (d.value + d.error) d.value := by
    have := R.nearest d.exact
    rw [← h3] at this
    exact this
  have := (near_rel (h1.grid.add h2.grid) n).2
  rwa [add_sub_cancel_left] at this

theorem small_neg {d : DoublePrecision} (h : d.Small) : d.neg.Small := ⟨h.1.neg, h.2.1.neg, by simpa only [neg, abs_neg] using h.2.2⟩

/-- **C79**: the opposite of a number is exact. -/
theorem C79_neg {d : DoublePrecision} (h : d.Small) : d.neg.Small ∧ d.neg.exact = -d.exact := ⟨small_neg h, by simp only [neg, exact]; ring⟩

/-- **C79**: the sum of a double and a number in double precision. -/
theorem C79_add_scalar {x : ℝ} {d : DoublePrecision} (hx : IsDouble x) (hd : d.Small) :
    (addLeftChecks R x d ∧ (addLeft R x d).Represents R 4 (x + d.exact)) ∧ (addRightChecks R d x ∧ (addRight R d x).Represents R 4 (d.exact + x)) := by
  obtain ⟨h1, h2, h3⟩ := hd
  have key : ∀ s v : ℝ, Nearest (x + d.value) s → Nearest (x + d.value - s + d.error) v →
      ProperlyOrdered s v ∧ (quickTwoSum R s v).Represents R 4 (x + d.exact) := by
    intro s v hs hv
    obtain ⟨o, b⟩ := add_core hx h1 h2 h3 hs hv
    obtain ⟨e, n⟩ := finish R hs.1 hv.1 o
    refine ⟨properly_of_ordered o, ?_, n⟩
    rw [e]
    simpa only [exact, add_assoc] using b
  constructor
  · unfold addLeftChecks addLeft
    rw [two_sum R hx h1]
    exact key _ _ (R.nearest _) (R.nearest _)
  · unfold addRightChecks addRight
    rw [two_sum R h1 hx, add_comm d.exact, add_comm d.value]
    exact key _ _ (R.nearest _) (R.nearest _)

/-- **C79**: the difference of a double and a number in double precision. -/
theorem C79_sub_scalar {x : ℝ} {d : DoublePrecision} (hx : IsDouble x) (hd : d.Small) :
    (subLeftChecks R x d ∧ (subLeft R x d).Represents R 4 (x - d.exact)) ∧ (subRightChecks R d x ∧ (subRight R d x).Represents R 4 (d.exact - x)) := by
  have key : ∀ (x : ℝ) (d : DoublePrecision), IsDouble x → d.Small → ∀ s v : ℝ, Nearest (x + d.value) s → Nearest (x + d.value - s + d.error) v →
      ProperlyOrdered s v ∧ (quickTwoSum R s v).Represents R 4 (x + d.exact) := by
    intro x d hx hd s v hs hv
    obtain ⟨o, b⟩ := add_core hx hd.1 hd.2.1 hd.2.2 hs hv
    obtain ⟨e, n⟩ := finish R hs.1 hv.1 o
    refine ⟨properly_of_ordered o, ?_, n⟩
    rw [e]
    simpa only [exact, add_assoc] using b
  constructor
  · unfold subLeftChecks subLeft
    rw [two_difference R hx hd.1, show x - d.exact = x + d.neg.exact by simp only [neg, exact]; ring]
    refine key x d.neg hx (small_neg hd) _ _ ?_ ?_
    · exact R.nearest _
    · exact R.nearest _
  · unfold subRightChecks subRight
    rw [two_difference R hd.1 hx, show d.exact - x = -x + d.exact by ring]
    refine key (-x) d hx.neg hd _ _ ?_ ?_
    · rw [show -x + d.value = d.value - x by ring]
      exact R.nearest _
    · rw [show -x + d.value = d.value - x by ring]
      exact R.nearest _

theorem add_key {a b : DoublePrecision} (ha : a.Small) (hb : b.Small) {s t c : ℝ} (hs : Nearest (a.value + b.value) s) (ht : Nearest (a.error + b.error) t)
    (hc : Nearest (a.value + b.value - s + t) c) {w : ℝ} (hw : Nearest (a.error + b.error - t + (quickTwoSum R s c).error) w) :
    (ProperlyOrdered s c ∧ ProperlyOrdered (quickTwoSum R s c).value w) ∧ (quickTwoSum R (quickTwoSum R s c).value w).Represents R 6 (a.exact + b.exact) := by
  have h0 : Ordered s c := (add_add_core ha.1 ha.2.1 hb.1 hb.2.1 ha.2.2 hb.2.2 hs ht hc (R.nearest _) (R.nearest _)).1
  rw [quick_two_sum R hs.1 hc.1 h0] at hw ⊢
  obtain ⟨-, o, e⟩ := add_add_core ha.1 ha.2.1 hb.1 hb.2.1 ha.2.2 hb.2.2 hs ht hc (R.nearest _) hw
  obtain ⟨e', n⟩ := finish R (R.nearest (s + c)).1 hw.1 o
  refine ⟨⟨properly_of_ordered h0, properly_of_ordered o⟩, ?_, n⟩
  rw [e']
  exact e

/-- **C79**: the sum of numbers in double precision. -/
theorem C79_add {a b : DoublePrecision} (ha : a.Small) (hb : b.Small) : addChecks R a b ∧ (add R a b).Represents R 6 (a.exact + b.exact) := by
  unfold addChecks add
  rw [two_sum R ha.1 hb.1, two_sum R ha.2.1 hb.2.1]
  exact add_key R ha hb (R.nearest _) (R.nearest _) (R.nearest _) (R.nearest _)

/-- **C79**: the difference of numbers in double precision. -/
theorem C79_sub {a b : DoublePrecision} (ha : a.Small) (hb : b.Small) : subChecks R a b ∧ (sub R a b).Represents R 6 (a.exact - b.exact) := by
  unfold subChecks sub
  rw [two_difference R ha.1 hb.1, two_difference R ha.2.1 hb.2.1, show a.exact - b.exact = a.exact + b.neg.exact by simp only [neg, exact]; ring]
  refine add_key R ha (small_neg hb) (t := R.round (a.error - b.error)) ?_ ?_ ?_ ?_
  · exact R.nearest _
  · exact R.nearest _
  · exact R.nearest _
  · exact R.nearest _

/-- **C79**: the product of a double and a number in double precision. -/
theorem C79_mul_scalar (fma : Bool) {x : ℝ} {d : DoublePrecision} (hx : IsDouble x) (hd : d.Small) (hu : NoUnderflow x d.value) :
    (mulLeftChecks R fma x d ∧ (mulLeft R fma x d).Represents R 5 (x * d.exact)) ∧ (mulRightChecks R fma d x ∧ (mulRight R fma d x).Represents R 5 (d.exact * x)) := by
  obtain ⟨h1, h2, h3⟩ := hd
  have key : ∀ s m v : ℝ, Nearest (x * d.value) s → Nearest (x * d.error) m → Nearest (x * d.value - s + m) v →
      ProperlyOrdered s v ∧ (quickTwoSum R s v).Represents R 5 (x * d.exact) := by
    intro s m v hs hm hv
    obtain ⟨o, b⟩ := mul_core hx h1 h2 h3 hu.2.2 hs hm hv
    obtain ⟨e, n⟩ := finish R hs.1 hv.1 o
    refine ⟨properly_of_ordered o, ?_, n⟩
    rw [e]
    exact b
  constructor
  · unfold mulLeftChecks mulLeft
    rw [two_product R fma hx h1 hu]
    exact key _ _ _ (R.nearest _) (R.nearest _) (R.nearest _)
  · unfold mulRightChecks mulRight
    rw [two_product R fma h1 hx ⟨hu.2.1, hu.1, by rw [mul_comm]; exact hu.2.2⟩, mul_comm d.exact, mul_comm d.value]
    refine key _ (R.round (d.error * x)) _ (R.nearest _) ?_ (R.nearest _)
    rw [mul_comm x]
    exact R.nearest _

/-- **C79**: the product of numbers in double precision. -/
theorem C79_mul (fma : Bool) {a b : DoublePrecision} (ha : a.Small) (hb : b.Small) (hu : NoUnderflow a.value b.value) :
    mulChecks R fma a b ∧ (mul R fma a b).Represents R 11 (a.exact * b.exact) := by
  unfold mulChecks mul
  rw [two_product R fma ha.1 hb.1 hu]
  obtain ⟨o, e⟩ := mul_mul_core ha.1 ha.2.1 hb.1 hb.2.1 ha.2.2 hb.2.2 hu.2.2 (R.nearest _) (R.nearest _) (R.nearest _) (R.nearest _) (R.nearest _) (R.nearest _)
  obtain ⟨e', n⟩ := finish R (R.nearest _).1 (R.nearest _).1 o
  refine ⟨properly_of_ordered o, ?_, n⟩
  refine le_trans (le_of_eq ?_) e
  rw [← e']
  rfl

/-- `Increment` with ordered arguments. -/
theorem increment_eq {d : DoublePrecision} {x : ℝ} (hd : IsDouble d.value) (h : Ordered d.value (R.round (d.error + x))) :
    (increment R d x).exact = d.value + R.round (d.error + x) ∧ (increment R d x).Normal R := by
  have hy := (R.nearest (d.error + x)).1
  generalize hY : R.round (d.error + x) = y at *
  have hq := (quick_ordered hd hy (R.nearest _) h).neg
  rw [neg_sub] at hq
  have he := add_error hd hy (R.nearest _)
  have e0 : increment R d x = ⟨R.round (d.value + y), d.value + y - R.round (d.value + y)⟩ := by
    simp only [increment, Rounding.add, Rounding.sub, hY, DoublePrecision.mk.injEq, true_and]
    rw [round_exact R hq, show d.value - R.round (d.value + y) + y = d.value + y - R.round (d.value + y) by ring, round_exact R he]
  have e : (increment R d x).exact = d.value + y := by
    rw [e0]
    simp only [exact]
    ring
  refine ⟨e, ?_⟩
  unfold Normal
  rw [e, e0]
  exact ⟨(R.nearest _).1, he, rfl⟩

theorem decrement_increment (d : DoublePrecision) (x : ℝ) : decrement R d x = increment R d (-x) := by
  simp only [decrement, increment, Rounding.add, Rounding.sub, sub_eq_add_neg]

/-- **C79**: `Increment` loses nothing but the rounding of the increment corrected by the error. -/
theorem C79_increment {d : DoublePrecision} {x : ℝ} (hd : d.Small) (hx : IsDouble x) (h : |R.round (d.error + x)| ≤ |d.value|) :
    |(increment R d x).exact - (d.exact + x)| ≤ |d.error + x| / 2 ^ 53 ∧ (increment R d x).Normal R := by
  obtain ⟨e, n⟩ := increment_eq R hd.1 (ordered_of_le hd.1 (R.nearest _).1 h)
  refine ⟨?_, n⟩
  rw [e, show d.value + R.round (d.error + x) - (d.exact + x) = -(d.error + x - R.round (d.error + x)) by simp only [exact]; ring, abs_neg]
  exact (near_rel (hd.2.1.grid.add hx.grid) (R.nearest _)).1

/-- **C79**: `Decrement` loses nothing but the rounding of the decrement corrected by the error. -/
theorem C79_decrement {d : DoublePrecision} {x : ℝ} (hd : d.Small) (hx : IsDouble x) (h : |R.round (d.error - x)| ≤ |d.value|) :
    |(decrement R d x).exact - (d.exact - x)| ≤ |d.error - x| / 2 ^ 53 ∧ (decrement R d x).Normal R := by
  rw [sub_eq_add_neg] at h
  have := C79_increment R hd hx.neg h
  rw [decrement_increment]
  simpa only [sub_eq_add_neg] using this

theorem accumulate_aux {H L V : ℝ} (hHL : 4 * H ≤ L) (hLV : V ≤ 2 ^ 50 * L) (h0 : 0 ≤ H) (l : List ℝ) : ∀ (d : DoublePrecision) (x : ℝ) (k : ℕ), d.Small →
    |d.exact - x| ≤ k * ((H + V / 2 ^ 52) / 2 ^ 53) → k + l.length ≤ 2 ^ 52 → (∀ h ∈ l, IsDouble h ∧ |h| ≤ H) →
    (∀ j, L ≤ |x + (l.take j).sum| ∧ |x + (l.take j).sum| ≤ V) →
    |(accumulated R d l).exact - (x + l.sum)| ≤ ((k + l.length : ℕ) : ℝ) * ((H + V / 2 ^ 52) / 2 ^ 53) ∧ (accumulated R d l).Small := by
  induction l with
  | nil =>
    intro d x k hd hx _ _ _
    simpa [accumulated] using And.intro hx hd
  | cons h t ih =>
    intro d x k hd hx hk hl hp
    have hp0 := hp 0
    simp only [List.take_zero, List.sum_nil, add_zero] at hp0
    obtain ⟨dh, bh⟩ := hl h (by simp)
    have hV : 0 ≤ V := (abs_nonneg _).trans hp0.2
    have hk' : (k : ℝ) ≤ 2 ^ 52 := by
      have : k ≤ 2 ^ 52 := by omega
      exact_mod_cast this
    have hB : 0 ≤ (H + V / 2 ^ 52) / 2 ^ 53 := by positivity
    have hK : |d.exact - x| ≤ (H + V / 2 ^ 52) / 2 := by
      refine hx.trans ((mul_le_mul_of_nonneg_right hk' hB).trans (le_of_eq ?_))
      ring
    have t1 : |d.exact| ≤ |d.exact - x| + |x| := by
      have := abs_add_le (d.exact - x) x
      rwa [sub_add_cancel] at this
    have t2 : |x| ≤ |d.exact - x| + |d.exact| := by
      have := abs_sub d.exact (d.exact - x)
      rw [sub_sub_cancel] at this
      linarith
    have t3 : |d.value| ≤ |d.exact| + |d.error| := by
      have := abs_sub d.exact d.error
      simpa only [exact, add_sub_cancel_right] using this
    have t4 : |d.exact| ≤ |d.value| + |d.error| := abs_add_le _ _
    have t5 := abs_add_le d.error h
    have r := (near_rel (hd.2.1.grid.add dh.grid) (R.nearest (d.error + h))).1
    have t6 : |R.round (d.error + h)| ≤ |d.error + h| + |d.error + h - R.round (d.error + h)| := by
      have := abs_sub (d.error + h) (d.error + h - R.round (d.error + h))
      rwa [sub_sub_cancel] at this
    have hs := hd.2.2
    have pv := abs_nonneg d.value
    have b1 : |R.round (d.error + h)| ≤ |d.value| := by
      generalize |d.error + h - R.round (d.error + h)| = a1 at *
      generalize |R.round (d.error + h)| = a2 at *
      generalize |d.error + h| = a3 at *
      generalize |d.exact - x| = a4 at *
      generalize |d.exact| = a5 at *
      generalize |d.error| = a6 at *
      generalize |d.value| = a7 at *
      generalize |x| = a8 at *
      clear hp ih hk hk' hx hB
      norm_num at *
      linarith
    obtain ⟨e, n⟩ := C79_increment R hd dh b1
    have b2 : |d.error + h| / 2 ^ 53 ≤ (H + V / 2 ^ 52) / 2 ^ 53 := by
      refine div_le_div_of_nonneg_right ?_ (by positivity)
      generalize |d.error + h - R.round (d.error + h)| = a1 at *
      generalize |R.round (d.error + h)| = a2 at *
      generalize |d.error + h| = a3 at *
      generalize |d.exact - x| = a4 at *
      generalize |d.exact| = a5 at *
      generalize |d.error| = a6 at *
      generalize |d.value| = a7 at *
      generalize |x| = a8 at *
      clear hp ih hk hk' hx hB
      norm_num at *
      linarith
    have b3 : |(increment R d h).exact - (x + h)| ≤ ((k + 1 : ℕ) : ℝ) * ((H + V / 2 ^ 52) / 2 ^ 53) := by
      have := abs_add_le ((increment R d h).exact - (d.exact + h)) (d.exact - x)
      rw [show (increment R d h).exact - (d.exact + h) + (d.exact - x) = (increment R d h).exact - (x + h) by ring] at this
      push_cast
      rw [add_mul, one_mul]
      linarith
    obtain ⟨f1, f2⟩ := ih (increment R d h) (x + h) (k + 1) (C79_normal R n) b3 (by simp only [List.length_cons] at hk; omega)
      (fun h' hm => hl h' (by simp [hm])) (fun j => by
        have := hp (j + 1)
        simpa only [List.take_succ_cons, List.sum_cons, add_assoc] using this)
    refine ⟨?_, f2⟩
    have f3 : accumulated R d (h :: t) = accumulated R (increment R d h) t := rfl
    rw [f3, List.sum_cons, ← add_assoc, List.length_cons, show k + (t.length + 1) = k + 1 + t.length by ring]
    exact f1

/-- **C79**: the error of a long sequence of increments is proportional to the size of the increments, not to the size of the sum: if the increments are at most `H` and the partial sums are between
`L` and `V`, the error is at most that of the rounding of the increments and of the errors. -/
theorem C79_accumulate {H L V : ℝ} (hHL : 4 * H ≤ L) (hLV : V ≤ 2 ^ 50 * L) (h0 : 0 ≤ H) {d : DoublePrecision} (hd : d.Small) (l : List ℝ) (hn : l.length ≤ 2 ^ 52)
    (hl : ∀ h ∈ l, IsDouble h ∧ |h| ≤ H) (hp : ∀ j, L ≤ |d.exact + (l.take j).sum| ∧ |d.exact + (l.take j).sum| ≤ V) :
    |(accumulated R d l).exact - (d.exact + l.sum)| ≤ l.length * (1 / 2 ^ 53 * (H + 2 * (1 / 2 ^ 53) * V)) := by
  have := (accumulate_aux R hHL hLV h0 l d d.exact 0 hd (by simp) (by omega) hl hp).1
  refine this.trans (le_of_eq ?_)
  rw [zero_add]
  ring

/-- **C79**: the comparison of numbers in double precision. -/
theorem C79_compare {a b : DoublePrecision} (ha : a.Normal R) (hb : b.Normal R) : (lt a b ↔ a.exact < b.exact) ∧ (a = b ↔ a.exact = b.exact) := by
  have mono : ∀ {a b : DoublePrecision}, a.Normal R → b.Normal R → a.exact ≤ b.exact → a.value ≤ b.value := by
    intro a b ha hb h
    rw [ha.2.2, hb.2.2]
    rcases h.lt_or_eq with h | h
    · exact near_mono (R.nearest _) (R.nearest _) h
    · rw [h]
  constructor
  · constructor
    · rintro (h | ⟨h1, h2⟩)
      · by_contra h'
        push Not at h'
        exact absurd (mono hb ha h') (not_le.2 h)
      · simp only [exact]
        linarith
    · intro h
      rcases (mono ha hb h.le).lt_or_eq with h1 | h1
      · exact Or.inl h1
      · refine Or.inr ⟨h1, ?_⟩
        simp only [exact] at h
        linarith
  · constructor
    · intro h
      rw [h]
    · intro h
      have h1 := le_antisymm (mono ha hb h.le) (mono hb ha h.ge)
      simp only [exact] at h
      ext
      · exact h1
      · linarith

/-- Multiplying by a power of two is exact. -/
theorem double_scale {v : ℝ} {k : ℤ} (hv : IsDouble v) (h : v = 0 ∨ (2 : ℝ) ^ (-1022 : ℤ) ≤ |v| * 2 ^ k) : IsDouble (v * 2 ^ k) := by
  rcases h with h | h
  · rw [h, zero_mul]
    exact isDouble_zero
  · obtain ⟨f, hf, ⟨n, g⟩, l, -⟩ := double_normal hv
    refine double_of_grid (e := f + k) ⟨n, by rw [g, two_add]; ring⟩ ?_ ?_
    · by_contra h'
      push Not at h'
      have h1 : |v| * 2 ^ k < 2 ^ (53 + f) * 2 ^ k := mul_lt_mul_of_pos_right l (two_pos k)
      rw [← two_add] at h1
      exact absurd (h.trans_lt h1) (not_lt.2 (two_le (by omega)))
    · rw [abs_mul, abs_of_pos (two_pos k), ← add_assoc, two_add]
      exact (mul_lt_mul_of_pos_right l (two_pos k)).le

/-- **C79**: `Scale` by a power of two is exact if nothing underflows. -/
theorem C79_scale {d : DoublePrecision} (hd : d.Small) (k : ℤ) {s : ℝ} (hs : |s| = (2 : ℝ) ^ k) (hv : d.value = 0 ∨ (2 : ℝ) ^ (-1022 : ℤ) ≤ |d.value| * 2 ^ k)
    (he : d.error = 0 ∨ (2 : ℝ) ^ (-1022 : ℤ) ≤ |d.error| * 2 ^ k) : (scale R s d).exact = s * d.exact ∧ (scale R s d).Small := by
  have key : ∀ {v : ℝ}, IsDouble v → (v = 0 ∨ (2 : ℝ) ^ (-1022 : ℤ) ≤ |v| * 2 ^ k) → IsDouble (v * s) := by
    intro v h1 h2
    have h3 := double_scale h1 h2
    rcases abs_choice s with h | h
    · rw [← h, hs]
      exact h3
    · have : v * s = -(v * 2 ^ k) := by rw [← hs, h]; ring
      rw [this]
      exact h3.neg
  have e1 := round_exact R (key hd.1 hv)
  have e2 := round_exact R (key hd.2.1 he)
  refine ⟨?_, ?_⟩
  · simp only [scale, Rounding.mul, exact, e1, e2]
    ring
  · simp only [Small, scale, Rounding.mul, e1, e2]
    refine ⟨key hd.1 hv, key hd.2.1 he, ?_⟩
    rw [abs_mul, abs_mul, mul_div_right_comm]
    exact mul_le_mul_of_nonneg_right hd.2.2 (abs_nonneg s)

/-- **C79**: `Trunc` yields the integer part if the value is an integer or if there is no error. -/
theorem C79_trunc {d : DoublePrecision} (hd : d.Small) (h : (∃ n : ℤ, d.value = n) ∨ d.error = 0) : (trunc d).exact = truncated d.exact := by
  have hs := hd.2.2
  by_cases hp : 0 < d.value
  · have hx : 0 ≤ d.exact := by
      have := neg_abs_le d.error
      rw [abs_of_pos hp] at hs
      simp only [exact]
      norm_num at hs
      linarith
    simp only [trunc, if_pos hp, truncated, if_pos hx]
    simp only [exact]
    rcases h with ⟨n, h⟩ | h
    · rw [h, Int.floor_intCast, Int.floor_intCast_add]
      push_cast
      ring
    · rw [h]
      simp
  · push Not at hp
    have hx : d.exact ≤ 0 := by
      have := le_abs_self d.error
      rw [abs_of_nonpos hp] at hs
      simp only [exact]
      norm_num at hs
      linarith
    have ht : truncated d.exact = ⌈d.exact⌉ := by
      unfold truncated
      by_cases h0 : 0 ≤ d.exact
      · rw [if_pos h0, le_antisymm hx h0]
        simp
      · rw [if_neg h0]
    simp only [trunc, if_neg (not_lt.2 hp), ht]
    simp only [exact]
    rcases h with ⟨n, h⟩ | h
    · rw [h, Int.ceil_intCast, Int.ceil_intCast_add]
      push_cast
      ring
    · rw [h]
      simp

/-- Five halves, minus a little. -/
noncomputable def fiveHalves : DoublePrecision := ⟨5 / 2, -(2 : ℝ) ^ (-60 : ℤ)⟩

theorem isDouble_int_two (m e : ℤ) (hm : |m| < 2 ^ 53) (he : -1074 ≤ e) : IsDouble (m * (2 : ℝ) ^ e) := ⟨m, e, hm, he, rfl⟩

theorem fiveHalves_small : fiveHalves.Small := by
  refine ⟨?_, ?_, ?_⟩
  · have := isDouble_int_two 5 (-1) (by norm_num) (by norm_num)
    norm_num at this
    simpa [fiveHalves, div_eq_mul_inv] using this
  · exact (isDouble_two (by norm_num)).neg
  · simp only [fiveHalves, abs_neg]
    norm_num [abs_of_pos, zpow_neg]

/-- **C79**: but in general `Trunc` is not the integer part: 2.5 minus a little is truncated to 1. -/
theorem C79_trunc_counterexample : fiveHalves.Small ∧ truncated fiveHalves.exact = 2 ∧ (trunc fiveHalves).exact = 1 := by
  refine ⟨fiveHalves_small, ?_, ?_⟩
  · have h : fiveHalves.exact = 5 / 2 - 1 / 2 ^ 60 := by
      simp only [fiveHalves, exact, zpow_neg]
      norm_num
    unfold truncated
    rw [h, if_pos (by norm_num), Int.floor_eq_iff]
    norm_num
  · have h1 : ⌊(5 / 2 : ℝ)⌋ = 2 := by rw [Int.floor_eq_iff]; norm_num
    have h2 : ⌊-(2 : ℝ) ^ (-60 : ℤ)⌋ = -1 := by
      rw [Int.floor_eq_iff, zpow_neg]
      norm_num
    have h0 : 0 < fiveHalves.value := by simp only [fiveHalves]; norm_num
    simp only [trunc]
    rw [if_pos h0]
    simp only [exact, fiveHalves, h1, h2]
    norm_num

theorem isDouble_three : IsDouble 3 := by
  have := isDouble_int_two 3 0 (by norm_num) (by norm_num)
  simpa using this

theorem noUnderflow_example : NoUnderflow 3 fiveHalves.value := by
  refine ⟨?_, ?_, ?_⟩
  all_goals
    try simp only [fiveHalves]
    refine (two_le (f := 0) (by norm_num)).trans ?_
    norm_num [abs_of_pos]

/-! The hypotheses of the theorems are met: there are roundings to nearest, and the operations apply to numbers whose error is not zero. -/

example : Nonempty Rounding := exists_rounding

example : (addLeft R 3 fiveHalves).Represents R 4 (3 + fiveHalves.exact) := (C79_add_scalar R isDouble_three fiveHalves_small).1.2

example : (subRight R fiveHalves 3).Represents R 4 (fiveHalves.exact - 3) := (C79_sub_scalar R isDouble_three fiveHalves_small).2.2

example : (add R fiveHalves fiveHalves).Represents R 6 (fiveHalves.exact + fiveHalves.exact) := (C79_add R fiveHalves_small fiveHalves_small).2

example : (sub R fiveHalves (add R fiveHalves fiveHalves)).Represents R 6 (fiveHalves.exact - (add R fiveHalves fiveHalves).exact) :=
  (C79_sub R fiveHalves_small (C79_normal R (C79_add R fiveHalves_small fiveHalves_small).2.2)).2

example (fma : Bool) : (mulLeft R fma 3 fiveHalves).Represents R 5 (3 * fiveHalves.exact) := (C79_mul_scalar R fma isDouble_three fiveHalves_small noUnderflow_example).1.2

example (fma : Bool) : (mul R fma ⟨3, 0⟩ fiveHalves).Represents R 11 ((3 + 0) * fiveHalves.exact) :=
  (C79_mul R fma (a := ⟨3, 0⟩) ⟨isDouble_three, isDouble_zero, by norm_num⟩ fiveHalves_small noUnderflow_example).2

example (fma : Bool) : IsExact R (twoProduct R fma 3 fiveHalves.value) (3 * fiveHalves.value) := C79_two_product R fma isDouble_three fiveHalves_small.1 noUnderflow_example

example : IsExact R (quickTwoSum R 3 fiveHalves.error) (3 + fiveHalves.error) := by
  refine C79_quick_two_sum R isDouble_three fiveHalves_small.2.1 (Or.inr ?_)
  refine fiveHalves_small.2.2.trans ?_
  simp only [fiveHalves]
  norm_num [abs_of_pos]

example : lt (add R fiveHalves fiveHalves) (add R fiveHalves fiveHalves) ↔ (add R fiveHalves fiveHalves).exact < (add R fiveHalves fiveHalves).exact :=
  (C79_compare R (C79_add R fiveHalves_small fiveHalves_small).2.2 (C79_add R fiveHalves_small fiveHalves_small).2.2).1

example : (scale R (-8) fiveHalves).exact = -8 * fiveHalves.exact := by
  refine (C79_scale R fiveHalves_small 3 (by norm_num) (Or.inr ?_) (Or.inr ?_)).1
  · refine (two_le (f := 0) (by norm_num)).trans ?_
    simp only [fiveHalves]
    norm_num [abs_of_pos]
  · simp only [fiveHalves, abs_neg]
    rw [abs_of_pos (two_pos _), ← two_add]
    exact two_le (by norm_num)

example : (trunc ⟨3, 0⟩).exact = truncated (3 + 0) := C79_trunc (d := ⟨3, 0⟩) ⟨isDouble_three, isDouble_zero, by norm_num⟩ (Or.inr rfl)

/-- A thousand, incremented by one, by a half and by two. -/
example : |(accumulated R ⟨1000, 0⟩ [1, 1 / 2, 2]).exact - (1000 + 0 + [1, 1 / 2, 2].sum)| ≤ 3 * (1 / 2 ^ 53 * (2 + 2 * (1 / 2 ^ 53) * 1004)) := by
  have d1 : IsDouble 1 := by simpa using isDouble_int_two 1 0 (by norm_num) (by norm_num)
  have d2 : IsDouble 2 := by simpa using isDouble_int_two 2 0 (by norm_num) (by norm_num)
  have d3 : IsDouble (1 / 2) := by
    have := isDouble_int_two 1 (-1) (by norm_num) (by norm_num)
    norm_num at this ⊢
    exact this
  have d4 : IsDouble 1000 := by simpa using isDouble_int_two 1000 0 (by norm_num) (by norm_num)
  have := C79_accumulate R (H := 2) (L := 1000) (V := 1004) (by norm_num) (by norm_num) (by norm_num) (d := ⟨1000, 0⟩) ⟨d4, isDouble_zero, by norm_num⟩ [1, 1 / 2, 2]
    (by norm_num) (by
      intro h hm
      simp only [List.mem_cons, List.not_mem_nil, or_false] at hm
      rcases hm with rfl | rfl | rfl
      · exact ⟨d1, by norm_num⟩
      · exact ⟨d3, by rw [abs_of_pos] <;> norm_num⟩
      · exact ⟨d2, by norm_num⟩) (by
      intro j
      rcases j with _ | _ | _ | j
      · simp only [exact, List.take_zero, List.sum_nil]; rw [abs_of_pos] <;> norm_num
      · simp only [exact, List.take_succ_cons, List.take_zero, List.sum_cons, List.sum_nil]; rw [abs_of_pos] <;> norm_num
      · simp only [exact, List.take_succ_cons, List.take_zero, List.sum_cons, List.sum_nil]; rw [abs_of_pos] <;> norm_num
      · simp only [exact, List.take_succ_cons, List.take_nil, List.sum_cons, List.sum_nil]; rw [abs_of_pos] <;> norm_num)
  refine this.trans (le_of_eq ?_)
  norm_num

end DoublePrecision

end Principia.Numerics.DoublePrecisions
