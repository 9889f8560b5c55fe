import Verif.Astronomy.GroundTrackModel
import Verif.Numerics.AngleReductionProps
import Mathlib.Tactic.Linarith
import Mathlib.Tactic.Ring
import Mathlib.Tactic.FieldSimp
import Mathlib.Tactic.Positivity
import Mathlib.Tactic.LinearCombination

/-!
C89: the ground track of an orbit.
-/

set_option linter.unusedSimpArgs false
set_option linter.unusedVariables false

namespace Principia.GroundTrack

open Real Principia.Numerics.AngleReduction

/-- The numbers in an interval. -/
def Interval.Contains (I : Interval) (x : EReal) : Prop := I.min ≤ x ∧ x ≤ I.max

/-- C89.  The intersection of two intervals has the numbers that are in both.  Including a number yields the smallest interval that contains the number and the given interval.  The default interval has no number. -/
theorem C89_interval (I J : Interval) (x y : EReal) :
    ((intersection I J).Contains y ↔ I.Contains y ∧ J.Contains y) ∧
    (I.include x).Contains x ∧ (I.Contains y → (I.include x).Contains y) ∧
    (∀ K : Interval, K.Contains x → K.min ≤ I.min → I.max ≤ K.max → K.min ≤ (I.include x).min ∧ (I.include x).max ≤ K.max) ∧
    ¬ ({} : Interval).Contains y := by
  refine ⟨?_, ?_, ?_, ?_, ?_⟩
  · simp only [Interval.Contains, intersection, max_le_iff, le_min_iff]; tauto
  · exact ⟨min_le_right _ _, le_max_right _ _⟩
  · exact fun h => ⟨(min_le_left _ _).trans h.1, h.2.trans (le_max_left _ _)⟩
  · exact fun K h1 h2 h3 => ⟨le_min h2 h1.1, max_le h3 h1.2⟩
  · intro h
    have := h.1.trans h.2
    simp at this

/-- C89.  The measure of an interval is the distance of its bounds, and is zero if the interval has at most one number. -/
theorem C89_measure (a b : ℝ) : Interval.measure ⟨a, b⟩ = ((max (b - a) 0 : ℝ) : EReal) ∧ (Interval.Empty ⟨a, b⟩ ↔ Interval.measure ⟨a, b⟩ = 0) := by
  have e : Interval.measure ⟨a, b⟩ = ((max (b - a) 0 : ℝ) : EReal) := by
    rw [Interval.measure]
    by_cases h : a ≤ b
    · rw [if_pos (by simp only [ge_iff_le, EReal.coe_le_coe_iff]; exact h), max_eq_left (by linarith)]; rfl
    · rw [if_neg (by simp only [ge_iff_le, EReal.coe_le_coe_iff]; exact h), max_eq_right (by linarith)]; rfl
  refine ⟨e, ?_⟩
  rw [e, Interval.Empty]
  simp only [EReal.coe_le_coe_iff]
  constructor
  · intro h; rw [max_eq_right (by linarith)]; rfl
  · intro h
    have h' : max (b - a) 0 = 0 := by exact_mod_cast h
    have := le_max_left (b - a) 0
    linarith

theorem nearbyint_spec (x : ℝ) : |x - nearbyint x| ≤ 1 / 2 := by
  rw [nearbyint]
  split
  · rename_i h
    have := Int.self_sub_floor x
    rw [this, h.1]
    rw [abs_of_pos] <;> norm_num
  · exact abs_sub_round x

/-- C89.  An unwound angle is the given one up to a whole number of turns, and is within half a turn of the previous angle. -/
theorem C89_unwind (previous α : ℝ) : (∃ k : ℤ, unwindFrom previous α = α + k * (2 * π)) ∧ |unwindFrom previous α - previous| ≤ π := by
  refine ⟨⟨_, rfl⟩, ?_⟩
  have hπ := pi_pos
  have h := nearbyint_spec ((previous - α) / (2 * π))
  have e : unwindFrom previous α - previous = -(((previous - α) / (2 * π) - nearbyint ((previous - α) / (2 * π))) * (2 * π)) := by
    rw [unwindFrom]; field_simp; ring
  rw [e, abs_neg, abs_mul, abs_of_pos (show 0 < 2 * π by linarith)]
  calc _ ≤ 1 / 2 * (2 * π) := by gcongr
    _ = π := by ring

/-- The angles are congruent, and successive ones are within half a turn. -/
inductive Unwound : ℝ → List ℝ → List ℝ → Prop
  | nil (previous : ℝ) : Unwound previous [] []
  | cons (previous α β : ℝ) (αs βs : List ℝ) (k : ℤ) (hk : β = α + k * (2 * π)) (hβ : |β - previous| ≤ π) (h : Unwound β αs βs) : Unwound previous (α :: αs) (β :: βs)

/-- The interval is the smallest one that contains the given numbers. -/
def Spans (I : Interval) (βs : List ℝ) : Prop := (∃ a ∈ βs, I.min = (a : EReal) ∧ ∀ b ∈ βs, a ≤ b) ∧ ∃ a ∈ βs, I.max = (a : EReal) ∧ ∀ b ∈ βs, b ≤ a

theorem spans_include (I : Interval) (γs : List ℝ) (β : ℝ) (h : Spans I γs) : Spans (I.include β) (γs ++ [β]) := by
  obtain ⟨⟨a, ha, e, hm⟩, ⟨b, hb, f, hM⟩⟩ := h
  constructor
  · by_cases hab : a ≤ β
    · refine ⟨a, by simp [ha], ?_, ?_⟩
      · rw [Interval.include, e]; exact min_eq_left (by exact_mod_cast hab)
      · intro c hc
        rcases List.mem_append.1 hc with hc | hc
        · exact hm c hc
        · rw [List.mem_singleton.1 hc]; exact hab
    · refine ⟨β, by simp, ?_, ?_⟩
      · rw [Interval.include, e]; exact min_eq_right (by exact_mod_cast (not_le.1 hab).le)
      · intro c hc
        rcases List.mem_append.1 hc with hc | hc
        · exact (not_le.1 hab).le.trans (hm c hc)
        · rw [List.mem_singleton.1 hc]
  · by_cases hab : β ≤ b
    · refine ⟨b, by simp [hb], ?_, ?_⟩
      · rw [Interval.include, f]; exact max_eq_left (by exact_mod_cast hab)
      · intro c hc
        rcases List.mem_append.1 hc with hc | hc
        · exact hM c hc
        · rw [List.mem_singleton.1 hc]; exact hab
    · refine ⟨β, by simp, ?_, ?_⟩
      · rw [Interval.include, f]; exact max_eq_right (by exact_mod_cast (not_le.1 hab).le)
      · intro c hc
        rcases List.mem_append.1 hc with hc | hc
        · exact (hM c hc).trans (not_le.1 hab).le
        · rw [List.mem_singleton.1 hc]

theorem loop_some (quadrant : ℝ → ℤ) (αs : List ℝ) (previous : ℝ) (I : Interval) (γs : List ℝ) (h : Spans I γs) :
    ∃ βs, Unwound previous αs βs ∧ Spans (unwindLoop quadrant (some previous) I αs) (γs ++ βs) := by
  induction αs generalizing previous I γs with
  | nil => exact ⟨[], Unwound.nil _, by rw [unwindLoop, List.append_nil]; exact h⟩
  | cons α αs ih =>
    obtain ⟨⟨k, hk⟩, hβ⟩ := C89_unwind previous α
    obtain ⟨βs, hu, hs⟩ := ih (unwindFrom previous α) (I.include (unwindFrom previous α : ℝ)) (γs ++ [unwindFrom previous α]) (spans_include I γs _ h)
    refine ⟨unwindFrom previous α :: βs, Unwound.cons _ _ _ _ _ k hk hβ hu, ?_⟩
    rw [unwindLoop]
    rw [List.append_assoc] at hs
    exact hs

theorem loop_none (quadrant : ℝ → ℤ) (hq : ∀ θ, Near (quadrant θ) θ) (α : ℝ) (αs : List ℝ) :
    ∃ β βs, (∃ k : ℤ, β = α + k * (2 * π)) ∧ 0 ≤ β ∧ β ≤ 2 * π ∧ Unwound β αs βs ∧ Spans (unwindLoop quadrant none {} (α :: αs)) (β :: βs) := by
  obtain ⟨h1, h2, h3⟩ := C86_positive (quadrant α) α (hq α)
  have h0 : Spans (({} : Interval).include (reducePositive (quadrant α) α : ℝ)) [reducePositive (quadrant α) α] := by
    constructor
    · exact ⟨_, List.mem_singleton.2 rfl, by rw [Interval.include]; exact min_eq_right le_top, fun b hb => by rw [List.mem_singleton.1 hb]⟩
    · exact ⟨_, List.mem_singleton.2 rfl, by rw [Interval.include]; exact max_eq_right bot_le, fun b hb => by rw [List.mem_singleton.1 hb]⟩
  obtain ⟨βs, hu, hs⟩ := loop_some quadrant αs (reducePositive (quadrant α) α) _ _ h0
  refine ⟨reducePositive (quadrant α) α, βs, ⟨-(reducePositiveParts (quadrant α) α).2, ?_⟩, h1, h2, hu, ?_⟩
  · push_cast
    have e : (reducePositiveParts (quadrant α) α).1 = reducePositive (quadrant α) α := rfl
    rw [e] at h3
    linear_combination -h3
  · rw [unwindLoop]; exact hs

/-- C89.  The mean solar times of the nodes are spanned by the interval, after having been unwound from one in [0, 2π]: each is the hour angle of the mean sun at the node, plus half a turn. -/
theorem C89_mean_solar_times (quadrant : ℝ → ℤ) (hq : ∀ θ, Near (quadrant θ) θ) (epoch l year : ℝ) (hy : year ≠ 0) (node : ℝ × ℝ) (nodes : List (ℝ × ℝ)) :
    ∃ β βs, (∃ k : ℤ, β = node.2 - (l + 2 * π * ((node.1 - epoch) / year)) + π + k * (2 * π)) ∧ 0 ≤ β ∧ β ≤ 2 * π ∧
      Unwound β (nodes.map fun n => n.2 - (l + 2 * π * ((n.1 - epoch) / year)) + π) βs ∧ Spans (meanSolarTimesOfNodes quadrant epoch l year (node :: nodes)) (β :: βs) := by
  have e : ∀ n : ℝ × ℝ, meanSolarTime epoch l year n = n.2 - (l + 2 * π * ((n.1 - epoch) / year)) + π := by
    intro n; rw [meanSolarTime]; ring
  rw [meanSolarTimesOfNodes, List.map_cons, funext e]
  exact loop_none quadrant hq _ _

/-- C89.  The longitudes of the equator crossings, from which the offset and the shift of each pass were subtracted, are spanned by the interval, after having been unwound from one in [0, 2π]. -/
theorem C89_reduced_longitudes (quadrant : ℝ → ℤ) (hq : ∀ θ, Near (quadrant θ) θ) (l : ℝ) (ls : List ℝ) (shift offset : ℝ) :
    ∃ β βs, (∃ k : ℤ, β = l - offset + k * (2 * π)) ∧ 0 ≤ β ∧ β ≤ 2 * π ∧
      Unwound β (ls.mapIdx fun n l => l - offset - (n + 1) * shift) βs ∧ Spans (reducedLongitudes quadrant (l :: ls) shift offset) (β :: βs) := by
  rw [reducedLongitudes, List.mapIdx_cons]
  obtain ⟨β, βs, hk, h1, h2, h3, h4⟩ := loop_none quadrant hq (l - offset - ((0 : ℕ) : ℝ) * shift) (ls.mapIdx fun n l => l - offset - ((n + 1 : ℕ) : ℝ) * shift)
  refine ⟨β, βs, ?_, h1, h2, ?_, h4⟩
  · obtain ⟨k, hk⟩ := hk
    exact ⟨k, by rw [hk]; push_cast; ring⟩
  · push_cast at h3; exact h3

/-- C89.  Reducing to a pass shifts the interval, without changing its length, by the equatorial shifts of the pass and a whole number of turns, so that its middle is in [0, 2π[. -/
theorem C89_pass (e : EquatorCrossingLongitudes) (pass : ℕ) (hp : 1 ≤ pass) (a b : ℝ) (hI : (if pass % 2 = 1 then e.ascending else e.descending) = ⟨a, b⟩) :
    ∃ k : ℤ, e.reducedToPass pass = (a + ((pass - 1) / 2 : ℕ) * e.shift + k * (2 * π), b + ((pass - 1) / 2 : ℕ) * e.shift + k * (2 * π)) ∧
      0 ≤ ((e.reducedToPass pass).1 + (e.reducedToPass pass).2) / 2 ∧ ((e.reducedToPass pass).1 + (e.reducedToPass pass).2) / 2 < 2 * π := by
  have hπ := pi_pos
  have hI' : (if (pass : ℤ).tmod 2 = 1 then e.ascending else e.descending) = ⟨a, b⟩ := by
    have e1 : ((pass : ℤ).tmod 2 = 1) = (pass % 2 = 1) := by
      rw [Int.tmod_eq_emod_of_nonneg (by omega)]; apply propext; omega
    simp only [e1]; exact hI
  have hs : (if (pass : ℤ).tmod 2 = 1 then (((pass : ℤ) - 1).tdiv 2 : ℤ) * e.shift else (((pass : ℤ) - 2).tdiv 2 : ℤ) * e.shift) = (((pass - 1) / 2 : ℕ) : ℝ) * e.shift := by
    rw [Int.tmod_eq_emod_of_nonneg (by omega)]
    split
    · rw [Int.tdiv_eq_ediv_of_nonneg (by omega), show ((pass : ℤ) - 1) / 2 = ((pass - 1) / 2 : ℕ) by omega, Int.cast_natCast]
    · rw [Int.tdiv_eq_ediv_of_nonneg (by omega), show ((pass : ℤ) - 2) / 2 = ((pass - 1) / 2 : ℕ) by omega, Int.cast_natCast]
  have er : e.reducedToPass pass = (a + ((pass - 1) / 2 : ℕ) * e.shift + -(⌊(a + (b - a) / 2 + ((pass - 1) / 2 : ℕ) * e.shift) / (2 * π)⌋ : ℝ) * (2 * π),
      b + ((pass - 1) / 2 : ℕ) * e.shift + -(⌊(a + (b - a) / 2 + ((pass - 1) / 2 : ℕ) * e.shift) / (2 * π)⌋ : ℝ) * (2 * π)) := by
    rw [EquatorCrossingLongitudes.reducedToPass, hs]
    simp only [hI', EReal.toReal_coe]
  set x := a + (b - a) / 2 + ((pass - 1) / 2 : ℕ) * e.shift with hx
  refine ⟨-⌊x / (2 * π)⌋, by rw [er]; push_cast; rfl, ?_, ?_⟩
  · have h1 := Int.floor_le (x / (2 * π))
    rw [le_div_iff₀ (by linarith)] at h1
    rw [er]; simp only; linarith
  · have h1 := Int.lt_floor_add_one (x / (2 * π))
    rw [div_lt_iff₀ (by linarith)] at h1
    rw [er]; simp only; linarith

example : (if 3 % 2 = 1 then ({ shift := -2, ascending := ⟨((1 : ℝ) : EReal), ((2 : ℝ) : EReal)⟩ } : EquatorCrossingLongitudes).ascending else {}) = ⟨((1 : ℝ) : EReal), ((2 : ℝ) : EReal)⟩ := by
  rw [if_pos (by norm_num)]

theorem nearbyint_int (k : ℤ) : nearbyint (k : ℝ) = k := by
  rw [nearbyint, if_neg (by simp), round_intCast]

theorem loop_constant (quadrant : ℝ → ℤ) (β : ℝ) (αs : List ℝ) (h : ∀ α ∈ αs, ∃ k : ℤ, α = β + k * (2 * π)) : unwindLoop quadrant (some β) ⟨(β : EReal), (β : EReal)⟩ αs = ⟨(β : EReal), (β : EReal)⟩ := by
  have hπ := pi_pos
  induction αs with
  | nil => rw [unwindLoop]
  | cons α αs ih =>
    obtain ⟨k, hk⟩ := h α (by simp)
    have e : unwindFrom β α = β := by
      have : (β - α) / (2 * π) = ((-k : ℤ) : ℝ) := by rw [hk]; push_cast; field_simp; ring
      rw [unwindFrom, this, nearbyint_int, hk]; push_cast; ring
    rw [unwindLoop, e, Interval.include]
    simp only [min_self, max_self]
    exact ih fun α hα => h α (by simp [hα])

theorem reduced_constant (quadrant : ℝ → ℤ) (hq : ∀ θ, Near (quadrant θ) θ) (l : ℝ) (ls : List ℝ) (shift offset : ℝ)
    (hnominal : ∀ n : ℕ, (h : n < ls.length) → ∃ k : ℤ, ls[n] = l + (n + 1) * shift + k * (2 * π)) :
    ∃ β, (∃ k : ℤ, β = l - offset + k * (2 * π)) ∧ reducedLongitudes quadrant (l :: ls) shift offset = ⟨(β : EReal), (β : EReal)⟩ := by
  obtain ⟨α, hα⟩ : ∃ α, α = l - offset - ((0 : ℕ) : ℝ) * shift := ⟨_, rfl⟩
  have hα' : α = l - offset := by rw [hα]; push_cast; ring
  obtain ⟨h1, h2, h3⟩ := C86_positive (quadrant α) α (hq _)
  have e : (reducePositiveParts (quadrant α) α).1 = reducePositive (quadrant α) α := rfl
  rw [e] at h3
  refine ⟨reducePositive (quadrant α) α, ⟨-(reducePositiveParts (quadrant α) α).2, ?_⟩, ?_⟩
  · push_cast
    linear_combination hα' - h3
  · rw [reducedLongitudes, List.mapIdx_cons, ← hα, unwindLoop, Interval.include]
    simp only [min_eq_right (le_top : _ ≤ (⊤ : EReal)), max_eq_right (bot_le : (⊥ : EReal) ≤ _)]
    apply loop_constant
    intro γ hγ
    obtain ⟨n, hn, rfl⟩ := List.mem_mapIdx.1 hγ
    obtain ⟨k, hk⟩ := hnominal n hn
    refine ⟨k + (reducePositiveParts (quadrant α) α).2, ?_⟩
    rw [hk]
    push_cast
    linear_combination h3 - hα'

/-- C89.  If the orbit follows the nominal recurrence exactly, that is, if each ascending pass is shifted by the equatorial shift from the previous one up to a whole number of turns, then the ascending longitudes reduced to the first ascending pass
are a single one, which is in the first interval of the grid, and differs from the longitude of the first crossing by a whole number of grid intervals. -/
theorem C89_nominal (quadrant : ℝ → ℤ) (hq : ∀ θ, Near (quadrant θ) θ) (l : ℝ) (ls descending : List ℝ) (descendingFirst : Bool) (shift δ : ℝ) (hδ : 0 < δ) (revolutions : ℕ) (hr : revolutions * δ = 2 * π)
    (hnominal : ∀ n : ℕ, (h : n < ls.length) → ∃ k : ℤ, ls[n] = l + (n + 1) * shift + k * (2 * π)) (pass : ℕ) (hp : pass % 2 = 1) :
    ∃ x, (equatorCrossingLongitudes quadrant (l :: ls) descending descendingFirst shift δ pass).reducedToPass pass = (x, x) ∧ 0 ≤ x ∧ x < δ ∧ ∃ k : ℤ, x = l + k * δ := by
  have hπ := pi_pos
  have hrev : (1 : ℝ) ≤ revolutions := by
    have : revolutions ≠ 0 := by
      rintro rfl
      rw [Nat.cast_zero, zero_mul] at hr
      linarith
    exact_mod_cast Nat.one_le_iff_ne_zero.2 this
  set offset : ℝ := ⌊l / δ⌋ * δ + (((pass : ℤ) - 1).tdiv 2 : ℤ) * shift with hoff
  set E := equatorCrossingLongitudes quadrant (l :: ls) descending descendingFirst shift δ pass with hE
  have hasc : E.ascending = reducedLongitudes quadrant (l :: ls) shift offset := by rw [hE, equatorCrossingLongitudes]
  have hshift : E.shift = shift := by rw [hE, equatorCrossingLongitudes]
  have hpt : ∃ β, (∃ k : ℤ, β = l - offset + k * (2 * π)) ∧ E.ascending = ⟨(β : EReal), (β : EReal)⟩ := by
    rw [hasc]
    exact reduced_constant quadrant hq l ls shift offset hnominal
  obtain ⟨β, ⟨k, hk⟩, hpt⟩ := hpt
  obtain ⟨j, hj, hj1, hj2⟩ := C89_pass E pass (by omega) β β (by rw [if_pos hp]; exact hpt)
  rw [hj] at hj1 hj2
  simp only at hj1 hj2
  have hdiv : (((pass : ℤ) - 1).tdiv 2 : ℤ) = ((pass - 1) / 2 : ℕ) := by rw [Int.tdiv_eq_ediv_of_nonneg (by omega)]; omega
  have hx : β + ((pass - 1) / 2 : ℕ) * E.shift + j * (2 * π) = l - ⌊l / δ⌋ * δ + (k + j) * (2 * π) := by
    rw [hk, hoff, hdiv, hshift, Int.cast_natCast]; ring
  have f1 : 0 ≤ l - ⌊l / δ⌋ * δ := by
    have := Int.floor_le (l / δ)
    rw [le_div_iff₀ hδ] at this; linarith
  have f2 : l - ⌊l / δ⌋ * δ < δ := by
    have := Int.lt_floor_add_one (l / δ)
    rw [div_lt_iff₀ hδ] at this; linarith
  have f3 : δ ≤ 2 * π := by nlinarith
  rw [hx] at hj hj1 hj2
  have hz : (k + j : ℤ) = 0 := by
    have a1 : ((k + j : ℤ) : ℝ) < 1 := by
      push_cast
      by_contra h
      have : (2 * π) ≤ ((k : ℝ) + j) * (2 * π) := by nlinarith
      linarith
    have a2 : (-1 : ℝ) < ((k + j : ℤ) : ℝ) := by
      push_cast
      by_contra h
      have : ((k : ℝ) + j) * (2 * π) ≤ -(2 * π) := by nlinarith
      linarith
    have b1 : (k + j : ℤ) < 1 := by exact_mod_cast a1
    have b2 : (-1 : ℤ) < k + j := by exact_mod_cast a2
    omega
  have hz' : (k : ℝ) + j = 0 := by exact_mod_cast hz
  rw [hz', zero_mul, add_zero] at hj
  exact ⟨_, hj, f1, f2, -⌊l / δ⌋, by push_cast; ring⟩

/-- C89.  If moreover the descending passes follow the nominal recurrence, the descending longitudes reduced to the descending pass that follows the first ascending one are a single one, in [0, 2π[, namely the longitude of that pass, moved by the same number of grid intervals as the ascending longitudes.
If the first descending pass precedes the first ascending one, the longitude of that pass is the first descending longitude plus the equatorial shift. -/
theorem C89_nominal_descending (quadrant : ℝ → ℤ) (hq : ∀ θ, Near (quadrant θ) θ) (l d : ℝ) (ls ds : List ℝ) (descendingFirst : Bool) (shift δ : ℝ)
    (hnominal : ∀ n : ℕ, (h : n < ds.length) → ∃ k : ℤ, ds[n] = d + (n + 1) * shift + k * (2 * π)) (pass : ℕ) (hp : pass % 2 = 1) :
    ∃ x, (equatorCrossingLongitudes quadrant (l :: ls) (d :: ds) descendingFirst shift δ pass).reducedToPass ((pass + 1 : ℕ) : ℤ) = (x, x) ∧ 0 ≤ x ∧ x < 2 * π ∧
      ∃ k : ℤ, x = d + (if descendingFirst then shift else 0) - ⌊l / δ⌋ * δ + k * (2 * π) := by
  set E := equatorCrossingLongitudes quadrant (l :: ls) (d :: ds) descendingFirst shift δ pass with hE
  set offset : ℝ := ⌊l / δ⌋ * δ + (((pass : ℤ) - 1).tdiv 2 : ℤ) * shift with hoff
  have hdesc : E.descending = reducedLongitudes quadrant (d :: ds) shift (if descendingFirst then offset - shift else offset) := by rw [hE, equatorCrossingLongitudes]
  have hshift : E.shift = shift := by rw [hE, equatorCrossingLongitudes]
  obtain ⟨β, ⟨k, hk⟩, hpt⟩ := reduced_constant quadrant hq d ds shift (if descendingFirst then offset - shift else offset) hnominal
  rw [← hdesc] at hpt
  obtain ⟨j, hj, hj1, hj2⟩ := C89_pass E (pass + 1) (by omega) β β (by rw [if_neg (by omega)]; exact hpt)
  rw [hj] at hj1 hj2
  simp only at hj1 hj2
  refine ⟨_, hj, by linarith, by linarith, k + j, ?_⟩
  have hdiv : (((pass : ℤ) - 1).tdiv 2 : ℤ) = ((pass + 1 - 1) / 2 : ℕ) := by rw [Int.tdiv_eq_ediv_of_nonneg (by omega)]; omega
  rw [hk, hoff, hdiv, hshift, Int.cast_natCast]
  push_cast
  cases descendingFirst
  · simp only [Bool.false_eq_true, if_false]; ring
  · simp only [if_true]; ring

/-- A nominal orbit with 3 revolutions in 1 day, whose first crossing is at the longitude 1; the choice of the quadrant may be the nearest integer. -/
example : (∀ n : ℕ, (h : n < [1 - 2 * π / 3].length) → ∃ k : ℤ, [1 - 2 * π / 3][n] = 1 + (n + 1) * (-(2 * π / 3)) + k * (2 * π)) ∧ ((3 : ℕ) : ℝ) * (2 * π / 3) = 2 * π ∧ 0 < 2 * π / 3 ∧ ∃ q : ℝ → ℤ, ∀ θ, Near (q θ) θ := by
  have hπ := pi_pos
  refine ⟨?_, by push_cast; ring, by positivity, fun θ => round (θ / (π / 2)), fun θ => ?_⟩
  · intro n h
    simp only [List.length_singleton] at h
    obtain rfl : n = 0 := by omega
    exact ⟨0, by simp; ring⟩
  · have e : θ = θ / (π / 2) * (π / 2) := by field_simp
    have h := abs_sub_round (θ / (π / 2))
    rw [Near]
    have : θ - (round (θ / (π / 2)) : ℝ) * (π / 2) = (θ / (π / 2) - round (θ / (π / 2))) * (π / 2) := by field_simp
    rw [this, abs_mul, abs_of_pos (show 0 < π / 2 by positivity)]
    nlinarith

/-- C89.  If the trajectory has no descending (or no ascending) node, as is the case of an equatorial orbit, the code dereferences the end of an empty container. -/
theorem C89_no_node_counterexample : descendingFirst [] [] = none ∧ ∀ ts, descendingFirst ts [] = none := by
  refine ⟨rfl, fun ts => ?_⟩
  cases ts <;> rfl

/-- C89.  If there are nodes of both kinds, the first pass is descending if and only if the first descending node is before the first ascending node. -/
theorem C89_descending_first (a d : ℝ) (as ds : List ℝ) : ∃ P, descendingFirst (a :: as) (d :: ds) = some P ∧ (P ↔ d < a) :=
  ⟨_, rfl, by simp⟩

end Principia.GroundTrack
