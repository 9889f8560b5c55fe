import Verif.Numerics.PoissonSeriesModel
import Mathlib.MeasureTheory.Integral.IntervalIntegral.FundThmCalculus
import Mathlib.Analysis.SpecialFunctions.Trigonometric.Deriv
import Mathlib.Analysis.Calculus.Deriv.Polynomial
import Mathlib.Topology.Algebra.Polynomial
import Mathlib.Algebra.Polynomial.Eval.Degree
import Mathlib.Algebra.BigOperators.Group.List.Basic
import Mathlib.Data.List.Sort
import Mathlib.Tactic.Ring
import Mathlib.Tactic.FieldSimp
import Mathlib.Tactic.LinearCombination

/-!
C85: the Poisson series.
-/

set_option linter.unusedSimpArgs false
set_option linter.unusedVariables false

namespace Principia.Numerics.Poisson

open Polynomial

noncomputable section

/-! ## Specification -/

/-- numerics/poisson_series.hpp:153-155: the frequencies are positive, distinct and in increasing order. -/
def WellFormed (s : Series) : Prop := (∀ x ∈ s.periodic, 0 < x.ω) ∧ s.periodic.Pairwise fun x y => x.ω < y.ω

/-- The function obtained by sorting by increasing absolute value of the frequency, in an unspecified order for equal absolute values. -/
def Sorts (sort : List Term → List Term) : Prop := ∀ l, (sort l).Perm l ∧ (sort l).Pairwise fun x y => |x.ω| ≤ |y.ω|

/-- The value of p(t) + Σ (pₖ(t) sin ωₖ t + qₖ(t) cos ωₖ t), where t is the time since the origin. -/
def value (aperiodic : ℝ[X]) (periodic : List Term) (t : ℝ) : ℝ :=
  aperiodic.eval t + (periodic.map fun x => x.sin.eval t * Real.sin (x.ω * t) + x.cos.eval t * Real.cos (x.ω * t)).sum

/-! ## Lemmas -/

theorem foldl_add (f : Term → ℝ) (l : List Term) (a : ℝ) : l.foldl (fun r x => r + f x) a = a + (l.map f).sum := by
  induction l generalizing a with
  | nil => simp
  | cons x l ih => rw [List.foldl_cons, ih, List.map_cons, List.sum_cons, add_assoc]

/-- C85.  The evaluation. -/
theorem C85_value (s : Series) (t : ℝ) : s.at t = value s.aperiodic s.periodic (t - s.origin) := by
  simp only [Series.at, foldl_add, value]
  rfl

/-- The sum of the terms. -/
def total (l : List Term) (t : ℝ) : ℝ := (l.map fun x => x.at t).sum

theorem value_eq (a : ℝ[X]) (l : List Term) (t : ℝ) : value a l t = a.eval t + total l t := rfl

theorem at_eq (s : Series) (t : ℝ) : s.at t = s.aperiodic.eval (t - s.origin) + total s.periodic (t - s.origin) := by
  rw [C85_value, value_eq]

theorem total_nil (t : ℝ) : total [] t = 0 := rfl

theorem total_cons (x : Term) (l : List Term) (t : ℝ) : total (x :: l) t = x.at t + total l t := by simp [total]

theorem total_append (l m : List Term) (t : ℝ) : total (l ++ m) t = total l t + total m t := by simp [total]

theorem total_perm {l m : List Term} (h : l.Perm m) (t : ℝ) : total l t = total m t := (h.map _).sum_eq

theorem total_reverse (l : List Term) (t : ℝ) : total l.reverse t = total l t := total_perm l.reverse_perm t

theorem total_map (f : Term → Term) (c : ℝ) (t : ℝ) (l : List Term) (h : ∀ x ∈ l, (f x).at t = c * x.at t) : total (l.map f) t = c * total l t := by
  induction l with
  | nil => simp [total_nil]
  | cons x l ih =>
    rw [List.map_cons, total_cons, total_cons, h x (by simp), ih (fun y hy => h y (by simp [hy]))]; ring

/-- The invariant of the constructor. -/
structure GroupInv (previous : Option ℝ) (kept : List Term) : Prop where
  positive : ∀ x ∈ kept, 0 < x.ω
  sorted : kept.Pairwise fun x y => y.ω < x.ω
  none : previous = none → kept = []
  some : ∀ r, previous = some r → (∀ x ∈ kept, x.ω ≤ r) ∧ (0 < r → ∃ y k, kept = y :: k ∧ y.ω = r)

theorem group_correct (zeroAllowed : Bool) (l : List Term) (previous : Option ℝ) (kept : List Term) (a : ℝ[X]) (hs : l.Pairwise fun x y => |x.ω| ≤ |y.ω|)
    (hz : zeroAllowed = true ∨ ∀ x ∈ l, x.ω ≠ 0) (hi : GroupInv previous kept) (hp : ∀ r, previous = some r → ∀ x ∈ l, r ≤ |x.ω|) :
    ∃ a' p, group zeroAllowed previous kept a l = some (a', p) ∧ (∀ x ∈ p, 0 < x.ω) ∧ (p.Pairwise fun x y => x.ω < y.ω) ∧
      ∀ t, a'.eval t + total p t = a.eval t + total kept t + total l t := by
  induction l generalizing previous kept a with
  | nil =>
    refine ⟨a, kept.reverse, rfl, fun x hx => hi.positive x (by simpa using hx), ?_, fun t => ?_⟩
    · rw [List.pairwise_reverse]; exact hi.sorted
    · rw [total_reverse, total_nil, add_zero]
  | cons x l ih =>
    rw [List.pairwise_cons] at hs
    have hz' : zeroAllowed = true ∨ ∀ y ∈ l, y.ω ≠ 0 := hz.imp id fun h y hy => h y (by simp [hy])
    have hp' : ∀ r, some |x.ω| = some r → ∀ y ∈ l, r ≤ |y.ω| := by
      intro r hr y hy; cases hr; exact hs.1 y hy
    -- The kept terms are no larger than the current frequency.
    have hle : ∀ y ∈ kept, y.ω ≤ |x.ω| := by
      intro y hy
      cases hprev : previous with
      | none => rw [hi.none hprev] at hy; simp at hy
      | some r => exact ((hi.some r hprev).1 y hy).trans (hp r hprev x (by simp))
    -- If the previous frequency is different, they are smaller.
    have hlt : 0 < |x.ω| → previous ≠ some |x.ω| → ∀ y ∈ kept, y.ω < |x.ω| := by
      intro h0 hne y hy
      cases hprev : previous with
      | none => rw [hi.none hprev] at hy; simp at hy
      | some r =>
        have h1 := (hi.some r hprev).1 y hy
        have h2 := hp r hprev x (by simp)
        have h3 : r ≠ |x.ω| := by rintro rfl; exact hne hprev
        exact lt_of_le_of_lt h1 (lt_of_le_of_ne h2 h3)
    -- Addition of a term.
    have hnew : ∀ z : Term, z.ω = |x.ω| → 0 < |x.ω| → previous ≠ some |x.ω| → GroupInv (some |x.ω|) (z :: kept) := by
      intro z hz h0 hne
      refine ⟨?_, ?_, by simp, ?_⟩
      · intro y hy
        rcases List.mem_cons.mp hy with rfl | hy
        · rw [hz]; exact h0
        · exact hi.positive y hy
      · rw [List.pairwise_cons]
        exact ⟨fun y hy => by rw [hz]; exact hlt h0 hne y hy, hi.sorted⟩
      · intro r hr; cases hr
        refine ⟨?_, fun _ => ⟨z, kept, rfl, hz⟩⟩
        intro y hy
        rcases List.mem_cons.mp hy with rfl | hy
        · exact hz.le
        · exact hle y hy
    -- Modification of a term.
    have hmod : ∀ y k, kept = y :: k → y.ω = |x.ω| → ∀ z : Term, z.ω = y.ω → GroupInv (some |x.ω|) (z :: k) := by
      intro y k hk hy z hz
      have h1 := hi.positive; have h2 := hi.sorted
      rw [hk] at h1 h2 hle
      rw [List.pairwise_cons] at h2
      refine ⟨?_, ?_, by simp, ?_⟩
      · intro w hw
        rcases List.mem_cons.mp hw with rfl | hw
        · rw [hz]; exact h1 y (by simp)
        · exact h1 w (by simp [hw])
      · rw [List.pairwise_cons]
        exact ⟨fun w hw => by rw [hz]; exact h2.1 w hw, h2.2⟩
      · intro r hr; cases hr
        refine ⟨?_, fun _ => ⟨z, k, rfl, hz.trans hy⟩⟩
        intro w hw
        rcases List.mem_cons.mp hw with rfl | hw
        · exact (hz.trans hy).le
        · exact hle w (by simp [hw])
    rw [group.eq_def]
    simp only
    by_cases hneg : x.ω < 0
    · rw [if_pos hneg]
      have habs : |x.ω| = -x.ω := abs_of_neg hneg
      have h0 : 0 < |x.ω| := by rw [habs]; linarith
      by_cases hprev : previous = some (-x.ω)
      · rw [if_pos hprev]
        rw [← habs] at hprev
        obtain ⟨y, k, hk, hy⟩ := (hi.some _ hprev).2 h0
        subst hk
        simp only
        obtain ⟨a', p, e, h1, h2, h3⟩ := ih (some |x.ω|) (⟨y.ω, y.sin - x.sin, y.cos + x.cos⟩ :: k) a hs.2 hz' (hmod y k rfl hy _ rfl) hp'
        refine ⟨a', p, e, h1, h2, fun t => ?_⟩
        rw [h3 t]; simp only [total_cons, Term.at, eval_sub, eval_add]
        have : y.ω = -x.ω := by rw [hy, habs]
        rw [this, neg_mul, Real.sin_neg, Real.cos_neg]; ring
      · rw [if_neg hprev]
        rw [← habs] at hprev
        obtain ⟨a', p, e, h1, h2, h3⟩ := ih (some |x.ω|) (⟨-x.ω, -x.sin, x.cos⟩ :: kept) a hs.2 hz' (hnew _ habs.symm h0 hprev) hp'
        refine ⟨a', p, e, h1, h2, fun t => ?_⟩
        rw [h3 t]; simp only [total_cons, Term.at, eval_neg]
        rw [neg_mul x.ω, Real.sin_neg, Real.cos_neg]; ring
    · rw [if_neg hneg]
      by_cases hpos : x.ω > 0
      · rw [if_pos hpos]
        have habs : |x.ω| = x.ω := abs_of_pos hpos
        have h0 : 0 < |x.ω| := by rw [habs]; exact hpos
        by_cases hprev : previous = some x.ω
        · rw [if_pos hprev]
          rw [← habs] at hprev
          obtain ⟨y, k, hk, hy⟩ := (hi.some _ hprev).2 h0
          subst hk
          simp only
          obtain ⟨a', p, e, h1, h2, h3⟩ := ih (some |x.ω|) (⟨y.ω, y.sin + x.sin, y.cos + x.cos⟩ :: k) a hs.2 hz' (hmod y k rfl hy _ rfl) hp'
          refine ⟨a', p, e, h1, h2, fun t => ?_⟩
          rw [h3 t]; simp only [total_cons, Term.at, eval_sub, eval_add]
          have : y.ω = x.ω := by rw [hy, habs]
          rw [this]; ring
        · rw [if_neg hprev]
          rw [← habs] at hprev
          obtain ⟨a', p, e, h1, h2, h3⟩ := ih (some |x.ω|) (x :: kept) a hs.2 hz' (hnew _ habs.symm h0 hprev) hp'
          refine ⟨a', p, e, h1, h2, fun t => ?_⟩
          rw [h3 t]; simp only [total_cons]; ring
      · rw [if_neg hpos]
        have hx : x.ω = 0 := le_antisymm (not_lt.mp hpos) (not_lt.mp hneg)
        have hza : zeroAllowed = true := hz.resolve_right fun h => h x (by simp) hx
        rw [if_pos hza]
        have hk : kept = [] := by
          cases kept with
          | nil => rfl
          | cons y k =>
            have h1 := hi.positive y (by simp)
            have h2 := hle y (by simp)
            rw [hx, abs_zero] at h2
            linarith
        subst hk
        obtain ⟨a', p, e, h1, h2, h3⟩ := ih (some |x.ω|) [] (a + x.cos) hs.2 hz' ⟨by simp, by simp, by simp, fun r hr => ⟨by simp, fun h => by cases hr; rw [hx, abs_zero] at h; exact absurd h (lt_irrefl _)⟩⟩ hp'
        refine ⟨a', p, e, h1, h2, fun t => ?_⟩
        rw [h3 t]; simp only [total_cons, total_nil, Term.at, eval_add, hx, zero_mul, Real.sin_zero, Real.cos_zero]; ring

/-! ## The constructor -/

/-- C85.  The constructor accepts the terms in any order, with frequencies which may be negative, zero or repeated, as long as there is no zero frequency if the degree of the periodic polynomials is too large.  The series is
well-formed and its value is that of the sum of the terms. -/
theorem C85_construct (sort : List Term → List Term) (hsort : Sorts sort) (zeroAllowed : Bool) (origin : ℝ) (aperiodic : ℝ[X]) (periodic : List Term) (hz : zeroAllowed = true ∨ ∀ x ∈ periodic, x.ω ≠ 0) :
    ∃ s, construct sort zeroAllowed origin aperiodic periodic = some s ∧ WellFormed s ∧ s.origin = origin ∧ ∀ t, s.at t = value aperiodic periodic (t - origin) := by
  obtain ⟨hperm, hpw⟩ := hsort periodic
  obtain ⟨a', p, e, h1, h2, h3⟩ := group_correct zeroAllowed (sort periodic) none [] aperiodic hpw (hz.imp id fun h x hx => h x (hperm.mem_iff.mp hx)) ⟨by simp, by simp, by simp, by simp⟩ (by simp)
  refine ⟨⟨origin, a', p⟩, by rw [construct, e]; rfl, ⟨h1, h2⟩, rfl, fun t => ?_⟩
  rw [at_eq, value_eq]
  rw [h3, total_nil, add_zero, total_perm hperm]

/-- C85.  With a zero frequency, and a degree of the periodic polynomials which is too large, the constructor fails. -/
theorem C85_construct_fails (sort : List Term → List Term) (hsort : Sorts sort) (origin : ℝ) (aperiodic : ℝ[X]) (periodic : List Term) (x : Term) (hx : x ∈ periodic) (h0 : x.ω = 0) :
    construct sort false origin aperiodic periodic = none := by
  obtain ⟨hperm, hpw⟩ := hsort periodic
  have hx' := hperm.mem_iff.mpr hx
  rw [construct]
  cases h : sort periodic with
  | nil => rw [h] at hx'; simp at hx'
  | cons y l =>
    have hy : y.ω = 0 := by
      rw [h] at hx' hpw
      rcases List.mem_cons.mp hx' with rfl | hx'
      · exact h0
      · have := (List.pairwise_cons.mp hpw).1 x hx'
        rw [h0, abs_zero] at this
        exact abs_nonpos_iff.mp this
    rw [group, if_neg (by rw [hy]; exact lt_irrefl _), if_neg (by rw [hy]; exact lt_irrefl _)]
    simp

/-- The hypotheses of C85_construct: there is a function which sorts. -/
theorem exists_sorts : ∃ sort, Sorts sort := by
  classical
  refine ⟨fun l => l.insertionSort fun x y => |x.ω| ≤ |y.ω|, fun l => ⟨List.perm_insertionSort _ _, ?_⟩⟩
  haveI : IsTotal Term fun x y => |x.ω| ≤ |y.ω| := ⟨fun x y => le_total _ _⟩
  haveI : IsTrans Term fun x y => |x.ω| ≤ |y.ω| := ⟨fun x y z => le_trans⟩
  exact List.pairwise_insertionSort _ _

/-! ## The algebra -/

theorem mergeAdd_total (l r : List Term) (t : ℝ) : total (mergeAdd l r) t = total l t + total r t := by
  induction l, r using mergeAdd.induct with
  | case1 r => simp [mergeAdd, total_nil]
  | case2 l h => rw [mergeAdd.eq_2 _ h]; simp [total_nil]
  | case3 l left r right h ih => rw [mergeAdd, if_pos h, total_cons, ih, total_cons l]; ring
  | case4 l left r right h h' ih => rw [mergeAdd, if_neg h, if_pos h', total_cons, ih, total_cons r]; ring
  | case5 l left r right h h' ih =>
    have e : l.ω = r.ω := le_antisymm (not_lt.mp h') (not_lt.mp h)
    rw [mergeAdd, if_neg h, if_neg h', total_cons, ih, total_cons l, total_cons r]
    simp only [Term.at, eval_add, e]; ring

theorem mergeSub_total (l r : List Term) (t : ℝ) : total (mergeSub l r) t = total l t - total r t := by
  induction l, r using mergeSub.induct with
  | case1 r =>
    rw [mergeSub, total_map _ (-1) t r (fun x _ => by simp only [Term.at, eval_neg]; ring), total_nil]; ring
  | case2 l h => rw [mergeSub.eq_2 _ h]; simp [total_nil]
  | case3 l left r right h ih => rw [mergeSub, if_pos h, total_cons, ih, total_cons l]; ring
  | case4 l left r right h h' ih => rw [mergeSub, if_neg h, if_pos h', total_cons, ih, total_cons r]; simp only [Term.at, eval_neg]; ring
  | case5 l left r right h h' ih =>
    have e : l.ω = r.ω := le_antisymm (not_lt.mp h') (not_lt.mp h)
    rw [mergeSub, if_neg h, if_neg h', total_cons, ih, total_cons l, total_cons r]
    simp only [Term.at, eval_sub, e]; ring

theorem mergeAdd_mem (l r : List Term) : ∀ x ∈ mergeAdd l r, (∃ y ∈ l, y.ω = x.ω) ∨ ∃ y ∈ r, y.ω = x.ω := by
  induction l, r using mergeAdd.induct with
  | case1 r => intro x hx; rw [mergeAdd] at hx; exact Or.inr ⟨x, hx, rfl⟩
  | case2 l h => intro x hx; rw [mergeAdd.eq_2 _ h] at hx; exact Or.inl ⟨x, hx, rfl⟩
  | case3 l left r right h ih =>
    intro x hx; rw [mergeAdd, if_pos h] at hx
    rcases List.mem_cons.mp hx with rfl | hx
    · exact Or.inl ⟨_, by simp, rfl⟩
    · exact (ih x hx).imp (fun ⟨y, hy, e⟩ => ⟨y, by simp [hy], e⟩) id
  | case4 l left r right h h' ih =>
    intro x hx; rw [mergeAdd, if_neg h, if_pos h'] at hx
    rcases List.mem_cons.mp hx with rfl | hx
    · exact Or.inr ⟨_, by simp, rfl⟩
    · exact (ih x hx).imp id (fun ⟨y, hy, e⟩ => ⟨y, by simp [hy], e⟩)
  | case5 l left r right h h' ih =>
    intro x hx; rw [mergeAdd, if_neg h, if_neg h'] at hx
    rcases List.mem_cons.mp hx with rfl | hx
    · exact Or.inl ⟨l, by simp, rfl⟩
    · exact (ih x hx).imp (fun ⟨y, hy, e⟩ => ⟨y, by simp [hy], e⟩) (fun ⟨y, hy, e⟩ => ⟨y, by simp [hy], e⟩)

theorem mergeAdd_sorted (l r : List Term) (hl : l.Pairwise fun x y => x.ω < y.ω) (hr : r.Pairwise fun x y => x.ω < y.ω) : (mergeAdd l r).Pairwise fun x y => x.ω < y.ω := by
  induction l, r using mergeAdd.induct with
  | case1 r => rw [mergeAdd]; exact hr
  | case2 l h => rw [mergeAdd.eq_2 _ h]; exact hl
  | case3 l left r right h ih =>
    rw [mergeAdd, if_pos h, List.pairwise_cons]
    rw [List.pairwise_cons] at hl
    refine ⟨fun x hx => ?_, ih hl.2 hr⟩
    rcases mergeAdd_mem _ _ x hx with ⟨y, hy, e⟩ | ⟨y, hy, e⟩
    · rw [← e]; exact hl.1 y hy
    · rw [← e]
      rcases List.mem_cons.mp hy with rfl | hy
      · exact h
      · exact h.trans ((List.pairwise_cons.mp hr).1 y hy)
  | case4 l left r right h h' ih =>
    rw [mergeAdd, if_neg h, if_pos h', List.pairwise_cons]
    rw [List.pairwise_cons] at hr
    refine ⟨fun x hx => ?_, ih hl hr.2⟩
    rcases mergeAdd_mem _ _ x hx with ⟨y, hy, e⟩ | ⟨y, hy, e⟩
    · rw [← e]
      rcases List.mem_cons.mp hy with rfl | hy
      · exact h'
      · exact h'.trans ((List.pairwise_cons.mp hl).1 y hy)
    · rw [← e]; exact hr.1 y hy
  | case5 l left r right h h' ih =>
    have e' : l.ω = r.ω := le_antisymm (not_lt.mp h') (not_lt.mp h)
    rw [mergeAdd, if_neg h, if_neg h', List.pairwise_cons]
    rw [List.pairwise_cons] at hl hr
    refine ⟨fun x hx => ?_, ih hl.2 hr.2⟩
    rcases mergeAdd_mem _ _ x hx with ⟨y, hy, e⟩ | ⟨y, hy, e⟩
    · rw [← e]; exact hl.1 y hy
    · rw [← e]; show l.ω < _; rw [e']; exact hr.1 y hy

/-- The subtraction is the addition of the opposite, as far as the frequencies are concerned. -/
theorem mergeSub_eq (l r : List Term) : mergeSub l r = mergeAdd l (r.map fun x => ⟨x.ω, -x.sin, -x.cos⟩) := by
  induction l, r using mergeSub.induct with
  | case1 r => rw [mergeSub, mergeAdd]
  | case2 l h => rw [mergeSub.eq_2 _ h, List.map_nil, mergeAdd.eq_2 _ h]
  | case3 l left r right h ih => rw [mergeSub, if_pos h, List.map_cons, mergeAdd, if_pos h, ih]; rfl
  | case4 l left r right h h' ih => rw [mergeSub, if_neg h, if_pos h', List.map_cons, mergeAdd, if_neg h, if_pos h', ih]
  | case5 l left r right h h' ih =>
    rw [mergeSub, if_neg h, if_neg h', List.map_cons, mergeAdd, if_neg h, if_neg h', ih]
    simp only [sub_eq_add_neg]

theorem wellFormed_map (s : Series) (hs : WellFormed s) (f : Term → Term) (hf : ∀ x, (f x).ω = x.ω) (o : ℝ) (a : ℝ[X]) : WellFormed ⟨o, a, s.periodic.map f⟩ := by
  refine ⟨?_, ?_⟩
  · intro x hx
    obtain ⟨y, hy, rfl⟩ := List.mem_map.mp hx
    rw [hf]; exact hs.1 y hy
  · simp only
    rw [List.pairwise_map]
    simp only [hf]
    exact hs.2

/-- C85.  The sum and the difference of two series with the same origin are well-formed, and their value is the sum or difference of the values; with different origins a check fails. -/
theorem C85_add (left right : Series) (hl : WellFormed left) (hr : WellFormed right) (ho : left.origin = right.origin) :
    (∃ s, left.add right = some s ∧ WellFormed s ∧ ∀ t, s.at t = left.at t + right.at t) ∧ (∃ s, left.sub right = some s ∧ WellFormed s ∧ ∀ t, s.at t = left.at t - right.at t) := by
  have hm : ∀ r : Series, WellFormed r → ∀ (o : ℝ) (a : ℝ[X]), WellFormed ⟨o, a, mergeAdd left.periodic r.periodic⟩ := by
    intro r hr o a
    refine ⟨fun x hx => ?_, mergeAdd_sorted _ _ hl.2 hr.2⟩
    rcases mergeAdd_mem _ _ x hx with ⟨y, hy, e⟩ | ⟨y, hy, e⟩
    · rw [← e]; exact hl.1 y hy
    · rw [← e]; exact hr.1 y hy
  refine ⟨⟨_, by rw [Series.add, if_pos ho], hm right hr _ _, fun t => ?_⟩, ⟨_, by rw [Series.sub, if_pos ho], ?_, fun t => ?_⟩⟩
  · simp only [at_eq, mergeAdd_total, eval_add, ho]; ring
  · rw [mergeSub_eq]
    exact hm ⟨right.origin, 0, right.periodic.map fun x => ⟨x.ω, -x.sin, -x.cos⟩⟩ (wellFormed_map right hr (fun x => ⟨x.ω, -x.sin, -x.cos⟩) (fun _ => rfl) _ _) _ _
  · simp only [at_eq, mergeSub_total, eval_sub, ho]; ring

theorem C85_add_fails (left right : Series) (sort : List Term → List Term) (ho : left.origin ≠ right.origin) : left.add right = none ∧ left.sub right = none ∧ left.mul sort right = none := by
  refine ⟨by rw [Series.add, if_neg ho], by rw [Series.sub, if_neg ho], by rw [Series.mul, if_neg ho]⟩

/-- C85.  The operations with a scalar. -/
theorem C85_scalar (sort : List Term → List Term) (hsort : Sorts sort) (zeroAllowed : Bool) (s : Series) (hs : WellFormed s) (c : ℝ) :
    (∃ r, s.smul sort zeroAllowed c = some r ∧ WellFormed r ∧ ∀ t, r.at t = c * s.at t) ∧ (WellFormed (s.mulRight c) ∧ ∀ t, (s.mulRight c).at t = s.at t * c) ∧
      (WellFormed (s.div c) ∧ ∀ t, (s.div c).at t = s.at t / c) ∧ (WellFormed s.neg ∧ ∀ t, s.neg.at t = -s.at t) := by
  refine ⟨?_, ⟨wellFormed_map s hs (fun x => ⟨x.ω, x.sin * C c, x.cos * C c⟩) (fun _ => rfl) _ _, fun t => ?_⟩, ⟨wellFormed_map s hs (fun x => ⟨x.ω, C c⁻¹ * x.sin, C c⁻¹ * x.cos⟩) (fun _ => rfl) _ _, fun t => ?_⟩,
    ⟨wellFormed_map s hs (fun x => ⟨x.ω, -x.sin, -x.cos⟩) (fun _ => rfl) _ _, fun t => ?_⟩⟩
  · obtain ⟨r, e, h1, h2, h3⟩ := C85_construct sort hsort zeroAllowed s.origin (C c * s.aperiodic) (s.periodic.map fun x => ⟨x.ω, C c * x.sin, C c * x.cos⟩)
      (Or.inr fun x hx => by obtain ⟨y, hy, rfl⟩ := List.mem_map.mp hx; exact (hs.1 y hy).ne')
    refine ⟨r, e, h1, fun t => ?_⟩
    rw [h3, value_eq, total_map _ c _ _ (fun x _ => by simp only [Term.at, eval_mul, eval_C]; ring), at_eq, eval_mul, eval_C]; ring
  · rw [at_eq, at_eq]
    simp only [Series.mulRight]
    rw [total_map _ c _ _ (fun x _ => by simp only [Term.at, eval_mul, eval_C]; ring), eval_mul, eval_C]; ring
  · rw [at_eq, at_eq]
    simp only [Series.div]
    rw [total_map _ c⁻¹ _ _ (fun x _ => by simp only [Term.at, eval_mul, eval_C]; ring), eval_mul, eval_C]; ring
  · rw [at_eq, at_eq]
    simp only [Series.neg]
    rw [total_map _ (-1) _ _ (fun x _ => by simp only [Term.at, eval_neg]; ring), eval_neg]; ring

theorem total_products (l r : List Term) (t : ℝ) :
    total (l.flatMap fun l => r.flatMap fun r =>
      [⟨l.ω - r.ω, C (1 / 2) * (-(l.cos * r.sin) + l.sin * r.cos), C (1 / 2) * (l.sin * r.sin + l.cos * r.cos)⟩,
        ⟨l.ω + r.ω, C (1 / 2) * (l.cos * r.sin + l.sin * r.cos), C (1 / 2) * (-(l.sin * r.sin) + l.cos * r.cos)⟩]) t = total l t * total r t := by
  have h1 : ∀ (x : Term) (r : List Term), total (r.flatMap fun r =>
      [⟨x.ω - r.ω, C (1 / 2) * (-(x.cos * r.sin) + x.sin * r.cos), C (1 / 2) * (x.sin * r.sin + x.cos * r.cos)⟩,
        ⟨x.ω + r.ω, C (1 / 2) * (x.cos * r.sin + x.sin * r.cos), C (1 / 2) * (-(x.sin * r.sin) + x.cos * r.cos)⟩]) t = x.at t * total r t := by
    intro x r
    induction r with
    | nil => simp [total_nil]
    | cons y r ih =>
      rw [List.flatMap_cons, total_append, ih, total_cons, total_cons, total_cons, total_nil]
      simp only [Term.at, eval_mul, eval_add, eval_neg, eval_C, sub_mul, add_mul, Real.sin_sub, Real.sin_add, Real.cos_sub, Real.cos_add]
      ring
  induction l with
  | nil => simp [total_nil]
  | cons x l ih => rw [List.flatMap_cons, total_append, ih, h1, total_cons]; ring

/-- C85.  The product of two series with the same origin is well-formed, and its value is the product of the values. -/
theorem C85_mul (sort : List Term → List Term) (hsort : Sorts sort) (left right : Series) (ho : left.origin = right.origin) :
    ∃ s, left.mul sort right = some s ∧ WellFormed s ∧ s.origin = left.origin ∧ ∀ t, s.at t = left.at t * right.at t := by
  obtain ⟨s, e, h1, h2, h3⟩ := C85_construct sort hsort true left.origin (left.aperiodic * right.aperiodic) (products left right) (Or.inl rfl)
  refine ⟨s, by rw [Series.mul, if_pos ho, e], h1, h2, fun t => ?_⟩
  rw [h3, value_eq, at_eq, at_eq, products, total_append, total_append, total_products, ← ho,
    total_map _ (right.aperiodic.eval (t - left.origin)) _ _ (fun x _ => by simp only [Term.at, eval_mul]; ring),
    total_map _ (left.aperiodic.eval (t - left.origin)) _ _ (fun x _ => by simp only [Term.at, eval_mul]; ring), eval_mul]
  ring

/-! ## The change of origin, the maximum frequency and the split -/

/-- C85.  The change of origin doesn't change the values. -/
theorem C85_at_origin (s : Series) (hs : WellFormed s) (origin : ℝ) : WellFormed (s.atOrigin origin) ∧ (s.atOrigin origin).origin = origin ∧ ∀ t, (s.atOrigin origin).at t = s.at t := by
  refine ⟨wellFormed_map s hs (fun x =>
      ⟨x.ω, x.sin.comp (X + C (origin - s.origin)) * C (Real.cos (x.ω * (origin - s.origin))) - x.cos.comp (X + C (origin - s.origin)) * C (Real.sin (x.ω * (origin - s.origin))),
        x.sin.comp (X + C (origin - s.origin)) * C (Real.sin (x.ω * (origin - s.origin))) + x.cos.comp (X + C (origin - s.origin)) * C (Real.cos (x.ω * (origin - s.origin)))⟩) (fun _ => rfl) _ _, rfl, fun t => ?_⟩
  rw [at_eq, at_eq]
  simp only [Series.atOrigin]
  have e : t - origin + (origin - s.origin) = t - s.origin := by ring
  rw [eval_comp, eval_add, eval_X, eval_C, e]
  congr 1
  have : ∀ l : List Term, total (l.map fun x =>
      ⟨x.ω, x.sin.comp (X + C (origin - s.origin)) * C (Real.cos (x.ω * (origin - s.origin))) - x.cos.comp (X + C (origin - s.origin)) * C (Real.sin (x.ω * (origin - s.origin))),
        x.sin.comp (X + C (origin - s.origin)) * C (Real.sin (x.ω * (origin - s.origin))) + x.cos.comp (X + C (origin - s.origin)) * C (Real.cos (x.ω * (origin - s.origin)))⟩) (t - origin) =
      total l (t - s.origin) := by
    intro l
    induction l with
    | nil => rfl
    | cons x l ih =>
      rw [List.map_cons, total_cons, total_cons, ih]
      congr 1
      simp only [Term.at, eval_sub, eval_add, eval_mul, eval_comp, eval_X, eval_C, e]
      have e' : x.ω * (t - s.origin) = x.ω * (t - origin) + x.ω * (origin - s.origin) := by ring
      rw [e', Real.sin_add, Real.cos_add]; ring
  exact this _

/-- C85.  The maximum frequency is that of a term, and is no smaller than any frequency; it is zero if there are no periodic terms. -/
theorem C85_max (s : Series) (hs : WellFormed s) : (∀ x ∈ s.periodic, x.ω ≤ s.maxω) ∧ (s.periodic = [] ∧ s.maxω = 0 ∨ ∃ x ∈ s.periodic, x.ω = s.maxω) := by
  rcases List.eq_nil_or_concat s.periodic with h | ⟨l, y, h⟩
  · rw [Series.maxω, h]; simp
  · rw [List.concat_eq_append] at h
    have hm : s.maxω = y.ω := by rw [Series.maxω, h]; simp
    have hp := hs.2
    rw [h, List.pairwise_append] at hp
    rw [hm, h]
    refine ⟨fun x hx => ?_, Or.inr ⟨y, by simp, rfl⟩⟩
    rcases List.mem_append.mp hx with hx | hx
    · exact (hp.2.2 x hx y (by simp)).le
    · rw [List.mem_singleton.mp hx]

theorem total_filter (p : Term → Bool) (l : List Term) (t : ℝ) : total (l.filter p) t + total (l.filter fun x => !p x) t = total l t := by
  induction l with
  | nil => simp [total_nil]
  | cons x l ih =>
    cases h : p x
    · simp only [List.filter_cons, h, Bool.not_false, if_true, total_cons]; simp; linarith
    · simp only [List.filter_cons, h, Bool.not_true, if_true, total_cons]; simp; linarith

/-- C85.  The split separates the frequencies, its parts are well-formed and the series is their sum. -/
theorem C85_split (s : Series) (hs : WellFormed s) (ωCutoff : ℝ) :
    WellFormed (s.split ωCutoff).1 ∧ WellFormed (s.split ωCutoff).2 ∧ (∀ x ∈ (s.split ωCutoff).1.periodic, x.ω ≤ ωCutoff) ∧ (∀ x ∈ (s.split ωCutoff).2.periodic, ωCutoff < x.ω) ∧
      ∀ t, (s.split ωCutoff).1.at t + (s.split ωCutoff).2.at t = s.at t := by
  classical
  have w : ∀ (p : Term → Bool) (o : ℝ) (a : ℝ[X]), WellFormed ⟨o, a, s.periodic.filter p⟩ := fun p o a =>
    ⟨fun x hx => hs.1 x (List.mem_filter.mp hx).1, hs.2.filter p⟩
  have h1 : ∀ x ∈ s.periodic.filter (fun x => decide (x.ω ≤ ωCutoff)), x.ω ≤ ωCutoff := fun x hx => of_decide_eq_true (List.mem_filter.mp hx).2
  have h2 : ∀ x ∈ s.periodic.filter (fun x => !decide (x.ω ≤ ωCutoff)), ωCutoff < x.ω := fun x hx => by
    have := (List.mem_filter.mp hx).2
    simpa using this
  have h3 := fun t => total_filter (fun x => decide (x.ω ≤ ωCutoff)) s.periodic t
  rw [Series.split]
  split
  · refine ⟨w _ _ _, w _ _ _, h1, h2, fun t => ?_⟩
    rw [at_eq, at_eq, at_eq, ← h3]; simp only [eval_zero]; ring
  · refine ⟨w _ _ _, w _ _ _, h1, h2, fun t => ?_⟩
    rw [at_eq, at_eq, at_eq, ← h3]; simp only [eval_zero]; ring

/-! ## The primitive and the integral -/

theorem derivative_polynomialPrimitive (p : ℝ[X]) : derivative (polynomialPrimitive p) = p := by
  rw [polynomialPrimitive, Polynomial.sum_def, derivative_sum]
  conv_rhs => rw [p.as_sum_support]
  apply Finset.sum_congr rfl
  intro n _
  rw [derivative_monomial]
  congr 1
  have : (n : ℝ) + 1 ≠ 0 := by positivity
  push_cast
  field_simp

theorem coeff_zero_polynomialPrimitive (p : ℝ[X]) : (polynomialPrimitive p).coeff 0 = 0 := by
  rw [polynomialPrimitive, Polynomial.sum_def, finset_sum_coeff]
  apply Finset.sum_eq_zero
  intro n _
  rw [coeff_monomial]; simp

theorem hasDerivAt_term (p q : ℝ[X]) (ω t : ℝ) :
    HasDerivAt (fun t => p.eval t * Real.sin (ω * t) + q.eval t * Real.cos (ω * t))
      ((derivative p).eval t * Real.sin (ω * t) + p.eval t * (Real.cos (ω * t) * ω) + ((derivative q).eval t * Real.cos (ω * t) + q.eval t * (-Real.sin (ω * t) * ω))) t := by
  have h : HasDerivAt (fun t => ω * t) ω t := by simpa using (hasDerivAt_id t).const_mul ω
  exact ((p.hasDerivAt t).mul ((Real.hasDerivAt_sin _).comp t h)).add ((q.hasDerivAt t).mul ((Real.hasDerivAt_cos _).comp t h))

theorem derivative_of_le (p : ℝ[X]) (d : ℕ) (h : p.natDegree ≤ d + 1) : (derivative p).natDegree ≤ d := (natDegree_derivative_le p).trans (by omega)

theorem angularFrequencyPrimitive_deriv (ω : ℝ) (hω : ω ≠ 0) (d : ℕ) (p q : ℝ[X]) (hp : p.natDegree ≤ d) (hq : q.natDegree ≤ d) (t : ℝ) :
    HasDerivAt (fun t => (angularFrequencyPrimitive ω d (p, q)).1.eval t * Real.sin (ω * t) + (angularFrequencyPrimitive ω d (p, q)).2.eval t * Real.cos (ω * t))
      (p.eval t * Real.sin (ω * t) + q.eval t * Real.cos (ω * t)) t := by
  induction d generalizing p q with
  | zero =>
    have dp : derivative p = 0 := derivative_of_natDegree_zero (by omega)
    have dq : derivative q = 0 := derivative_of_natDegree_zero (by omega)
    refine (hasDerivAt_term _ _ ω t).congr_deriv ?_
    simp only [angularFrequencyPrimitive, derivative_mul, derivative_C, derivative_neg, dp, dq, eval_mul, eval_C, eval_neg, eval_add, eval_zero]
    field_simp; ring
  | succ d ih =>
    have hp' : (C ω⁻¹ * -derivative q).natDegree ≤ d := (natDegree_C_mul_le _ _).trans (by rw [natDegree_neg]; exact derivative_of_le q d hq)
    have hq' : (C ω⁻¹ * derivative p).natDegree ≤ d := (natDegree_C_mul_le _ _).trans (derivative_of_le p d hp)
    have h1 := (hasDerivAt_term (C ω⁻¹ * q) (C ω⁻¹ * -p) ω t).add (ih _ _ hp' hq')
    refine (h1.congr_deriv ?_).congr_of_eventuallyEq (Filter.Eventually.of_forall fun t => ?_)
    · simp only [derivative_mul, derivative_C, derivative_neg, eval_mul, eval_C, eval_neg, eval_add, eval_zero]
      field_simp; ring
    · simp only [angularFrequencyPrimitive, eval_add, Pi.add_apply]; ring

theorem hasDerivAt_total (f : Term → Term) (l : List Term) (t : ℝ) (h : ∀ x ∈ l, HasDerivAt (f x).at (x.at t) t) : HasDerivAt (total (l.map f)) (total l t) t := by
  induction l with
  | nil => exact hasDerivAt_const t (0 : ℝ)
  | cons x l ih =>
    have := (h x (by simp)).add (ih fun y hy => h y (by simp [hy]))
    rw [total_cons]
    exact this.congr_of_eventuallyEq (Filter.Eventually.of_forall fun t => by simp [total_cons])

theorem group_aperiodic (zeroAllowed : Bool) (l : List Term) (previous : Option ℝ) (kept : List Term) (a a' : ℝ[X]) (p : List Term) (hz : ∀ x ∈ l, 0 < x.ω)
    (h : group zeroAllowed previous kept a l = some (a', p)) : a' = a := by
  induction l generalizing previous kept with
  | nil => rw [group] at h; cases h; rfl
  | cons x l ih =>
    have hx := hz x (by simp)
    have hl : ∀ y ∈ l, 0 < y.ω := fun y hy => hz y (by simp [hy])
    rw [group.eq_def] at h
    simp only at h
    rw [if_neg (by linarith), if_pos hx] at h
    split at h
    · cases kept with
      | nil => cases h
      | cons y k => exact ih _ _ hl h
    · exact ih _ _ hl h

/-- C85.  The primitive of a well-formed series is well-formed, its derivative is the series, and the constant term of its aperiodic polynomial is zero. -/
theorem C85_primitive (sort : List Term → List Term) (hsort : Sorts sort) (zeroAllowed : Bool) (d : ℕ) (s : Series) (hs : WellFormed s) (hd : ∀ x ∈ s.periodic, x.sin.natDegree ≤ d ∧ x.cos.natDegree ≤ d) :
    ∃ r, s.primitive sort zeroAllowed d = some r ∧ WellFormed r ∧ r.origin = s.origin ∧ r.aperiodic.coeff 0 = 0 ∧ ∀ t, HasDerivAt r.at (s.at t) t := by
  obtain ⟨r, e, h1, h2, h3⟩ := C85_construct sort hsort zeroAllowed s.origin (polynomialPrimitive s.aperiodic) (s.periodic.map fun x =>
      ⟨x.ω, (angularFrequencyPrimitive x.ω d (x.sin, x.cos)).1, (angularFrequencyPrimitive x.ω d (x.sin, x.cos)).2⟩)
    (Or.inr fun x hx => by obtain ⟨y, hy, rfl⟩ := List.mem_map.mp hx; exact (hs.1 y hy).ne')
  refine ⟨r, e, h1, h2, ?_, fun t => ?_⟩
  · rw [construct, Option.map_eq_some_iff] at e
    obtain ⟨⟨a', p⟩, e, rfl⟩ := e
    have hpos : ∀ x ∈ sort (s.periodic.map fun x => (⟨x.ω, (angularFrequencyPrimitive x.ω d (x.sin, x.cos)).1, (angularFrequencyPrimitive x.ω d (x.sin, x.cos)).2⟩ : Term)), 0 < x.ω := by
      intro x hx
      obtain ⟨y, hy, rfl⟩ := List.mem_map.mp ((hsort _).1.mem_iff.mp hx)
      exact hs.1 y hy
    rw [group_aperiodic zeroAllowed _ _ _ _ _ _ hpos e]
    exact coeff_zero_polynomialPrimitive _
  have h4 : HasDerivAt (total (s.periodic.map fun x => ⟨x.ω, (angularFrequencyPrimitive x.ω d (x.sin, x.cos)).1, (angularFrequencyPrimitive x.ω d (x.sin, x.cos)).2⟩))
      (total s.periodic (t - s.origin)) (t - s.origin) :=
    hasDerivAt_total _ _ _ fun x hx => angularFrequencyPrimitive_deriv x.ω (hs.1 x hx).ne' d x.sin x.cos (hd x hx).1 (hd x hx).2 _
  have h5 := (polynomialPrimitive s.aperiodic).hasDerivAt (t - s.origin)
  rw [derivative_polynomialPrimitive] at h5
  have h6 := (h5.add h4).comp_sub_const t s.origin
  rw [at_eq]
  refine h6.congr_of_eventuallyEq (Filter.Eventually.of_forall fun t => ?_)
  rw [h3, value_eq]; rfl

/-- The function whose variation is computed by `angularFrequencyIntegrate`. -/
def angularFrequencyIntegral (ω : ℝ) : ℕ → ℝ[X] → ℝ[X] → ℝ → ℝ
  | 0, p, q, t => (q.eval t * Real.sin (ω * t) + (-p).eval t * Real.cos (ω * t)) / ω
  | d + 1, p, q, t => (q.eval t * Real.sin (ω * t) + (-p).eval t * Real.cos (ω * t) + angularFrequencyIntegral ω d (-derivative q) (derivative p) t) / ω

theorem angularFrequencyIntegrate_eq (ω : ℝ) (d : ℕ) (p q : ℝ[X]) (t1 t2 : ℝ) :
    angularFrequencyIntegrate ω t1 t2 (Real.sin (ω * t1)) (Real.cos (ω * t1)) (Real.sin (ω * t2)) (Real.cos (ω * t2)) d p q = angularFrequencyIntegral ω d p q t2 - angularFrequencyIntegral ω d p q t1 := by
  induction d generalizing p q with
  | zero => simp only [angularFrequencyIntegrate, angularFrequencyIntegral, eval_neg]; ring
  | succ d ih => simp only [angularFrequencyIntegrate, angularFrequencyIntegral, ih, eval_neg]; ring

theorem angularFrequencyIntegral_deriv (ω : ℝ) (hω : ω ≠ 0) (d : ℕ) (p q : ℝ[X]) (hp : p.natDegree ≤ d) (hq : q.natDegree ≤ d) (t : ℝ) :
    HasDerivAt (angularFrequencyIntegral ω d p q) (p.eval t * Real.sin (ω * t) + q.eval t * Real.cos (ω * t)) t := by
  induction d generalizing p q with
  | zero =>
    have dp : derivative p = 0 := derivative_of_natDegree_zero (by omega)
    have dq : derivative q = 0 := derivative_of_natDegree_zero (by omega)
    refine ((hasDerivAt_term q (-p) ω t).div_const ω).congr_deriv ?_
    simp only [derivative_neg, dp, dq, eval_neg, eval_zero]
    field_simp; ring
  | succ d ih =>
    have h1 := ((hasDerivAt_term q (-p) ω t).add (ih (-derivative q) (derivative p) (by rw [natDegree_neg]; exact derivative_of_le q d hq) (derivative_of_le p d hp))).div_const ω
    refine HasDerivAt.congr_deriv (f' := _) h1 ?_
    simp only [derivative_neg, eval_neg]
    field_simp; ring

/-- C85.  `Integrate` computes the integral. -/
theorem C85_integrate (d : ℕ) (s : Series) (hs : WellFormed s) (hd : ∀ x ∈ s.periodic, x.sin.natDegree ≤ d ∧ x.cos.natDegree ≤ d) (t1 t2 : ℝ) :
    s.integrate d t1 t2 = ∫ t in t1..t2, s.at t := by
  set F : ℝ → ℝ := fun t => (polynomialPrimitive s.aperiodic).eval t + (s.periodic.map fun x => angularFrequencyIntegral x.ω d x.sin x.cos t).sum with hF
  have h1 : s.integrate d t1 t2 = F (t2 - s.origin) - F (t1 - s.origin) := by
    rw [Series.integrate, foldl_add, hF]
    have : ∀ l : List Term, (l.map fun x => angularFrequencyIntegrate x.ω (t1 - s.origin) (t2 - s.origin) (Real.sin (x.ω * (t1 - s.origin))) (Real.cos (x.ω * (t1 - s.origin)))
        (Real.sin (x.ω * (t2 - s.origin))) (Real.cos (x.ω * (t2 - s.origin))) d x.sin x.cos).sum =
        (l.map fun x => angularFrequencyIntegral x.ω d x.sin x.cos (t2 - s.origin)).sum - (l.map fun x => angularFrequencyIntegral x.ω d x.sin x.cos (t1 - s.origin)).sum := by
      intro l
      induction l with
      | nil => simp
      | cons x l ih => simp only [List.map_cons, List.sum_cons]; rw [ih, angularFrequencyIntegrate_eq]; ring
    rw [this]; ring
  have h2 : ∀ t, HasDerivAt F (s.aperiodic.eval t + total s.periodic t) t := by
    intro t
    have h5 := (polynomialPrimitive s.aperiodic).hasDerivAt t
    rw [derivative_polynomialPrimitive] at h5
    have : ∀ l : List Term, (∀ x ∈ l, x ∈ s.periodic) → HasDerivAt (fun t => (l.map fun x => angularFrequencyIntegral x.ω d x.sin x.cos t).sum) (total l t) t := by
      intro l
      induction l with
      | nil => intro _; simpa [total_nil] using hasDerivAt_const t (0 : ℝ)
      | cons x l ih =>
        intro h
        have hx := h x (by simp)
        have := (angularFrequencyIntegral_deriv x.ω (hs.1 x hx).ne' d x.sin x.cos (hd x hx).1 (hd x hx).2 t).add (ih fun y hy => h y (by simp [hy]))
        rw [total_cons]
        simp only [List.map_cons, List.sum_cons]
        exact this
    exact h5.add (this _ fun _ h => h)
  have h3 : ∀ t, HasDerivAt (fun t => F (t - s.origin)) (s.at t) t := by
    intro t
    rw [at_eq]
    exact (h2 (t - s.origin)).comp_sub_const t s.origin
  have hc : Continuous s.at := by
    have : s.at = fun t => s.aperiodic.eval (t - s.origin) + total s.periodic (t - s.origin) := funext (at_eq s)
    rw [this]
    have ht : ∀ l : List Term, Continuous (total l) := by
      intro l
      induction l with
      | nil => exact continuous_const
      | cons x l ih =>
        have : total (x :: l) = fun t => x.at t + total l t := funext (total_cons x l)
        rw [this]
        refine Continuous.add ?_ ih
        have h1 := x.sin.continuous; have h2 := x.cos.continuous
        show Continuous fun t => x.sin.eval t * Real.sin (x.ω * t) + x.cos.eval t * Real.cos (x.ω * t)
        fun_prop
    have h1 := s.aperiodic.continuous; have h2 := ht s.periodic
    fun_prop
  rw [h1, intervalIntegral.integral_eq_sub_of_hasDerivAt (fun t _ => h3 t) (hc.intervalIntegrable _ _)]

/-! ## Examples -/

/-- A well-formed series: 1 + t + 2 sin t + t cos 3 t. -/
def exampleSeries : Series := ⟨0, 1 + X, [⟨1, 2, 0⟩, ⟨3, 0, X⟩]⟩

/-- The hypotheses of the theorems above. -/
example : WellFormed exampleSeries ∧ ∀ x ∈ exampleSeries.periodic, x.sin.natDegree ≤ 1 ∧ x.cos.natDegree ≤ 1 := by
  refine ⟨⟨?_, ?_⟩, ?_⟩
  · intro x hx
    simp [exampleSeries] at hx
    rcases hx with rfl | rfl <;> norm_num
  · simp [exampleSeries]
  · intro x hx
    simp [exampleSeries] at hx
    rcases hx with rfl | rfl
    · have : (2 : ℝ[X]).natDegree = 0 := natDegree_ofNat 2
      simp [this]
    · simp

end

end Principia.Numerics.Poisson
