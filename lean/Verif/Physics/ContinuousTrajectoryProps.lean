import Verif.Physics.ContinuousTrajectorySlices
import Mathlib.Algebra.Order.Ring.Rat
import Mathlib.Data.Rat.Floor
import Mathlib.Tactic.Linarith
import Mathlib.Tactic.NormNum
import Mathlib.Tactic.ByContra

/-!
# C67: a trajectory is the piecewise approximation of the points that were appended to it
-/

set_option linter.unusedSimpArgs false
set_option linter.unusedVariables false
set_option linter.unusedSectionVars false

namespace Principia.ContinuousTrajectory

open Principia.SortedMap Principia.Checkpointer

variable {T L D P E : Type} [AddCommGroup T] [LinearOrder T] [IsOrderedAddMonoid T] [Field L] [LinearOrder L]

/-! ### Specification -/

/-- A call to a trajectory. -/
inductive Call (T D : Type)
  | append (time : T) (degreesOfFreedom : D)
  | evaluate (time : T)

/-- A call, `none` if a check fails. -/
def call (env : Env T L D P E) (s : Trajectory T L D P E) : Call T D → Option (Trajectory T L D P E)
  | .append t d => (append env s t d).map Prod.fst
  | .evaluate t => (evaluate s t).map Prod.snd

/-- A sequence of calls. -/
def calls (env : Env T L D P E) : Trajectory T L D P E → List (Call T D) → Option (Trajectory T L D P E)
  | s, [] => some s
  | s, c :: l => (call env s c).bind fun s => calls env s l

/-- The points appended by a sequence of calls. -/
def appended : List (Call T D) → List (T × D)
  | [] => []
  | .append t d :: l => (t, d) :: appended l
  | .evaluate _ :: l => appended l

/-- The points that are appended are equally spaced. -/
def EquallySpaced (step : T) (points : List (T × D)) : Prop := ∀ i p q, points[i]? = some p → points[i + 1]? = some q → q.1 = p.1 + step

/-- The polynomial is an approximation of admissible degree of the nine points that start at the index `8 * k`, over the interval between the first one and the last one. -/
def IsApproximation (env : Env T L D P E) (points : List (T × D)) (k : ℕ) (p : P) : Prop :=
  ∃ degree first last, 3 ≤ degree ∧ degree ≤ 17 ∧ points[8 * k]? = some first ∧ points[8 * k + 8]? = some last ∧
    p = (env.fit env.defaultPolicy degree (((points.drop (8 * k)).take 9).map Prod.snd) first.1 last.1).1

/-- The error estimates are those of an approximation: they are nonnegative, and small with respect to the largest number. -/
structure Env.Sane (env : Env T L D P E) : Prop where
  step_pos : 0 < env.step
  tolerance_pos : 0 < env.tolerance
  tolerance_lt : env.tolerance < env.huge / 2
  error_nonneg : ∀ e n l a b, 0 ≤ (env.fit e n l a b).2
  error_lt : ∀ e n l a b, (env.fit e n l a b).2 < env.huge / 2

/-! ### The choice of the degree -/

section Degree

variable [IsStrictOrderedRing L]

/-- What the loop on the degree preserves. -/
theorem raiseDegree_spec (fit : ℕ → P × L) (tol : L) (n : ℕ) : ∀ (degree : ℕ) (best : P × L) (previous : L), degree + n ≤ maxDegree → degree + n = maxDegree ∨ n = 0 →
    let r := raiseDegree fit tol n degree best previous
    degree ≤ r.1 ∧ r.1 ≤ degree + n ∧ (r.1 = degree ∧ r.2.1 = best ∧ r.2.2 = previous ∨
      degree < r.1 ∧ r.2.1 = fit r.1 ∧ r.2.2 = (if r.1 = degree + 1 then best.2 else (fit (r.1 - 1)).2) ∧ best.2 > tol ∧ best.2 < previous) ∧
      (r.2.1.2 ≤ tol ∨ r.2.1.2 ≥ r.2.2 ∨ r.1 = degree + n) := by
  induction n with
  | zero => intro degree best previous _ _; simp [raiseDegree]
  | succ n ih =>
    intro degree best previous hd hd'
    have hd'' : degree < maxDegree := by omega
    by_cases hc : best.2 > tol ∧ best.2 < previous ∧ degree < maxDegree
    · have hq : raiseDegree fit tol (n + 1) degree best previous = raiseDegree fit tol n (degree + 1) (fit (degree + 1)) best.2 := by rw [raiseDegree]; exact if_pos hc
      simp only [hq]
      have := ih (degree + 1) (fit (degree + 1)) best.2 (by omega) (by omega)
      simp only at this
      obtain ⟨h1, h2, h3, h4⟩ := this
      refine ⟨by omega, by omega, Or.inr ⟨by omega, ?_, ?_, hc.1, hc.2.1⟩, ?_⟩
      · rcases h3 with h3 | h3
        · rw [h3.2.1, h3.1]
        · exact h3.2.1
      · rcases h3 with h3 | h3
        · rw [h3.2.2, if_pos h3.1]
        · have hne : ¬ (raiseDegree fit tol n (degree + 1) (fit (degree + 1)) best.2).1 = degree + 1 := by omega
          rw [h3.2.2.1, if_neg hne]
          by_cases h5 : (raiseDegree fit tol n (degree + 1) (fit (degree + 1)) best.2).1 = degree + 1 + 1
          · rw [if_pos h5, h5]; rfl
          · rw [if_neg h5]
      · rcases h4 with h4 | h4 | h4
        · exact Or.inl h4
        · exact Or.inr (Or.inl h4)
        · exact Or.inr (Or.inr (by omega))
    · have hq : raiseDegree fit tol (n + 1) degree best previous = (degree, best, previous) := by rw [raiseDegree]; exact if_neg hc
      simp only [hq]
      refine ⟨le_rfl, by omega, Or.inl ⟨trivial, trivial, trivial⟩, ?_⟩
      by_contra hn
      push Not at hn
      exact hc ⟨hn.1, hn.2.1, hd''⟩

/-- The members that govern the choice of the degree have admissible values. -/
def Regulator.Valid (env : Env T L D P E) (r : Regulator L) : Prop := 3 ≤ r.degree ∧ r.degree ≤ 17 ∧ r.degreeAge ≤ 100 ∧ env.tolerance ≤ r.adjustedTolerance

/-- What is known of the result of the computation of the best approximation. -/
theorem computeBestNewhallApproximation_spec {env : Env T L D P E} (hs : env.Sane) {policy : E} {r : Regulator L} (hr : r.Valid env) (oldest time : T) (dofs : List D) :
    let x := computeBestNewhallApproximation env policy r oldest time dofs
    let fit := fun degree => env.fit policy degree dofs oldest time
    x.1.Valid env ∧ ∃ degree, 3 ≤ degree ∧ degree ≤ 17 ∧ x.2.1 = (fit degree).1 ∧
      ((fit degree).2 ≤ x.1.adjustedTolerance ∨ degree = 17 ∨ 3 < degree ∧ (fit (degree - 1)).2 ≤ (fit degree).2) ∧
      (x.1.adjustedTolerance ≤ r.adjustedTolerance ∨ ∃ degree', 3 ≤ degree' ∧ degree' ≤ 17 ∧ x.1.adjustedTolerance = (fit degree').2) ∧
      (x.2.2 = false → ∃ degree', 3 ≤ degree' ∧ degree' ≤ 17 ∧ 1000000 * env.tolerance ≤ (fit degree').2) := by
  intro x fit
  have hnn : ∀ d, 0 ≤ (fit d).2 := fun d => hs.error_nonneg _ _ _ _ _
  have hlt : ∀ d, (fit d).2 < env.huge / 2 := fun d => hs.error_lt _ _ _ _ _
  obtain ⟨v1, v2, v3, v4⟩ := hr
  have htol := hs.tolerance_pos
  have htol2 := hs.tolerance_lt
  -- The regulator after the aging.
  set r1 : Regulator L := if r.degreeAge ≥ maxDegreeAge then ⟨env.tolerance, false, minDegree, 0⟩ else r with hr1
  have w : 3 ≤ r1.degree ∧ r1.degree ≤ 17 ∧ r1.degreeAge ≤ 99 ∧ env.tolerance ≤ r1.adjustedTolerance ∧ r1.adjustedTolerance ≤ r.adjustedTolerance := by
    rw [hr1]
    by_cases h : r.degreeAge ≥ maxDegreeAge
    · rw [if_pos h]; exact ⟨by simp [minDegree], by simp [minDegree], by simp, le_rfl, v4⟩
    · rw [if_neg h]; unfold maxDegreeAge at h; exact ⟨v1, v2, by omega, v4, le_rfl⟩
  obtain ⟨w1, w2, w3, w4, w5⟩ := w
  -- The choice of the degree, in both cases.
  have key : ∀ (r2 : Regulator L) (best : P × L) (previous : L), r2.degreeAge ≤ 99 → env.tolerance ≤ r2.adjustedTolerance → r2.adjustedTolerance ≤ r.adjustedTolerance →
      (3 ≤ r2.degree ∧ r2.degree ≤ 17 ∧ best = fit r2.degree ∧ previous = best.2 + best.2 ∨
        r2.degree = 2 ∧ r2.adjustedTolerance = env.tolerance ∧ best.2 = env.huge / 2 ∧ previous = env.huge) →
      let raised := raiseDegree fit r2.adjustedTolerance (maxDegree - r2.degree) r2.degree best previous
      let r3 : Regulator L :=
        if raised.2.1.2 ≥ raised.2.2 then ⟨max r2.adjustedTolerance raised.2.2, true, if raised.1 > minDegree then raised.1 - 1 else raised.1, r2.degreeAge + 1⟩
        else ⟨r2.adjustedTolerance, r2.isUnstable, raised.1, r2.degreeAge + 1⟩
      r3.Valid env ∧ ∃ degree, 3 ≤ degree ∧ degree ≤ 17 ∧ raised.2.1.1 = (fit degree).1 ∧
        ((fit degree).2 ≤ r3.adjustedTolerance ∨ degree = 17 ∨ 3 < degree ∧ (fit (degree - 1)).2 ≤ (fit degree).2) ∧
        (r3.adjustedTolerance ≤ r.adjustedTolerance ∨ ∃ degree', 3 ≤ degree' ∧ degree' ≤ 17 ∧ r3.adjustedTolerance = (fit degree').2) ∧
        (decide (r3.adjustedTolerance < 1000000 * r.adjustedTolerance) = false → ∃ degree', 3 ≤ degree' ∧ degree' ≤ 17 ∧ 1000000 * env.tolerance ≤ (fit degree').2) := by
    intro r2 best previous hage ht ht' hcase raised r3
    have hspec := raiseDegree_spec fit r2.adjustedTolerance (maxDegree - r2.degree) r2.degree best previous (by unfold maxDegree; omega) (by unfold maxDegree; omega)
    simp only at hspec
    change r2.degree ≤ raised.1 ∧ raised.1 ≤ _ ∧ (raised.1 = _ ∧ raised.2.1 = _ ∧ raised.2.2 = _ ∨ _ < raised.1 ∧ raised.2.1 = fit raised.1 ∧ raised.2.2 = (if raised.1 = _ then _ else (fit (raised.1 - 1)).2) ∧ _) ∧
      (raised.2.1.2 ≤ _ ∨ raised.2.1.2 ≥ raised.2.2 ∨ raised.1 = _) at hspec
    obtain ⟨s1, s2, s3, s4⟩ := hspec
    have s2' : raised.1 ≤ 17 := by unfold maxDegree at s2; omega
    -- The degree of the polynomial and its error.
    have hdeg : 3 ≤ raised.1 ∧ raised.2.1 = fit raised.1 ∧ (raised.2.1.2 ≥ raised.2.2 → raised.2.1.2 ≤ 0 ∧ raised.2.2 ≤ 0 ∨ 3 < raised.1 ∧ raised.2.2 = (fit (raised.1 - 1)).2) := by
      rcases hcase with ⟨c1, c2, c3, c4⟩ | ⟨c1, c2, c3, c4⟩
      · rcases s3 with ⟨e1, e2, e3⟩ | ⟨e1, e2, e3, -, -⟩
        · refine ⟨by omega, by rw [e2, c3, e1], fun h => Or.inl ?_⟩
          rw [e2, e3, c4] at h
          rw [e2, e3, c4]
          constructor <;> linarith
        · refine ⟨by omega, e2, fun _ => Or.inr ⟨by omega, ?_⟩⟩
          rw [e3]
          by_cases h : raised.1 = r2.degree + 1
          · rw [if_pos h, c3, h]; rfl
          · rw [if_neg h]
      · rcases s3 with ⟨e1, e2, e3⟩ | ⟨e1, e2, e3, -, -⟩
        · exfalso
          rw [e2, e3, c3, c4, c2] at s4
          rcases s4 with s4 | s4 | s4
          · linarith
          · linarith
          · unfold maxDegree at s4; omega
        · refine ⟨by omega, e2, fun h => ?_⟩
          by_cases h3 : raised.1 = r2.degree + 1
          · exfalso
            rw [e3, if_pos h3, e2, c3] at h
            exact absurd h (not_le.2 (hlt _))
          · right
            refine ⟨by omega, ?_⟩
            rw [e3, if_neg h3]
    obtain ⟨d1, d2, d3⟩ := hdeg
    by_cases hge : raised.2.1.2 ≥ raised.2.2
    · have hr3 : r3 = ⟨max r2.adjustedTolerance raised.2.2, true, if raised.1 > minDegree then raised.1 - 1 else raised.1, r2.degreeAge + 1⟩ := if_pos hge
      have hprev := d3 hge
      have hadj : r3.adjustedTolerance ≤ r.adjustedTolerance ∨ ∃ degree', 3 ≤ degree' ∧ degree' ≤ 17 ∧ r3.adjustedTolerance = (fit degree').2 := by
        rw [hr3]
        simp only
        rcases le_total raised.2.2 r2.adjustedTolerance with h | h
        · rw [max_eq_left h]; exact Or.inl ht'
        · rw [max_eq_right h]
          rcases hprev with hp | ⟨hp1, hp2⟩
          · left; linarith [hp.2]
          · exact Or.inr ⟨raised.1 - 1, by omega, by omega, hp2⟩
      refine ⟨⟨?_, ?_, ?_, ?_⟩, raised.1, d1, s2', by rw [d2], ?_, hadj, ?_⟩
      · rw [hr3]; simp only; unfold minDegree; split_ifs <;> omega
      · rw [hr3]; simp only; split_ifs <;> omega
      · rw [hr3]; simp only; omega
      · rw [hr3]; exact ht.trans (le_max_left _ _)
      · rcases hprev with hp | ⟨hp1, hp2⟩
        · left
          rw [← d2, hr3]
          exact hp.1.trans (htol.le.trans (ht.trans (le_max_left _ _)))
        · right; right
          refine ⟨hp1, ?_⟩
          rw [← hp2, ← d2]; exact hge
      · intro hd
        rw [decide_eq_false_iff_not, not_lt] at hd
        rcases hadj with h | ⟨d', hd1, hd2, hd3⟩
        · exfalso; nlinarith [htol, ht, ht']
        · refine ⟨d', hd1, hd2, ?_⟩
          rw [← hd3]; linarith [ht, ht']
    · have hr3 : r3 = ⟨r2.adjustedTolerance, r2.isUnstable, raised.1, r2.degreeAge + 1⟩ := if_neg hge
      refine ⟨⟨?_, ?_, ?_, ?_⟩, raised.1, d1, s2', by rw [d2], ?_, ?_, ?_⟩
      · rw [hr3]; exact d1
      · rw [hr3]; exact s2'
      · rw [hr3]; simp only; omega
      · rw [hr3]; exact ht
      · rw [← d2, hr3]
        rcases s4 with s4 | s4 | s4
        · exact Or.inl s4
        · exact absurd s4 hge
        · right; left
          rcases hcase with ⟨c1, c2, -, -⟩ | ⟨c1, -⟩ <;> unfold maxDegree at s4 <;> omega
      · rw [hr3]; exact Or.inl ht'
      · intro hd
        rw [decide_eq_false_iff_not, not_lt, hr3] at hd
        simp only at hd
        exfalso; nlinarith [htol, ht, ht']
  by_cases hreset : r1.isUnstable = true ∧ (fit r1.degree).2 > r1.adjustedTolerance
  · have hk := key ⟨env.tolerance, false, minDegree - 1, 0⟩ ((fit r1.degree).1, env.huge / 2) env.huge (by simp) le_rfl v4 (Or.inr ⟨by simp [minDegree], rfl, rfl, rfl⟩)
    have hx : x = computeBestNewhallApproximation env policy r oldest time dofs := rfl
    unfold computeBestNewhallApproximation at hx
    simp only [← hr1] at hx
    have hd : decide (r1.isUnstable = true ∧ (env.fit policy r1.degree dofs oldest time).2 > r1.adjustedTolerance) = true := decide_eq_true hreset
    rw [hd] at hx
    simp only [if_true] at hx
    rw [hx]
    exact hk
  · have hk := key r1 (fit r1.degree) ((fit r1.degree).2 + (fit r1.degree).2) w3 w4 w5 (Or.inl ⟨w1, w2, rfl, rfl⟩)
    have hx : x = computeBestNewhallApproximation env policy r oldest time dofs := rfl
    unfold computeBestNewhallApproximation at hx
    simp only [← hr1] at hx
    have hd : decide (r1.isUnstable = true ∧ (env.fit policy r1.degree dofs oldest time).2 > r1.adjustedTolerance) = false := decide_eq_false hreset
    rw [hd] at hx
    simp only [Bool.false_eq_true, if_false] at hx
    rw [hx]
    exact hk

end Degree

/-! ### Histories -/

theorem slice_of_calls {env : Env T L D P E} (h : 0 < env.step) {t0 : T} {points : ℕ → D} {policy : E} : ∀ (l : List (Call T D)) (s s' : Trajectory T L D P E) (n : ℕ),
    IsSlice env t0 points policy s 0 n → calls env s l = some s' → (∀ i p, (appended l)[i]? = some p → p.2 = points (n + 1 + i)) →
    IsSlice env t0 points policy s' 0 (n + (appended l).length) ∧ ∀ i p, (appended l)[i]? = some p → p.1 = timeAt env t0 (n + 1 + i)
  | [], s, s', n, hs, hc, hp => by
    simp only [calls, Option.some.injEq] at hc
    subst hc
    exact ⟨hs, by simp [appended]⟩
  | .evaluate t :: l, s, s', n, hs, hc, hp => by
    simp only [calls, call] at hc
    cases he : evaluate s t with
    | none => rw [he] at hc; simp at hc
    | some r =>
      rw [he] at hc
      simp only [Option.map_some, Option.bind_some] at hc
      obtain ⟨-, -, -, k, -, -, -, -, la, hla, hr⟩ := hs.evaluate_some h he
      rw [hr] at hc
      exact slice_of_calls h l _ s' n (hs.withAccessed hla) hc hp
  | .append t d :: l, s, s', n, hs, hc, hp => by
    simp only [calls, call] at hc
    cases he : append env s t d with
    | none => rw [he] at hc; simp at hc
    | some r =>
      have ht := hs.append_time he
      have hd : d = points (n + 1) := by simpa [appended] using hp 0 (t, d) rfl
      obtain ⟨s1, b, h1, h2, h3⟩ := hs.append
      rw [← ht, ← hd, he] at h1
      rw [he] at hc
      simp only [Option.some.injEq] at h1
      subst h1
      simp only [Option.map_some, Option.bind_some] at hc
      have ih := slice_of_calls h l s1 s' (n + 1) h2 hc (fun i p hi => by rw [hp (i + 1) p (by simpa [appended] using hi)]; congr 1; omega)
      constructor
      · have : n + (appended (Call.append t d :: l)).length = n + 1 + (appended l).length := by simp [appended]; omega
        rw [this]; exact ih.1
      · intro i p hi
        cases i with
        | zero => simp [appended] at hi; rw [← hi]; exact ht
        | succ i => rw [ih.2 i p (by simpa [appended] using hi)]; congr 1; omega

/-- What is known of a trajectory after a sequence of calls. -/
theorem of_calls {env : Env T L D P E} (h : 0 < env.step) {l : List (Call T D)} {s : Trajectory T L D P E} (hc : calls env (create env) l = some s) :
    appended l = [] ∧ s = create env ∨ ∃ t0 points n, (appended l).length = n + 1 ∧ (∀ i, i ≤ n → (appended l)[i]? = some (timeAt env t0 i, points i)) ∧
      IsSlice env t0 points env.defaultPolicy s 0 n := by
  cases l with
  | nil => simp only [calls, Option.some.injEq] at hc; exact Or.inl ⟨rfl, hc.symm⟩
  | cons c l =>
    cases c with
    | evaluate t =>
      simp [calls, call, evaluate, tMin, create] at hc
    | append t d =>
      right
      refine ⟨t, fun i => (((appended (Call.append t d :: l))[i]?).map Prod.snd).getD d, (appended l).length, by simp [appended], ?_⟩
      set points : ℕ → D := fun i => (((appended (Call.append t d :: l))[i]?).map Prod.snd).getD d with hpoints
      have hp0 : points 0 = d := by simp [hpoints, appended]
      obtain ⟨s0, h0, h1, -⟩ := slice_create (env := env) (t0 := t) (points := points) rfl
      rw [hp0] at h0
      simp only [calls, call, h0, Option.map_some, Option.bind_some] at hc
      have hpt : ∀ i p, (appended l)[i]? = some p → p.2 = points (0 + 1 + i) := by
        intro i p hi
        have : 0 + 1 + i = i + 1 := by omega
        simp [hpoints, appended, this, hi]
      have := slice_of_calls h l s0 s 0 h1 hc hpt
      refine ⟨?_, by rw [Nat.zero_add] at this; exact this.1⟩
      intro i hi
      cases i with
      | zero => rw [hp0, timeAt_zero]; simp [appended]
      | succ i =>
        have hi' : i < (appended l).length := by omega
        have hg := List.getElem?_eq_getElem hi'
        have e : 0 + 1 + i = i + 1 := by omega
        have a1 := this.2 i _ hg
        have a2 := hpt i _ hg
        rw [e] at a1 a2
        show (appended (Call.append t d :: l))[i + 1]? = _
        simp only [appended, List.getElem?_cons_succ, hg, Option.some.injEq]
        exact Prod.ext a1 a2

section

variable [IsStrictOrderedRing L]

theorem regulatorAt_valid {env : Env T L D P E} (hs : env.Sane) (t0 : T) (points : ℕ → D) (policy : E) (k : ℕ) : (regulatorAt env t0 points policy k).Valid env := by
  induction k with
  | zero => exact ⟨by simp [regulatorAt, create, minDegree], by simp [regulatorAt, create, minDegree], by simp [regulatorAt, create], le_rfl⟩
  | succ k ih => exact (computeBestNewhallApproximation_spec hs ih _ _ _).1

/-- `Append` succeeds if and only if the points are equally spaced. -/
theorem C67_append {env : Env T L D P E} (hs : env.Sane) {l : List (Call T D)} {s : Trajectory T L D P E} (hc : calls env (create env) l = some s) (t : T) (d : D) :
    (append env s t d).isSome ↔ ∀ last, (appended l).getLast? = some last → t = last.1 + env.step := by
  rcases of_calls hs.step_pos hc with ⟨h1, h2⟩ | ⟨t0, points, n, h1, h2, h3⟩
  · rw [h1, h2]; simp [append, create, appendChecked]
  · have hlast : (appended l).getLast? = some (timeAt env t0 n, points n) := by rw [List.getLast?_eq_getElem?, h1]; exact h2 n le_rfl
    rw [hlast]
    constructor
    · intro h last hl
      simp only [Option.some.injEq] at hl
      subst hl
      obtain ⟨r, hr⟩ := Option.isSome_iff_exists.1 h
      rw [h3.append_time hr, timeAt_succ]
    · intro h
      have ht := h _ rfl
      rw [ht]
      -- The point is arbitrary.
      set points' : ℕ → D := fun i => if i = n + 1 then d else points i with hp'
      have hw : ∀ k, k < n / 8 → window points' k = window points k := by
        intro k hk
        unfold window
        apply List.map_congr_left
        intro i hi
        simp only [List.mem_range'_1] at hi
        simp only [hp']
        rw [if_neg (by omega)]
      have hreg : ∀ k, k ≤ n / 8 → regulatorAt env t0 points' env.defaultPolicy k = regulatorAt env t0 points env.defaultPolicy k := by
        intro k hk
        induction k with
        | zero => rfl
        | succ k ih => rw [regulatorAt, regulatorAt, ih (by omega), result, result, hw k (by omega)]
      have h3' : IsSlice env t0 points' env.defaultPolicy s 0 n := by
        refine ⟨h3.le, h3.policy_eq, ?_, ?_, h3.first, ?_, h3.accessed⟩
        · rw [h3.regulator, hreg _ le_rfl]
        · rw [h3.polynomials]
          apply List.map_congr_left
          intro k hk
          simp only [List.mem_range'_1] at hk
          unfold polynomialAt result
          rw [hreg k (by omega), hw k (by omega)]
        · rw [h3.last]
          apply List.map_congr_left
          intro i hi
          simp only [List.mem_range'_1] at hi
          simp only [hp']
          rw [if_neg (by omega)]
      obtain ⟨s1, b, e1, -, -⟩ := h3'.append
      rw [← timeAt_succ] at e1
      have : points' (n + 1) = d := by simp [hp']
      rw [this] at e1
      rw [e1]; rfl

/-- The times of a trajectory are those of the points, up to the last one that is a multiple of eight; it is empty if and only if there are at most eight points. -/
theorem C67_bounds {env : Env T L D P E} (hs : env.Sane) {l : List (Call T D)} {s : Trajectory T L D P E} (hc : calls env (create env) l = some s) :
    EquallySpaced env.step (appended l) ∧
    tMin s = (if (appended l).length ≤ 8 then none else ((appended l)[0]?).map Prod.fst) ∧
    tMax s = (if (appended l).length ≤ 8 then none else ((appended l)[8 * (((appended l).length - 1) / 8)]?).map Prod.fst) := by
  rcases of_calls hs.step_pos hc with ⟨h1, h2⟩ | ⟨t0, points, n, h1, h2, h3⟩
  · rw [h1, h2]; exact ⟨by intro i p q hp; simp at hp, rfl, rfl⟩
  · refine ⟨?_, ?_, ?_⟩
    · intro i p q hp hq
      have hi : i + 1 < n + 1 := by
        rw [← h1]
        by_contra hge
        rw [List.getElem?_eq_none (not_lt.1 hge)] at hq
        cases hq
      rw [h2 i (by omega), Option.some.injEq] at hp
      rw [h2 (i + 1) (by omega), Option.some.injEq] at hq
      subst hp; subst hq
      exact (timeAt_succ i).symm
    · rw [h3.tMin, h1]
      by_cases h8 : n + 1 ≤ 8
      · rw [if_pos h8, if_neg (by omega)]
      · rw [if_neg h8, if_pos (by omega), h2 0 (by omega)]; rfl
    · rw [h3.tMax, h1]
      by_cases h8 : n + 1 ≤ 8
      · rw [if_pos h8, if_neg (by omega)]
      · rw [if_neg h8, if_pos (by omega), Nat.add_sub_cancel, h2 _ (by omega)]; rfl

theorem isApproximation_polynomialAt {env : Env T L D P E} (hs : env.Sane) {t0 : T} {points : ℕ → D} {l : List (T × D)} {n : ℕ} (h1 : l.length = n + 1) (h2 : ∀ i, i ≤ n → l[i]? = some (timeAt env t0 i, points i))
    {k : ℕ} (hk : k < n / 8) : IsApproximation env l k (polynomialAt env t0 points env.defaultPolicy k) := by
  obtain ⟨-, degree, hd, hd', hp, -⟩ := computeBestNewhallApproximation_spec hs (regulatorAt_valid hs t0 points env.defaultPolicy k) (policy := env.defaultPolicy) (timeAt env t0 (8 * k)) (timeAt env t0 (8 * (k + 1)))
    (window points k)
  refine ⟨degree, _, _, hd, hd', h2 (8 * k) (by omega), h2 (8 * k + 8) (by omega), ?_⟩
  have hw : ((l.drop (8 * k)).take 9).map Prod.snd = window points k := by
    apply List.ext_getElem?
    intro i
    unfold window
    by_cases hi : i < 9
    · rw [List.getElem?_map, List.getElem?_take_of_lt hi, List.getElem?_drop, h2 _ (by omega), List.getElem?_map, List.getElem?_range' hi]
      simp
    · rw [List.getElem?_eq_none, List.getElem?_eq_none]
      · simp; omega
      · simp; omega
  rw [hw]
  exact hp

/-- Evaluation succeeds if and only if the time is in the bounds of the trajectory. -/
theorem C67_evaluate_bounds {env : Env T L D P E} (hs : env.Sane) {l : List (Call T D)} {s : Trajectory T L D P E} (hc : calls env (create env) l = some s) (t : T) :
    (evaluate s t).isSome ↔ ∃ a b, tMin s = some a ∧ tMax s = some b ∧ a ≤ t ∧ t ≤ b := by
  rcases of_calls hs.step_pos hc with ⟨h1, h2⟩ | ⟨t0, points, n, h1, h2, h3⟩
  · rw [h2]; simp [evaluate, tMin, tMax, create]
  · rw [h3.tMin, h3.tMax]
    constructor
    · intro h
      obtain ⟨r, hr⟩ := Option.isSome_iff_exists.1 h
      obtain ⟨e1, e2, e3, -⟩ := h3.evaluate_some hs.step_pos hr
      rw [if_pos e1, if_pos e1]
      exact ⟨_, _, rfl, rfl, e2, e3⟩
    · rintro ⟨a, b, ha, hb, hat, hbt⟩
      by_cases hn : 0 < n / 8
      · rw [if_pos hn, Option.some.injEq] at ha hb
        subst ha; subst hb
        have hb2 : t ≤ timeAt env t0 (8 * (0 + (n / 8 - 1) + 1)) := by
          rw [show 0 + (n / 8 - 1) + 1 = n / 8 from by omega]; exact hbt
        obtain ⟨k, hk, hk', hcov⟩ := exists_covers 0 (n / 8 - 1) hat hb2
        obtain ⟨la, -, hf⟩ := h3.evaluate hs.step_pos hk (by omega) hcov
        rw [hf]; rfl
      · rw [if_neg hn] at ha; cases ha

/-- An evaluation uses an approximation, of admissible degree, of nine consecutive points around the time of the evaluation. -/
theorem C67_evaluate {env : Env T L D P E} (hs : env.Sane) {l : List (Call T D)} {s : Trajectory T L D P E} (hc : calls env (create env) l = some s) {t : T} {p : P} {s' : Trajectory T L D P E} (he : evaluate s t = some (p, s')) :
    ∃ k first last, (appended l)[8 * k]? = some first ∧ (appended l)[8 * k + 8]? = some last ∧ first.1 ≤ t ∧ t ≤ last.1 ∧ (first.1 = t → k = 0) ∧ IsApproximation env (appended l) k p := by
  rcases of_calls hs.step_pos hc with ⟨h1, h2⟩ | ⟨t0, points, n, h1, h2, h3⟩
  · rw [h2] at he; simp [evaluate, tMin, create] at he
  · obtain ⟨-, -, -, k, -, hk, hcov, hp, -⟩ := h3.evaluate_some hs.step_pos he
    refine ⟨k, _, _, h2 (8 * k) (by omega), h2 (8 * k + 8) (by omega), ?_, hcov.2, ?_, ?_⟩
    · rcases hcov.1 with h | ⟨-, h⟩
      · exact h.le
      · exact h.le
    · intro h
      rcases hcov.1 with h' | ⟨h', -⟩
      · exact absurd h h'.ne
      · exact h'
    · simp only at hp
      rw [hp]
      exact isApproximation_polynomialAt hs h1 h2 hk

/-- The evaluations don't matter, and the points that come later don't either: two histories one of which appends the points of the other one, and possibly more, evaluate the same polynomial wherever they can both be evaluated. -/
theorem C67_deterministic {env : Env T L D P E} (hs : env.Sane) {l l' : List (Call T D)} {s s' : Trajectory T L D P E} (hc : calls env (create env) l = some s) (hc' : calls env (create env) l' = some s')
    (hprefix : appended l <+: appended l') {t : T} {p p' : P} {r r' : Trajectory T L D P E} (he : evaluate s t = some (p, r)) (he' : evaluate s' t = some (p', r')) : p = p' := by
  rcases of_calls hs.step_pos hc with ⟨h1, h2⟩ | ⟨t0, points, n, h1, h2, h3⟩
  · rw [h2] at he; simp [evaluate, tMin, create] at he
  rcases of_calls hs.step_pos hc' with ⟨h1', h2'⟩ | ⟨t0', points', n', h1', h2', h3'⟩
  · rw [h2'] at he'; simp [evaluate, tMin, create] at he'
  obtain ⟨x, hx⟩ := hprefix
  have hle : n ≤ n' := by
    have := congrArg List.length hx
    rw [List.length_append, h1, h1'] at this; omega
  have hget : ∀ i, i ≤ n → (timeAt env t0 i, points i) = (timeAt env t0' i, points' i) := by
    intro i hi
    have e1 := h2 i hi
    have e2 := h2' i (hi.trans hle)
    rw [← hx, List.getElem?_append_left (by rw [h1]; omega), e1] at e2
    simpa using e2
  have ht0 : t0 = t0' := by
    have := congrArg Prod.fst (hget 0 (by omega))
    simpa [timeAt] using this
  subst ht0
  have hpt : ∀ i, i ≤ n → points i = points' i := fun i hi => congrArg Prod.snd (hget i hi)
  have hw : ∀ k, k < n / 8 → window points k = window points' k := by
    intro k hk
    unfold window
    apply List.map_congr_left
    intro i hi
    simp only [List.mem_range'_1] at hi
    exact hpt i (by omega)
  have hreg : ∀ k, k ≤ n / 8 → regulatorAt env t0 points env.defaultPolicy k = regulatorAt env t0 points' env.defaultPolicy k := by
    intro k hk
    induction k with
    | zero => rfl
    | succ k ih => rw [regulatorAt, regulatorAt, ih (by omega), result, result, hw k (by omega)]
  have hm := timeAt_strictMono (t0 := t0) hs.step_pos
  obtain ⟨-, -, -, k, -, hk, hcov, hp, -⟩ := h3.evaluate_some hs.step_pos he
  obtain ⟨-, -, -, k', -, hk', hcov', hp', -⟩ := h3'.evaluate_some hs.step_pos he'
  have hkk : k = k' := by
    rcases lt_trichotomy k k' with h | h | h
    · exfalso
      rcases hcov'.1 with h' | ⟨h', -⟩
      · exact absurd (h'.trans_le hcov.2) (not_lt.2 (hm.monotone (by omega)))
      · omega
    · exact h
    · exfalso
      rcases hcov.1 with h' | ⟨h', -⟩
      · exact absurd (h'.trans_le hcov'.2) (not_lt.2 (hm.monotone (by omega)))
      · omega
  subst hkk
  simp only at hp hp'
  rw [hp, hp']
  unfold polynomialAt result
  rw [hreg k (by omega), hw k hk]

/-- The degree is between 3 and 17, the adjusted tolerance is at least the tolerance, and the age is at most 100. -/
theorem C67_degree {env : Env T L D P E} (hs : env.Sane) {l : List (Call T D)} {s : Trajectory T L D P E} (hc : calls env (create env) l = some s) :
    3 ≤ s.regulator.degree ∧ s.regulator.degree ≤ 17 ∧ s.regulator.degreeAge ≤ 100 ∧ env.tolerance ≤ s.regulator.adjustedTolerance := by
  rcases of_calls hs.step_pos hc with ⟨h1, h2⟩ | ⟨t0, points, n, h1, h2, h3⟩
  · rw [h2]; exact ⟨by simp [create, minDegree], by simp [create, minDegree], by simp [create], le_rfl⟩
  · rw [h3.regulator]; exact regulatorAt_valid hs _ _ _ _

/-- What is known of the append that completes a group of nine points. -/
theorem append_completes {env : Env T L D P E} (hs : env.Sane) {l : List (Call T D)} {s s' : Trajectory T L D P E} (hc : calls env (create env) l = some s) {t : T} {d : D} {b : Bool}
    (ha : append env s t d = some (s', b)) :
    ((appended l).length % 8 ≠ 0 ∨ appended l = []) ∧ b = true ∨
    (appended l).length % 8 = 0 ∧ ∃ first, (appended l)[(appended l).length - 8]? = some first ∧
      let x := computeBestNewhallApproximation env env.defaultPolicy s.regulator first.1 t (((appended l).drop ((appended l).length - 8)).map Prod.snd ++ [d])
      s'.regulator = x.1 ∧ s'.polynomials = s.polynomials ++ [(t, x.2.1)] ∧ b = x.2.2 := by
  rcases of_calls hs.step_pos hc with ⟨h1, h2⟩ | ⟨t0, points, n, h1, h2, h3⟩
  · left
    refine ⟨Or.inr h1, ?_⟩
    rw [h2] at ha
    simp [append, create, appendChecked] at ha
    exact ha.2
  · have ht := h3.append_time ha
    unfold ContinuousTrajectory.append at ha
    rw [h3.first, h3.getLast] at ha
    simp only at ha
    rw [if_pos (by rw [ht, timeAt_succ])] at ha
    unfold appendChecked at ha
    have hlen : s.lastPoints.length = n % 8 + 1 := by rw [h3.last]; simp
    have hl := h3.last
    rw [List.range'_succ, List.map_cons] at hl
    rw [hl] at ha
    simp only at ha
    rw [← hl] at ha
    rw [if_neg (by rw [hlen]; unfold divisions; omega)] at ha
    by_cases h8 : s.lastPoints.length = divisions
    · right
      have hn : n % 8 = 7 := by rw [hlen] at h8; unfold divisions at h8; omega
      rw [if_pos h8] at ha
      have h88 : n + 1 - 8 = 8 * (n / 8) := by omega
      refine ⟨by omega, (timeAt env t0 (8 * (n / 8)), points (8 * (n / 8))), by rw [h1, h88]; exact h2 _ (by omega), ?_⟩
      have hw : ((appended l).drop ((appended l).length - 8)).map Prod.snd = s.lastPoints.map Prod.snd := by
        congr 1
        rw [h3.last, h1, h88]
        apply List.ext_getElem?
        intro i
        by_cases hi : i < 8
        · rw [List.getElem?_drop, h2 _ (by omega), List.getElem?_map, List.getElem?_range' (by omega)]
          simp
        · rw [List.getElem?_eq_none, List.getElem?_eq_none]
          · simp; omega
          · simp; omega
      rw [hw]
      rw [h3.policy_eq] at ha
      simp only [Option.some.injEq, Prod.mk.injEq] at ha
      obtain ⟨hs', hb⟩ := ha
      rw [← hs', ← hb]
      exact ⟨rfl, rfl, rfl⟩
    · left
      have hn : n % 8 ≠ 7 := by rw [hlen] at h8; unfold divisions at h8; omega
      rw [if_neg h8] at ha
      simp only [Option.some.injEq, Prod.mk.injEq] at ha
      exact ⟨Or.inl (by omega), ha.2.symm⟩

/-- The error estimates, by degree, for the approximation of the last eight points of a sequence, and of a ninth one. -/
def errorEstimate (env : Env T L D P E) (points : List (T × D)) (first : T × D) (t : T) (d : D) (degree : ℕ) : L :=
  (env.fit env.defaultPolicy degree ((points.drop (points.length - 8)).map Prod.snd ++ [d]) first.1 t).2

/-- The status is OK, unless one of the error estimates is one million times the tolerance. -/
theorem C67_status {env : Env T L D P E} (hs : env.Sane) {l : List (Call T D)} {s s' : Trajectory T L D P E} (hc : calls env (create env) l = some s) {t : T} {d : D} (ha : append env s t d = some (s', false)) :
    8 ≤ (appended l).length ∧ ∃ first degree, (appended l)[(appended l).length - 8]? = some first ∧ 3 ≤ degree ∧ degree ≤ 17 ∧ 1000000 * env.tolerance ≤ errorEstimate env (appended l) first t d degree := by
  rcases append_completes hs hc ha with ⟨-, h⟩ | ⟨h8, first, hf, hx⟩
  · cases h
  · have hne : (appended l).length ≠ 0 := by
      intro h0
      rw [h0, List.eq_nil_of_length_eq_zero h0] at hf
      simp at hf
    refine ⟨by omega, first, ?_⟩
    simp only at hx
    obtain ⟨-, degree, -, -, -, -, -, hst⟩ := computeBestNewhallApproximation_spec hs (policy := env.defaultPolicy) (C67_degree hs hc) first.1 t
      (((appended l).drop ((appended l).length - 8)).map Prod.snd ++ [d])
    obtain ⟨degree', e1, e2, e3⟩ := hst hx.2.2.symm
    exact ⟨degree', hf, e1, e2, e3⟩

/-- The error estimate of the approximation is at most the adjusted tolerance, unless its degree is the largest one or its error estimate is not smaller than that of the preceding degree.  The adjusted tolerance only
increases to the error estimate of some degree. -/
theorem C67_error {env : Env T L D P E} (hs : env.Sane) {l : List (Call T D)} {s s' : Trajectory T L D P E} (hc : calls env (create env) l = some s) {t : T} {d : D} {b : Bool} (ha : append env s t d = some (s', b))
    (hne : appended l ≠ []) (h8 : (appended l).length % 8 = 0) :
    tMax s' = some t ∧ ∃ first degree p s'', (appended l)[(appended l).length - 8]? = some first ∧ 3 ≤ degree ∧ degree ≤ 17 ∧ evaluate s' t = some (p, s'') ∧
      p = (env.fit env.defaultPolicy degree (((appended l).drop ((appended l).length - 8)).map Prod.snd ++ [d]) first.1 t).1 ∧
      (errorEstimate env (appended l) first t d degree ≤ s'.regulator.adjustedTolerance ∨ degree = 17 ∨
        3 < degree ∧ errorEstimate env (appended l) first t d (degree - 1) ≤ errorEstimate env (appended l) first t d degree) ∧
      (s'.regulator.adjustedTolerance ≤ s.regulator.adjustedTolerance ∨
        ∃ degree', 3 ≤ degree' ∧ degree' ≤ 17 ∧ s'.regulator.adjustedTolerance = errorEstimate env (appended l) first t d degree') := by
  rcases append_completes hs hc ha with ⟨h | h, -⟩ | ⟨-, first, hf, hx⟩
  · exact absurd h8 h
  · exact absurd h hne
  · simp only at hx
    obtain ⟨hr, hp, -⟩ := hx
    have htm : tMax s' = some t := by unfold tMax; rw [hp]; simp
    refine ⟨htm, first, ?_⟩
    obtain ⟨-, degree, d1, d2, d3, d4, d5, -⟩ := computeBestNewhallApproximation_spec hs (policy := env.defaultPolicy) (C67_degree hs hc) first.1 t
      (((appended l).drop ((appended l).length - 8)).map Prod.snd ++ [d])
    -- The evaluation at the end of the trajectory.
    have hc' : calls env (create env) (l ++ [Call.append t d]) = some s' := by
      have key : ∀ (l : List (Call T D)) (s0 : Trajectory T L D P E), calls env s0 l = some s → calls env s0 (l ++ [Call.append t d]) = some s' := by
        intro l
        induction l with
        | nil => intro s0 h0; simp only [calls, Option.some.injEq] at h0; subst h0; simp [calls, call, ha]
        | cons c l ih =>
          intro s0 h0
          simp only [calls, List.cons_append] at h0 ⊢
          cases hcall : call env s0 c with
          | none => rw [hcall] at h0; simp at h0
          | some s1 => rw [hcall] at h0; simp only [Option.bind_some] at h0 ⊢; exact ih s1 h0
      exact key l _ hc
    have hev : ∃ s'', evaluate s' t = some ((computeBestNewhallApproximation env env.defaultPolicy s.regulator first.1 t (((appended l).drop ((appended l).length - 8)).map Prod.snd ++ [d])).2.1, s'') := by
      rcases of_calls hs.step_pos hc' with ⟨h1, h2⟩ | ⟨t0, points, n, h1, h2, h3⟩
      · rw [h2] at hp; simp [create] at hp
      · have hlen := h3.length
        rw [hp] at hlen
        simp only [List.length_append, List.length_singleton] at hlen
        have hlast := h3.lastPolynomial (by omega)
        have htm' := h3.tMax
        rw [htm, if_pos (by omega), Option.some.injEq] at htm'
        have hmono := timeAt_strictMono (t0 := t0) hs.step_pos
        obtain ⟨la, -, he⟩ := h3.evaluate (k := n / 8 - 1) (t := t) hs.step_pos (by omega) (by omega)
          ⟨Or.inl (by rw [htm']; exact hmono (by omega)), by rw [htm', show n / 8 - 1 + 1 = n / 8 from by omega]⟩
        rw [he]
        rw [hp, List.getLast?_append] at hlast
        simp only [List.getLast?_singleton, Option.some_or, Option.some.injEq, Prod.mk.injEq] at hlast
        rw [← hlast.2]
        exact ⟨_, rfl⟩
    obtain ⟨s'', he⟩ := hev
    refine ⟨degree, _, s'', hf, d1, d2, he, d3, ?_, ?_⟩
    · rw [hr]; exact d4
    · rw [hr]; exact d5

end

/-! ### Examples -/

namespace Example

/-- The polynomials are represented by their degree and their first point.  The error estimate is that of a smooth function. -/
def env : Env ℤ ℚ ℕ (ℕ × ℕ) Unit where
  step := 10
  tolerance := 1
  fit := fun _ degree points _ _ => ((degree, points.headD 0), if degree = 3 then 4 else if degree = 4 then 2 else if degree = 5 then 1 / 2 else 0)
  huge := 1000000000
  canUseHardwareFMA := true
  alwaysEstrin := ()
  alwaysEstrinWithoutFMA := ()

theorem sane : env.Sane := by
  refine ⟨by decide, by decide, by decide +kernel, ?_, ?_⟩ <;> intro e n l a b <;> simp only [env] <;> split_ifs <;> norm_num

/-- Eighteen points, and an evaluation. -/
def history : List (Call ℤ ℕ) := (List.range 17).map (fun i : ℕ => .append (10 * (i : ℤ)) i) ++ [.evaluate 80, .append 170 17]

example : ((calls env (create env) history).map fun s => (tMin s, tMax s, s.regulator.degree)) = some (some 0, some 160, 5) := by decide +kernel
example : ((calls env (create env) history).bind fun s => (evaluate s 80).map Prod.fst) = some (5, 0) := by decide +kernel
example : ((calls env (create env) history).bind fun s => (evaluate s 81).map Prod.fst) = some (5, 8) := by decide +kernel
example : ((calls env (create env) history).bind fun s => (append env s 180 18).map Prod.snd) = some true := by decide +kernel
example : ((calls env (create env) history).bind fun s => (append env s 190 18).map Prod.snd) = none := by decide +kernel

/-- The error estimate of the degree 4 is larger than that of the degree 3. -/
def envUnstable : Env ℤ ℚ ℕ (ℕ × ℕ) Unit := { env with fit := fun _ degree points _ _ => ((degree, points.headD 0), if degree = 3 then 2 else 5) }

theorem saneUnstable : envUnstable.Sane := by
  refine ⟨by decide, by decide, by decide +kernel, ?_, ?_⟩ <;> intro e n l a b <;> simp only [envUnstable] <;> split_ifs <;> norm_num [env]

/-- The error estimates are huge. -/
def envApocalypse : Env ℤ ℚ ℕ (ℕ × ℕ) Unit := { env with fit := fun _ degree points _ _ => ((degree, points.headD 0), 2000000) }

theorem saneApocalypse : envApocalypse.Sane := by
  refine ⟨by decide, by decide, by decide +kernel, ?_, ?_⟩ <;> intro e n l a b <;> simp only [envApocalypse] <;> norm_num [env]

example : ((calls envApocalypse (create envApocalypse) ((List.range 8).map (fun i : ℕ => .append (10 * (i : ℤ)) i))).bind fun s => (append envApocalypse s 80 8).map Prod.snd) = some false := by decide +kernel

/-- The points of `C67_error_counterexample`. -/
def ninePoints : List (Call ℤ ℕ) := (List.range 9).map fun i : ℕ => .append (10 * (i : ℤ)) i

end Example

/-- The error estimate of the approximation may exceed the adjusted tolerance although its degree is not the largest one: when the error estimate increases with the degree, the code goes back to the preceding degree and
adjusts the tolerance to its error estimate, but it keeps the approximation of the higher degree. -/
theorem C67_error_counterexample :
    ((calls Example.envUnstable (create Example.envUnstable) Example.ninePoints).bind fun s => (evaluate s 40).map fun r => (r.1, s.regulator.degree, s.regulator.adjustedTolerance)) = some ((4, 0), 3, 2) ∧
      Example.envUnstable.fit () 4 [0, 1, 2, 3, 4, 5, 6, 7, 8] 0 80 = ((4, 0), 5) ∧ Example.envUnstable.fit () 3 [0, 1, 2, 3, 4, 5, 6, 7, 8] 0 80 = ((3, 0), 2) := by
  decide +kernel

/-- A trajectory whose first checkpoint is taken when there are already polynomials, saved when it has a later checkpoint, and read at the later checkpoint, has no polynomials between the checkpoints: it has lost data in
the middle, and once it has been extended it silently evaluates a wrong polynomial there. -/
theorem C67_gap_counterexample :
    (do
      let s1 ← calls Example.env (create Example.env) ((List.range 10).map fun i : ℕ => .append (10 * (i : ℤ)) i)
      let s2 ← writeToCheckpoint s1 90
      let s3 ← calls Example.env s2 ((List.range' 10 10).map fun i : ℕ => .append (10 * (i : ℤ)) i)
      let s4 ← writeToCheckpoint s3 190
      let m ← writeToMessage s4
      let s5 ← readFromMessage Example.env 190 m
      let s6 ← calls Example.env s5 ((List.range' 20 6).map fun i : ℕ => .append (10 * (i : ℤ)) i)
      -- The evaluation at 100 before saving uses the approximation of the points 8 to 16, after reading and extending that of the points 16 to 24.
      let before ← evaluate s4 100
      let after ← evaluate s6 100
      pure (before.1, after.1)) = some ((5, 8), (5, 16)) := by
  decide +kernel

end Principia.ContinuousTrajectory
