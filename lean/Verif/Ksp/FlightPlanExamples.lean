import Verif.Ksp.FlightPlanProps

set_option linter.unusedSimpArgs false
set_option linter.unusedVariables false

/-!
Examples and counterexamples for flight plans.
-/

namespace Principia.FlightPlan

open Spec

/-- An engine whose burns are given by their initial time and duration, and that consumes a unit of mass per unit of time. -/
def exEngine : Engine Int Int (Int × Int) := ⟨fun _ b => b.1, fun _ b => b.1 + b.2, fun m b => m - b.2, fun b => decide (b.2 < 0), fun _ => true⟩

/-- The plans for `exEngine`. -/
abbrev ExPlan := Plan Int Int (Int × Int) Int

/-- The integrations succeed, in one step. -/
def okEnv : Env Int Int (Int × Int) Int := ⟨fun _ t => t, fun _ _ q t => ([(t, q.2 + 1)], .ok)⟩

/-- The integration of the `k`th segment fails. -/
def failAt (k : Nat) (s : Status) : Env Int Int (Int × Int) Int := ⟨fun _ t => t, fun i _ q t => if i = k then ([], s) else ([(t, q.2 + 1)], .ok)⟩

/-- The integrations succeed, with another trajectory; that of the `k`th segment fails. -/
def otherFailAt (k : Nat) (s : Status) : Env Int Int (Int × Int) Int := ⟨fun _ t => t, fun i _ q t => if i = k then ([], s) else ([(t, q.2 + 7)], .ok)⟩

theorem okEnv_integrator : Integrator okEnv :=
  ⟨fun i a q t h => by simp [okEnv, h], fun i a q t h => by simp [okEnv], fun i a q t h _ => by simp [okEnv]⟩

theorem failAt_integrator (k : Nat) (s : Status) (h1 : s ≠ .ok) (h2 : s ≠ .outOfRange) : Integrator (failAt k s) := by
  refine ⟨fun i a q t h => ?_, fun i a q t h => ?_, fun i a q t h hs => ?_⟩ <;> simp only [failAt] at * <;> split <;> simp_all

theorem otherFailAt_integrator (k : Nat) (s : Status) (h1 : s ≠ .ok) (h2 : s ≠ .outOfRange) : Integrator (otherFailAt k s) := by
  refine ⟨fun i a q t h => ?_, fun i a q t h => ?_, fun i a q t h hs => ?_⟩ <;> simp only [otherFailAt] at * <;> split <;> simp_all

/-- A plan without manœuvres. -/
def plan₀ : ExPlan := (make exEngine okEnv 100 0 0 50).get (by decide +kernel)

/-- The insertion of a burn. -/
def inserted₁ : Status × ExPlan := (insert exEngine okEnv (10, 5) 0 plan₀).get (by decide +kernel)

/-- The insertion of another burn. -/
def inserted₂ : Status × ExPlan := (insert exEngine okEnv (20, 5) 1 inserted₁.2).get (by decide +kernel)

/-- The insertion of the same burn, with a failure of its integration. -/
def failed₂ : Status × ExPlan := (insert exEngine (failAt 4 .deadlineExceeded) (20, 5) 1 inserted₁.2).get (by decide +kernel)

theorem plan₀_eq : make exEngine okEnv 100 0 0 50 = some plan₀ := (Option.some_get _).symm

theorem inserted₁_eq : insert exEngine okEnv (10, 5) 0 plan₀ = some inserted₁ := (Option.some_get _).symm

theorem inserted₂_eq : insert exEngine okEnv (20, 5) 1 inserted₁.2 = some inserted₂ := (Option.some_get _).symm

theorem failed₂_eq : insert exEngine (failAt 4 .deadlineExceeded) (20, 5) 1 inserted₁.2 = some failed₂ := (Option.some_get _).symm

theorem plan₀_reachable (c : Bool) : Reachable exEngine c plan₀ :=
  .make (mass := 100) (t := 0) (x := 0) (desired := 50) okEnv_integrator plan₀_eq

theorem inserted₁_reachable (c : Bool) : Reachable exEngine c inserted₁.2 :=
  .insert (s := inserted₁.1) (burn := (10, 5)) (i := 0) (plan₀_reachable c) okEnv_integrator inserted₁_eq

theorem inserted₂_reachable (c : Bool) : Reachable exEngine c inserted₂.2 :=
  .insert (s := inserted₂.1) (burn := (20, 5)) (i := 1) (inserted₁_reachable c) okEnv_integrator inserted₂_eq

theorem failed₂_reachable (c : Bool) : Reachable exEngine c failed₂.2 :=
  .insert (s := failed₂.1) (burn := (20, 5)) (i := 1) (inserted₁_reachable c) (failAt_integrator 4 .deadlineExceeded (by simp) (by simp))
    failed₂_eq

/-- Two manœuvres, five segments. -/
example : inserted₂.1 = .ok ∧ inserted₂.2.segments =
    [[(0, 0), (10, 1)], [(10, 1), (15, 2)], [(15, 2), (20, 3)], [(20, 3), (25, 4)], [(25, 4), (50, 5)]] ∧
      inserted₂.2.manoeuvres = [⟨100, (10, 5), some 1⟩, ⟨95, (20, 5), some 3⟩] := by decide +kernel

/-- Two manœuvres, the burn of the second one fails. -/
example : Reachable exEngine false failed₂.2 ∧ failed₂.1 = .deadlineExceeded ∧ failed₂.2.anomalous = 2 ∧ failed₂.2.segments =
    [[(0, 0), (10, 1)], [(10, 1), (15, 2)], [(15, 2), (20, 3)], [(20, 3)], [(20, 3)]] := ⟨failed₂_reachable _, by decide +kernel⟩

/-- The hypotheses of `C32_insert` and `C32_replace` hold for these plans. -/
example : massBefore exEngine inserted₂.2 1 = some 95 ∧ coastStart exEngine inserted₂.2 1 = some 15 ∧ coastEnd exEngine inserted₂.2 1 = some 20 ∧
    insert exEngine okEnv (16, 4) 1 inserted₂.2 = some (.outOfRange, inserted₂.2) ∧
    (insert exEngine okEnv (16, 3) 1 inserted₂.2).map (fun r => r.1) = some .ok ∧
    replace exEngine okEnv (16, 4) 0 inserted₂.2 = some (.outOfRange, inserted₂.2) ∧
    (replace exEngine okEnv (16, 40) 1 inserted₂.2).map (fun r => (r.1, r.2.desiredFinalTime)) = some (.ok, 56) ∧
    setDesiredFinalTime exEngine okEnv 24 inserted₂.2 = some (.outOfRange, inserted₂.2) := by decide +kernel

/-- A failure to reach the end of the burn may be retried. -/
example : (avoidDeadline exEngine okEnv failed₂.2).map (fun r => (r.1, r.2.segments)) = some (.ok, inserted₂.2.segments) := by decide +kernel

theorem inserted₂_edited : Edited exEngine inserted₂.2 :=
  .insert (s := inserted₂.1) (burn := (20, 5)) (i := 1) (.insert (s := inserted₁.1) (burn := (10, 5)) (i := 0)
    (.make (mass := 100) (t := 0) (x := 0) (desired := 50) okEnv_integrator plan₀_eq) okEnv_integrator inserted₁_eq)
    okEnv_integrator inserted₂_eq

example : MassChain exEngine 100 inserted₂.2.manoeuvres := C33_mass_chain_partial exEngine _ inserted₂_edited

/-- The removal of the first manœuvre. -/
def removed : Status × ExPlan := (remove exEngine okEnv 0 inserted₂.2).get (by decide +kernel)

theorem removed_eq : remove exEngine okEnv 0 inserted₂.2 = some removed := (Option.some_get _).symm

/-- **C33** doesn't hold for `Remove`: the mass of the manœuvre that follows the one that was removed is not updated.  Here the vessel has a mass of 100, but
the only manœuvre starts with a mass of 95. -/
theorem C33_remove_counterexample : ∃ (E : Engine Int Int (Int × Int)) (p : ExPlan), Reachable E false p ∧ p.status = .ok ∧
    p.initialMass = 100 ∧ p.manoeuvres.map (fun m => m.mass) = [95] ∧ ¬ MassChain E p.initialMass p.manoeuvres := by
  refine ⟨exEngine, removed.2, ?_, by decide +kernel, by decide +kernel, by decide +kernel, ?_⟩
  · exact .remove (s := removed.1) (i := 0) (inserted₂_reachable _) okEnv_integrator removed_eq
  · have : removed.2.manoeuvres = [⟨95, (20, 5), some 1⟩] := by decide +kernel
    rw [this]
    intro h
    have := h.1
    have h2 : removed.2.initialMass = 100 := by decide +kernel
    rw [h2] at this
    exact absurd this (by decide)

/-- The copy of the plan with a failure. -/
def failedCopy : ExPlan := (copy failed₂.2).get (by decide +kernel)

/-- **C34** doesn't hold for the status of a plan that has an anomaly: it is lost.  As a consequence, the integrations that exceeded their deadline are
retried for the original, but never for the copy. -/
theorem C34_status_counterexample : ∃ (E : Engine Int Int (Int × Int)) (p p' : ExPlan), Reachable E false p ∧ copy p = some p' ∧
    p.status = .deadlineExceeded ∧ p'.status = .ok ∧ p'.anomalous = 2 ∧ (∃ env, Integrator env ∧
      (avoidDeadline E env p).map (fun r => r.2.anomalous) = some 0) ∧ ∀ env, avoidDeadline E env p' = some (.ok, p') := by
  have hs : failedCopy.status = .ok := by decide +kernel
  refine ⟨exEngine, failed₂.2, failedCopy, failed₂_reachable _, (Option.some_get _).symm, by decide +kernel, hs, by decide +kernel,
    ⟨okEnv, okEnv_integrator, by decide +kernel⟩, fun env => ?_⟩
  unfold avoidDeadline
  rw [if_pos (Or.inr (by rw [hs]; simp))]

/-- **C34** doesn't hold for the analyses: analysis is enabled in the copy, but no analysis was requested, and enabling analysis has no effect. -/
theorem C34_analysis_counterexample : ∃ (E : Engine Int Int (Int × Int)) (p p' : ExPlan), Reachable E false p ∧ copy p = some p' ∧
    p.analysisIsEnabled = true ∧ p'.analysisIsEnabled = true ∧ p.analysis 0 ≠ none ∧ p'.analysis 0 = none ∧ (enableAnalysis true p').analysis 0 = none := by
  refine ⟨exEngine, inserted₂.2, (copy inserted₂.2).get (by decide +kernel), inserted₂_reachable _, (Option.some_get _).symm, ?_⟩
  decide +kernel

example : ∃ p', copy inserted₂.2 = some p' ∧ p'.segments = inserted₂.2.segments ∧ p'.segments.length = 5 := by
  obtain ⟨p', h1, _, h2, _⟩ := C34_copy_partial exEngine false _ (inserted₂_reachable _)
  exact ⟨p', h1, h2, by rw [h2]; decide +kernel⟩

end Principia.FlightPlan
