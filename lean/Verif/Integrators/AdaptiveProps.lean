import Verif.Integrators.AdaptiveSteps
import Mathlib.Tactic.NormNum
import Mathlib.Tactic.IntervalCases

/-!
The integrators with an adaptive step advance by tolerable steps of their method, stop at the requested time, terminate, and may be restarted.
-/

set_option linter.unusedSimpArgs false
set_option linter.unusedVariables false
set_option linter.unusedSectionVars false

namespace Principia.Integrators

noncomputable section

variable {V : Type*} [NormedAddCommGroup V] [NormedSpace ℝ V]

theorem RightHandSide.sameVelocity (f : RightHandSide V) (m : EERKN) : m.SameVelocity f.general := fun _ => .inl fun _ _ _ _ => rfl

/-! ### C65 -/

/-- An embedded Runge-Kutta integrator that returns has advanced by tolerable steps of its method, up to the requested time. -/
theorem C65_runge_kutta_steps (m : EERK) (hm : m.Checked) (f : RightHandSide V) (stop : List (FState V) → Bool) (negligible : ℝ → ℝ → Bool) (tolerance : ℝ → FState V → V → ℝ)
    (p : AdaptiveParameters) (hv : p.Valid negligible tolerance) (fuel : ℕ) (sFinal : ℝ) (i : AInstance (FState V)) (hi : 0 < p.firstStep * i.step) (i' : AInstance (FState V)) (status : Status)
    (appended : List (FState V)) (hr : (m.stepper f).solve stop negligible tolerance p fuel sFinal i = .ok (i', status, appended)) :
    AdaptiveResult FState.s (m.IsStep f) tolerance p sFinal i.current i' status appended :=
  AdaptiveStepper.solve_result (m.coherent hm f) hv hi hr

/-- The same for an embedded Runge-Kutta-Nyström integrator, for the equations where the acceleration doesn't depend on the velocity. -/
theorem C65_nystrom_steps (m : EERKN) (hm : m.Checked) (hs : 0 < m.stages) (f : RightHandSide V) (stop : List (NState V) → Bool) (negligible : ℝ → ℝ → Bool)
    (tolerance : ℝ → NState V → V × V → ℝ) (p : AdaptiveParameters) (hv : p.Valid negligible tolerance) (fuel : ℕ) (tFinal : ℝ) (i : AInstance (NState V)) (hi : 0 < p.firstStep * i.step)
    (i' : AInstance (NState V)) (status : Status) (appended : List (NState V)) (hr : (m.stepper false f.general).solve stop negligible tolerance p fuel tFinal i = .ok (i', status, appended)) :
    AdaptiveResult NState.time (m.IsStep f.general) tolerance p tFinal i.current i' status appended :=
  AdaptiveStepper.solve_result (m.coherent hm hs false f.general (f.sameVelocity m)) hv hi hr

/-- The same for an embedded generalized Runge-Kutta-Nyström integrator. -/
theorem C65_generalized_nystrom_steps (m : EERKN) (hm : m.Checked) (hs : 0 < m.stages) (f : GeneralRightHandSide V) (hvel : m.SameVelocity f) (stop : List (NState V) → Bool)
    (negligible : ℝ → ℝ → Bool) (tolerance : ℝ → NState V → V × V → ℝ) (p : AdaptiveParameters) (hv : p.Valid negligible tolerance) (fuel : ℕ) (tFinal : ℝ) (i : AInstance (NState V))
    (hi : 0 < p.firstStep * i.step) (i' : AInstance (NState V)) (status : Status) (appended : List (NState V))
    (hr : (m.stepper true f).solve stop negligible tolerance p fuel tFinal i = .ok (i', status, appended)) :
    AdaptiveResult NState.time (m.IsStep f) tolerance p tFinal i.current i' status appended :=
  AdaptiveStepper.solve_result (m.coherent hm hs true f hvel) hv hi hr

/-- A consequence: the times increase, or decrease, strictly. -/
theorem C65_times {X E : Type*} {time : X → ℝ} {step : ℝ → X → X → E → Prop} {tolerance : ℝ → X → E → ℝ} {p : AdaptiveParameters} {tFinal : ℝ} {x0 : X} {i : AInstance X} {status : Status}
    {appended : List X} (h : AdaptiveResult time step tolerance p tFinal x0 i status appended) :
    (0 < p.firstStep → ((x0 :: appended).map time).Pairwise (· < ·)) ∧ (p.firstStep < 0 → ((x0 :: appended).map time).Pairwise (· > ·)) := by
  constructor
  · intro hp
    rw [← List.isChain_iff_pairwise, List.isChain_map]
    exact h.steps.imp fun x x' ⟨d, hd, ht, _⟩ => by
      rw [ht]
      have := (mul_pos_iff_of_pos_left hp).mp hd
      linarith
  · intro hp
    rw [← List.isChain_iff_pairwise, List.isChain_map]
    exact h.steps.imp fun x x' ⟨d, hd, ht, _⟩ => by
      rw [ht]
      have := neg_of_mul_pos_right hd hp.le
      show time x + d < time x
      linarith

/-- An embedded Runge-Kutta integrator called for a time which is in the direction of its step terminates, if steps below some size are considered as vanishing.  Neither the equation nor the tolerance need be
well-behaved. -/
theorem C65_runge_kutta_terminates (m : EERK) (hm : m.Checked) (f : RightHandSide V) (stop : List (FState V) → Bool) (negligible : ℝ → ℝ → Bool) (tolerance : ℝ → FState V → V → ℝ)
    (p : AdaptiveParameters) (hv : p.Valid negligible tolerance) (hmax : 1 ≤ p.maxSteps) (ε : ℝ) (hε : 0 < ε) (hneg : ∀ t h, |h| < ε → negligible t h = true) (sFinal : ℝ)
    (i : AInstance (FState V)) (hi : 0 < p.firstStep * i.step) (ha : 0 < p.firstStep * (sFinal - i.current.s)) (hu : i.firstUse = true ∨ p.lastStepIsExact = false) :
    ∃ fuel r, (m.stepper f).solve stop negligible tolerance p fuel sFinal i = .ok r :=
  AdaptiveStepper.solve_terminates (m.coherent hm f) hv hmax hε hneg hi ha hu

/-- The same for the embedded Runge-Kutta-Nyström integrators, generalized or not. -/
theorem C65_nystrom_terminates (m : EERKN) (hm : m.Checked) (hs : 0 < m.stages) (checksAborted : Bool) (f : GeneralRightHandSide V) (hvel : m.SameVelocity f) (stop : List (NState V) → Bool)
    (negligible : ℝ → ℝ → Bool) (tolerance : ℝ → NState V → V × V → ℝ) (p : AdaptiveParameters) (hv : p.Valid negligible tolerance) (hmax : 1 ≤ p.maxSteps) (ε : ℝ) (hε : 0 < ε)
    (hneg : ∀ t h, |h| < ε → negligible t h = true) (tFinal : ℝ) (i : AInstance (NState V)) (hi : 0 < p.firstStep * i.step) (ha : 0 < p.firstStep * (tFinal - i.current.time))
    (hu : i.firstUse = true ∨ p.lastStepIsExact = false) : ∃ fuel r, (m.stepper checksAborted f).solve stop negligible tolerance p fuel tFinal i = .ok r :=
  AdaptiveStepper.solve_terminates (m.coherent hm hs checksAborted f hvel) hv hmax hε hneg hi ha hu

/-- A call for a time which is not in the direction of the step, or a second call when the last step is exact, fails a check and does nothing. -/
theorem C65_check {X G E : Type*} (S : AdaptiveStepper X G E) (stop : List X → Bool) (negligible : ℝ → ℝ → Bool) (tolerance : ℝ → X → E → ℝ) (p : AdaptiveParameters) (hp : p.firstStep ≠ 0)
    (tFinal : ℝ) (i : AInstance X) (ha : ¬ (0 < p.firstStep * (tFinal - S.time i.current) ∧ (i.firstUse = true ∨ p.lastStepIsExact = false))) (fuel : ℕ) :
    S.solve stop negligible tolerance p fuel tFinal i = .error .check := S.solve_check hp ha fuel

/-- The instances that are constructed have valid parameters and a step in the direction of the integration. -/
theorem C65_new_instance {X E : Type*} (p : AdaptiveParameters) (x : X) (i : AInstance X) (h : newAdaptiveInstance p x = some i) (negligible : ℝ → ℝ → Bool) (tolerance : ℝ → X → E → ℝ)
    (htol : ∀ h x e, 0 ≤ tolerance h x e) (hneg : ∀ t, negligible t 0 = true) :
    p.Valid negligible tolerance ∧ 0 < p.firstStep * i.step ∧ i.current = x ∧ i.firstUse = true := by
  unfold newAdaptiveInstance at h
  split_ifs at h with hc
  cases h
  exact ⟨⟨hc.1, hc.2, htol, hneg⟩, by have := mul_self_pos.mpr hc.1; exact this, rfl, rfl⟩

/-- Interrupting a forward integration whose last step need not be exact doesn't change what it yields, for an equation that never fails. -/
theorem C65_runge_kutta_restart (m : EERK) (hm : m.Checked) (f : RightHandSide V) (hf : ∀ t y, (f t y).2 = .ok) (negligible : ℝ → ℝ → Bool) (tolerance : ℝ → FState V → V → ℝ)
    (p : AdaptiveParameters) (hv : p.Valid negligible tolerance) (hforward : 0 < p.firstStep) (hex : p.lastStepIsExact = false) (fuel1 fuel2 : ℕ) (s1 s2 : ℝ) (h12 : s1 ≤ s2)
    (i i1 i2 : AInstance (FState V)) (hi : 0 < i.step) (status : Status) (appended1 appended2 : List (FState V))
    (h1 : (m.stepper f).solve (fun _ => false) negligible tolerance p fuel1 s1 i = .ok (i1, .ok, appended1))
    (h2 : (m.stepper f).solve (fun _ => false) negligible tolerance p fuel2 s2 i1 = .ok (i2, status, appended2))
    (hmax : 1 ≤ p.maxSteps → (appended1.length + appended2.length : ℤ) < p.maxSteps) :
    ∃ fuel, (m.stepper f).solve (fun _ => false) negligible tolerance p fuel s2 i = .ok (i2, status, appended1 ++ appended2) := by
  refine AdaptiveStepper.solve_restart (m.coherent hm f) hv ?_ ?_ hforward hex h12 hi h1 h2 hmax
  · intro h x g
    show ((List.range m.stages).foldl (m.toERK.stage f h x g) { k := [], f := 0, status := .ok }).status = .ok
    have : ∀ (l : List ℕ) (s : RKStage V), s.status = .ok → (l.foldl (m.toERK.stage f h x g) s).status = .ok := by
      intro l
      induction l with
      | nil => intro s hs; exact hs
      | cons a l ih =>
        intro s hs
        refine ih _ ?_
        unfold ERK.stage
        split_ifs
        · exact hs
        · simp only [hs, hf, Status.update, if_true]
    exact this _ _ rfl
  · intro x
    show (if m.firstSameAsLast = true then ((f x.s x.y).1, (f x.s x.y).2) else (0, .ok)).2 = _
    split_ifs
    · exact hf _ _
    · rfl

/-- The same for the embedded Runge-Kutta-Nyström integrators, generalized or not. -/
theorem C65_nystrom_restart (m : EERKN) (hm : m.Checked) (hs : 0 < m.stages) (checksAborted : Bool) (f : GeneralRightHandSide V) (hvel : m.SameVelocity f) (hf : ∀ t q v, (f t q v).2 = .ok)
    (negligible : ℝ → ℝ → Bool) (tolerance : ℝ → NState V → V × V → ℝ) (p : AdaptiveParameters) (hv : p.Valid negligible tolerance) (hforward : 0 < p.firstStep) (hex : p.lastStepIsExact = false)
    (fuel1 fuel2 : ℕ) (t1 t2 : ℝ) (h12 : t1 ≤ t2) (i i1 i2 : AInstance (NState V)) (hi : 0 < i.step) (status : Status) (appended1 appended2 : List (NState V))
    (h1 : (m.stepper checksAborted f).solve (fun _ => false) negligible tolerance p fuel1 t1 i = .ok (i1, .ok, appended1))
    (h2 : (m.stepper checksAborted f).solve (fun _ => false) negligible tolerance p fuel2 t2 i1 = .ok (i2, status, appended2))
    (hmax : 1 ≤ p.maxSteps → (appended1.length + appended2.length : ℤ) < p.maxSteps) :
    ∃ fuel, (m.stepper checksAborted f).solve (fun _ => false) negligible tolerance p fuel t2 i = .ok (i2, status, appended1 ++ appended2) := by
  refine AdaptiveStepper.solve_restart (m.coherent hm hs checksAborted f hvel) hv ?_ (fun x => rfl) hforward hex h12 hi h1 h2 hmax
  intro h x g
  have : ∀ (l : List ℕ) (s : List V × Status), s.2 = .ok → (l.foldl (m.stage f h x) s).2 = .ok := by
    intro l
    induction l with
    | nil => intro s hs; exact hs
    | cons a l ih =>
      intro s hs
      refine ih _ ?_
      unfold EERKN.stage
      simp only [hs, hf, Status.update, if_true]
  show (m.allStages f h x g).2 = .ok
  cases g
  · exact this _ _ rfl
  · exact this _ _ rfl

/-- The code's test that the requested time is exceeded ignores the direction of the integration.  Thus a backward integration whose last step need not be exact doesn't advance at all, although it reports no
error: if the first step is tolerable, it is dropped. -/
theorem C65_backward_counterexample (m : EERK) (f : RightHandSide V) (stop : List (FState V) → Bool) (negligible : ℝ → ℝ → Bool) (tolerance : ℝ → FState V → V → ℝ)
    (p : AdaptiveParameters) (hp : p.firstStep < 0) (hex : p.lastStepIsExact = false) (htol : ∀ h x e, 1 ≤ tolerance h x e) (hf : ∀ t y, (f t y).2 = .ok) (sFinal : ℝ) (i : AInstance (FState V))
    (hs : sFinal < i.current.s + i.step) (hstep : i.step < 0) (fuel : ℕ) :
    (m.stepper f).solve stop negligible tolerance p (fuel + 1) sFinal i = .ok (⟨i.current, i.step, false⟩, .ok, []) := by
  have ha : 0 < p.firstStep * (sFinal - i.current.s) := mul_pos_of_neg_of_neg hp (by linarith)
  rw [(m.stepper f).solve_eq hp.ne ha (.inr hex), AdaptiveStepper.loop]
  have hnot : ¬ (m.stepper f).atEnd p sFinal i.current i.step := fun c => absurd (c.1.symm.trans hex) (by decide)
  have htr : (m.stepper f).truncated p sFinal i.current i.step = i.step := if_neg hnot
  have hst : ∀ g, ((m.stepper f).attempt i.step i.current g).status = .ok := by
    intro g
    show ((List.range m.stages).foldl (m.toERK.stage f i.step i.current g) { k := [], f := 0, status := .ok }).status = .ok
    have : ∀ (l : List ℕ) (s : RKStage V), s.status = .ok → (l.foldl (m.toERK.stage f i.step i.current g) s).status = .ok := by
      intro l
      induction l with
      | nil => intro s hs; exact hs
      | cons a l ih =>
        intro s hs
        refine ih _ ?_
        unfold ERK.stage
        split_ifs
        · exact hs
        · simp only [hs, hf, Status.update, if_true]
    exact this _ _ rfl
  have hst0 : ((m.stepper f).start i.current).2 = .ok := by
    show (if m.firstSameAsLast = true then ((f i.current.s i.current.y).1, (f i.current.s i.current.y).2) else (0, .ok)).2 = _
    split_ifs
    · exact hf _ _
    · rfl
  unfold AdaptiveStepper.iterate
  simp only [htr]
  rw [if_neg (not_lt.mpr (htol _ _ _)), if_pos ⟨hex, hs⟩]
  simp only [hst, hst0, Status.update, if_true]

/-! ### The methods of the code meet the hypotheses -/

theorem Methods.dormandPrince_checked : Methods.dormandPrince1986RK547FC.method.Checked where
  stages := by decide
  first := by simp [EmbeddedTable.method, Methods.dormandPrince1986RK547FC]
  fsal _ := by
    refine ⟨by simp [EmbeddedTable.method, Methods.dormandPrince1986RK547FC], by simp [EmbeddedTable.method, Methods.dormandPrince1986RK547FC], fun j hj => ?_⟩
    change j < 6 at hj
    interval_cases j <;> simp [EmbeddedTable.method, Methods.dormandPrince1986RK547FC]

theorem Methods.dormandElMikkawyPrince_checked : Methods.dormandElMikkawyPrince1986RKN434FM.method.Checked where
  first := by simp [NystromTable.method, GeneralizedNystromTable.method, Methods.dormandElMikkawyPrince1986RKN434FM]
  fsal _ := by
    refine ⟨by simp [NystromTable.method, GeneralizedNystromTable.method, Methods.dormandElMikkawyPrince1986RKN434FM],
      by simp [NystromTable.method, GeneralizedNystromTable.method, Methods.dormandElMikkawyPrince1986RKN434FM], fun j hj => ?_⟩
    change j < 3 at hj
    interval_cases j <;> simp [NystromTable.method, GeneralizedNystromTable.method, Methods.dormandElMikkawyPrince1986RKN434FM]

theorem Methods.fine34_checked : Methods.fine1987RKNG34.method.Checked where
  first := by simp [GeneralizedNystromTable.method, Methods.fine1987RKNG34]
  fsal h := absurd h (by decide)

theorem Methods.fine45_checked : Methods.fine1987RKNG45.method.Checked where
  first := by simp [GeneralizedNystromTable.method, Methods.fine1987RKNG45]
  fsal _ := by
    refine ⟨by simp [GeneralizedNystromTable.method, Methods.fine1987RKNG45], by simp [GeneralizedNystromTable.method, Methods.fine1987RKNG45], fun j hj => ?_⟩
    change j < 6 at hj
    interval_cases j <;> simp [GeneralizedNystromTable.method, Methods.fine1987RKNG45]

theorem Methods.fine34_sameVelocity (f : GeneralRightHandSide V) : Methods.fine1987RKNG34.method.SameVelocity f := fun h => absurd h (by decide)

theorem Methods.fine45_sameVelocity (f : GeneralRightHandSide V) : Methods.fine1987RKNG45.method.SameVelocity f := fun _ => .inr (by
  refine ⟨by simp [GeneralizedNystromTable.method, Methods.fine1987RKNG45], fun j hj => ?_⟩
  change j < 6 at hj
  interval_cases j <;> simp [GeneralizedNystromTable.method, Methods.fine1987RKNG45])

/-- Every embedded integrator of the code is covered. -/
theorem C65_methods (f : RightHandSide V) (g : GeneralRightHandSide V) :
    Methods.dormandPrince1986RK547FC.method.Checked ∧
    (Methods.dormandElMikkawyPrince1986RKN434FM.method.Checked ∧ Methods.dormandElMikkawyPrince1986RKN434FM.method.SameVelocity f.general) ∧
    (Methods.fine1987RKNG34.method.Checked ∧ Methods.fine1987RKNG34.method.SameVelocity g) ∧ Methods.fine1987RKNG45.method.Checked ∧ Methods.fine1987RKNG45.method.SameVelocity g :=
  ⟨Methods.dormandPrince_checked, ⟨Methods.dormandElMikkawyPrince_checked, f.sameVelocity _⟩, ⟨Methods.fine34_checked, Methods.fine34_sameVelocity g⟩, Methods.fine45_checked, Methods.fine45_sameVelocity g⟩

/-! ### Examples -/

/-- The parameters of an integration forward from 0 by steps of 1, at most 5, for the equation `qʺ = 0`, every step being tolerable. -/
def exampleParameters (exact : Bool) (first : ℝ) : AdaptiveParameters := ⟨first, 1 / 2, 5, exact⟩

open Classical in
def exampleNegligible (_ h : ℝ) : Bool := decide (|h| < 1 / 1000)

theorem exampleValid (exact : Bool) (first : ℝ) (h : first ≠ 0) : (exampleParameters exact first).Valid exampleNegligible (fun (_ : ℝ) (_ : NState ℝ) (_ : ℝ × ℝ) => (1 : ℝ)) where
  step := h
  safety := by norm_num [exampleParameters]
  tolerance _ _ _ := zero_le_one
  negligible t := by simp [exampleNegligible]

/-- An exact integration to time 1 returns with no error: it has one step. -/
example : ∃ fuel i', ((Methods.fine1987RKNG34.method.stepper (V := ℝ) true fun _ _ _ => (0, .ok)).solve (fun _ => false) exampleNegligible (fun _ _ _ => 1) (exampleParameters true 2) fuel 1
    ⟨⟨0, 3, 4⟩, 2, true⟩) = .ok (i', .ok, [⟨1, 7, 4⟩]) := by
  refine ⟨1, ⟨⟨0, 3, 4⟩, 1, false⟩, ?_⟩
  rw [AdaptiveStepper.solve_eq _ (by norm_num [exampleParameters]) (by norm_num [exampleParameters, EERKN.stepper]) (.inl rfl), AdaptiveStepper.loop]
  have hend : (Methods.fine1987RKNG34.method.stepper (V := ℝ) true fun _ _ _ => (0, .ok)).atEnd (exampleParameters true 2) 1 ⟨0, 3, 4⟩ 2 := by
    refine ⟨rfl, ?_⟩
    norm_num [exampleParameters, AdaptiveParameters.directed, EERKN.stepper]
  have htr : (Methods.fine1987RKNG34.method.stepper (V := ℝ) true fun _ _ _ => (0, .ok)).truncated (exampleParameters true 2) 1 ⟨0, 3, 4⟩ 2 = 1 := by
    rw [AdaptiveStepper.truncated, if_pos hend]
    norm_num [EERKN.stepper]
  unfold AdaptiveStepper.iterate
  simp only [htr]
  rw [if_neg (by norm_num), if_neg (by simp [exampleParameters]), if_neg (by simp)]
  have h5 : Methods.fine1987RKNG34.method.stages = 5 := rfl
  have hr : (Methods.fine1987RKNG34.method.stepper (V := ℝ) true fun _ _ _ => (0, .ok)).attempt 1 ⟨0, 3, 4⟩ ((Methods.fine1987RKNG34.method.stepper (V := ℝ) true fun _ _ _ => (0, .ok)).start ⟨0, 3, 4⟩).1 =
      ⟨⟨1, 7, 4⟩, (0, 0), none, .ok⟩ := by
    have hall : (Methods.fine1987RKNG34.method.allStages (V := ℝ) (fun _ _ _ => (0, .ok)) 1 ⟨0, 3, 4⟩ none) = ([0, 0, 0, 0, 0], .ok) := by
      simp [EERKN.allStages, h5, List.range_succ, EERKN.stage, Status.update]
    have hf : Methods.fine1987RKNG34.method.firstSameAsLast = false := rfl
    simp only [EERKN.stepper, hall, hf, weighted, h5]
    norm_num [Finset.sum_range_succ]
  rw [hr]
  simp only
  rw [if_neg (by simp), if_neg (by simp [hend]), if_pos hend]
  rfl

/-- A backward integration that doesn't advance. -/
example : (Methods.dormandPrince1986RK547FC.method.stepper (V := ℝ) fun _ y => (y, .ok)).solve (fun _ => false) exampleNegligible (fun _ _ _ => 1) (exampleParameters false (-1)) 1 (-10)
    ⟨⟨0, 1⟩, -1, true⟩ = .ok (⟨⟨0, 1⟩, -1, false⟩, .ok, []) :=
  C65_backward_counterexample _ _ _ _ _ _ (by norm_num [exampleParameters]) rfl (fun _ _ _ => le_rfl) (fun _ _ => rfl) _ _ (by norm_num) (by norm_num) 0

end

end Principia.Integrators
