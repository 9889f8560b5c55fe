import Verif.Integrators.AdaptiveModel
import Mathlib.Data.List.Chain
import Mathlib.Tactic.Linarith
import Mathlib.Tactic.Positivity
import Mathlib.Analysis.SpecificLimits.Basic

/-!
The loop of the integrators with an adaptive step, for any method: specification and invariants.
-/

set_option linter.unusedSimpArgs false
set_option linter.unusedVariables false
set_option linter.unusedSectionVars false

namespace Principia.Integrators

noncomputable section

variable {X G E : Type*}

/-! ### Specification -/

/-- One step of nonzero size `h` in the direction of the integration, whose error is tolerable.  `step h x x' e` says that the method leads from `x` to `x'` in a step `h`, with the error estimate `e`. -/
def TolerableStep (time : X → ℝ) (step : ℝ → X → X → E → Prop) (tolerance : ℝ → X → E → ℝ) (p : AdaptiveParameters) (h : ℝ) (x x' : X) : Prop :=
  0 < p.firstStep * h ∧ time x' = time x + h ∧ ∃ e, step h x x' e ∧ 1 ≤ tolerance h x e

/-- What `Solve`, called for `tFinal` on an instance whose state is `x0`, does: `i` is the instance that it leaves, `status` is its result and `appended` are the states passed to `append_state`. -/
structure AdaptiveResult (time : X → ℝ) (step : ℝ → X → X → E → Prop) (tolerance : ℝ → X → E → ℝ) (p : AdaptiveParameters) (tFinal : ℝ) (x0 : X) (i : AInstance X) (status : Status)
    (appended : List X) : Prop where
  /-- Each state follows from the previous one. -/
  steps : (x0 :: appended).IsChain fun x x' => ∃ h, TolerableStep time step tolerance p h x x'
  /-- The requested time is not exceeded. -/
  within : p.lastStepIsExact = true ∨ 0 < p.firstStep → ∀ x ∈ appended, 0 ≤ p.firstStep * (tFinal - time x)
  /-- There are no more steps than asked. -/
  bounded : 1 ≤ p.maxSteps → (appended.length : ℤ) ≤ p.maxSteps
  /-- The state of the instance is the last one, or the one before it if the last step was truncated. -/
  current : (x0 :: appended).getLast? = some i.current ∨ p.lastStepIsExact = true ∧ ∃ before x, x0 :: appended = before ++ [i.current, x] ∧ time x = tFinal
  /-- If all is well and the last step must be exact, the last state is at the requested time. -/
  exact : status = .ok → p.lastStepIsExact = true → ∃ before x, x0 :: appended = before ++ [i.current, x] ∧ time x = tFinal
  /-- If all is well and the last step need not be exact, one more step would be tolerable but would exceed the requested time. -/
  inexact : status = .ok → p.lastStepIsExact = false → (x0 :: appended).getLast? = some i.current ∧ tFinal < time i.current + i.step ∧
    ∃ x', TolerableStep time step tolerance p i.step i.current x'
  /-- An instance that has been used may not be used again if its last step is exact. -/
  used : i.firstUse = false

/-- The steps computed with the data kept from the previous step are steps of the method. -/
structure AdaptiveStepper.Coherent (S : AdaptiveStepper X G E) (step : ℝ → X → X → E → Prop) where
  good : X → G → Prop
  start : ∀ x, good x (S.start x).1
  next : ∀ h x g, good x g → good (S.attempt h x g).next (S.attempt h x g).g
  isStep : ∀ h x g, good x g → step h x (S.attempt h x g).next (S.attempt h x g).error
  unique : ∀ h x g g', good x g → good x g' → (S.attempt h x g).next = (S.attempt h x g').next ∧ (S.attempt h x g).error = (S.attempt h x g').error
  time : ∀ h x g, S.time (S.attempt h x g).next = S.time x + h

/-- What is required of the tolerance: it is never negative; and of the parameters, cf. the constructor of the instance. -/
structure AdaptiveParameters.Valid (p : AdaptiveParameters) (negligible : ℝ → ℝ → Bool) (tolerance : ℝ → X → E → ℝ) : Prop where
  step : p.firstStep ≠ 0
  safety : 0 < p.safetyFactor ∧ p.safetyFactor < 1
  tolerance : ∀ h x e, 0 ≤ tolerance h x e
  negligible : ∀ t, negligible t 0 = true

/-! ### The invariant -/

theorem AdaptiveParameters.directed_le {p : AdaptiveParameters} (hp : p.firstStep ≠ 0) (a b : ℝ) : p.directed a ≤ p.directed b ↔ p.firstStep * a ≤ p.firstStep * b := by
  unfold AdaptiveParameters.directed
  split_ifs with h
  · rw [mul_le_mul_left_of_neg h, neg_le_neg_iff]
  · rw [mul_le_mul_iff_right₀ (lt_of_le_of_ne (not_lt.mp h) hp.symm)]

variable {S : AdaptiveStepper X G E} {stop : List X → Bool} {negligible : ℝ → ℝ → Bool} {tolerance : ℝ → X → E → ℝ} {p : AdaptiveParameters} {step : ℝ → X → X → E → Prop}

structure AdaptiveInv (C : S.Coherent step) (tolerance : ℝ → X → E → ℝ) (p : AdaptiveParameters) (tFinal : ℝ) (x0 : X) (l : AdaptiveLoop X G) : Prop where
  steps : (x0 :: l.appended).IsChain fun x x' => ∃ h, TolerableStep S.time step tolerance p h x x'
  last : (x0 :: l.appended).getLast? = some l.x
  good : C.good l.x l.g
  positive : 0 < p.firstStep * l.h
  within : p.lastStepIsExact = true ∨ 0 < p.firstStep → ∀ x ∈ l.appended, 0 ≤ p.firstStep * (tFinal - S.time x)
  ahead : p.lastStepIsExact = true → 0 < p.firstStep * (tFinal - S.time l.x)
  count : l.count = l.appended.length
  bounded : 1 ≤ p.maxSteps → (l.count : ℤ) < p.maxSteps

theorem adapted_positive (hv : p.Valid negligible tolerance) {t h ratio : ℝ} (hh : 0 < p.firstStep * h) (hr : 0 ≤ ratio) (hn : ¬ negligible t (S.adapted p h ratio) = true) :
    0 < p.firstStep * S.adapted p h ratio := by
  have h0 : S.adapted p h ratio ≠ 0 := fun e => hn (by rw [e]; exact hv.negligible t)
  have h1 : 0 ≤ p.firstStep * S.adapted p h ratio := by
    unfold AdaptiveStepper.adapted
    rw [← mul_assoc]
    exact mul_nonneg hh.le (mul_nonneg hv.safety.1.le (Real.rpow_nonneg hr _))
  exact lt_of_le_of_ne h1 (mul_ne_zero hv.step h0).symm

theorem AdaptiveInv.truncated_positive {C : S.Coherent step} {tFinal : ℝ} {x0 : X} {l : AdaptiveLoop X G} (I : AdaptiveInv C tolerance p tFinal x0 l) :
    0 < p.firstStep * S.truncated p tFinal l.x l.h := by
  unfold AdaptiveStepper.truncated
  split_ifs with h
  · exact I.ahead h.1
  · exact I.positive

open Classical in
theorem AdaptiveInv.iterate {C : S.Coherent step} {tFinal : ℝ} {x0 : X} (hv : p.Valid negligible tolerance) {l : AdaptiveLoop X G} (I : AdaptiveInv C tolerance p tFinal x0 l) :
    match S.iterate stop negligible tolerance p tFinal l with
    | .inl l' => AdaptiveInv C tolerance p tFinal x0 l'
    | .inr r => AdaptiveResult S.time step tolerance p tFinal x0 r.1 r.2.1 r.2.2 := by
  have hpos := I.truncated_positive
  have hstep := C.isStep (S.truncated p tFinal l.x l.h) l.x l.g I.good
  have htime := C.time (S.truncated p tFinal l.x l.h) l.x l.g
  have hnext := C.next (S.truncated p tFinal l.x l.h) l.x l.g I.good
  have htr : S.truncated p tFinal l.x l.h = if S.atEnd p tFinal l.x l.h then tFinal - S.time l.x else l.h := rfl
  have hae : S.atEnd p tFinal l.x l.h ↔ p.lastStepIsExact = true ∧ p.firstStep * (tFinal - S.time l.x) ≤ p.firstStep * l.h := by
    unfold AdaptiveStepper.atEnd
    rw [AdaptiveParameters.directed_le hv.step]
  unfold AdaptiveStepper.iterate
  simp only
  generalize S.truncated p tFinal l.x l.h = h at hpos hstep htime hnext htr ⊢
  generalize S.attempt h l.x l.g = r at hstep htime hnext ⊢
  have hratio := hv.tolerance h l.x r.error
  generalize hrr : tolerance h l.x r.error = ratio at hratio ⊢
  by_cases h1 : ratio < 1
  · rw [if_pos h1]
    unfold AdaptiveStepper.adapt
    by_cases hn : negligible (S.time l.x) (S.adapted p h ratio) = true
    · rw [if_pos hn]
      exact ⟨I.steps, I.within, (fun hm => by rw [← I.count]; exact (I.bounded hm).le), .inl I.last, (fun hs => by cases hs), (fun hs => by cases hs), rfl⟩
    · rw [if_neg hn]
      exact ⟨I.steps, I.last, I.good, adapted_positive hv hpos hratio hn, I.within, I.ahead, I.count, I.bounded⟩
  rw [if_neg h1]
  have htol : TolerableStep S.time step tolerance p h l.x r.next := ⟨hpos, htime, r.error, hstep, by rw [hrr]; exact not_lt.mp h1⟩
  by_cases h2 : p.lastStepIsExact = false ∧ tFinal < S.time l.x + h
  · rw [if_pos h2]
    exact ⟨I.steps, I.within, (fun hm => by rw [← I.count]; exact (I.bounded hm).le), .inl I.last, fun _ he => absurd (h2.1.symm.trans he) (by decide),
      fun _ _ => ⟨I.last, h2.2, _, htol⟩, rfl⟩
  rw [if_neg h2]
  have hsteps : (x0 :: (l.appended ++ [r.next])).IsChain fun x x' => ∃ h, TolerableStep S.time step tolerance p h x x' := by
    rw [← List.cons_append, List.isChain_append]
    refine ⟨I.steps, List.isChain_singleton _, ?_⟩
    intro x hx y hy
    rw [I.last] at hx
    cases hx
    cases hy
    exact ⟨h, htol⟩
  have hlast : (x0 :: (l.appended ++ [r.next])).getLast? = some r.next := by
    rw [← List.cons_append, List.getLast?_append]
    rfl
  have hin : p.lastStepIsExact = true ∨ 0 < p.firstStep → 0 ≤ p.firstStep * (tFinal - S.time r.next) := by
    intro hd
    rw [htime]
    by_cases he : p.lastStepIsExact = true
    · by_cases ha : S.atEnd p tFinal l.x l.h
      · rw [if_pos ha] at htr
        rw [htr]
        simp
      · rw [if_neg ha] at htr
        rw [hae] at ha
        rw [htr]
        have := not_le.mp fun c => ha ⟨he, c⟩
        nlinarith
    · have hf := hd.resolve_left he
      rw [Bool.not_eq_true] at he
      have := not_lt.mp fun c => h2 ⟨he, c⟩
      exact mul_nonneg hf.le (by linarith)
  have hwithin : p.lastStepIsExact = true ∨ 0 < p.firstStep → ∀ x ∈ l.appended ++ [r.next], 0 ≤ p.firstStep * (tFinal - S.time x) := by
    intro hd x hx
    rw [List.mem_append, List.mem_singleton] at hx
    rcases hx with hx | hx
    · exact I.within hd x hx
    · rw [hx]; exact hin hd
  have hlen : (l.appended ++ [r.next]).length = l.count + 1 := by rw [I.count]; simp
  have hbounded : 1 ≤ p.maxSteps → ((l.appended ++ [r.next]).length : ℤ) ≤ p.maxSteps := by
    intro hm
    have := I.bounded hm
    rw [hlen]
    push_cast
    omega
  by_cases h3 : stop (l.appended ++ [r.next]) = true
  · rw [if_pos h3]
    exact ⟨hsteps, hwithin, hbounded, .inl hlast, (fun hs => by cases hs), (fun hs => by cases hs), rfl⟩
  rw [if_neg h3]
  by_cases h4 : S.checksAborted = true ∧ r.status = .aborted
  · rw [if_pos h4]
    refine ⟨hsteps, hwithin, hbounded, .inl hlast, fun hs => ?_, fun hs => ?_, rfl⟩ <;> · exact absurd (h4.2.symm.trans hs) (by decide)
  rw [if_neg h4]
  by_cases h5 : ((l.count + 1 : ℕ) : ℤ) = p.maxSteps ∧ ¬ S.atEnd p tFinal l.x l.h
  · rw [if_pos h5]
    exact ⟨hsteps, hwithin, hbounded, .inl hlast, (fun hs => by cases hs), (fun hs => by cases hs), rfl⟩
  rw [if_neg h5]
  by_cases h6 : S.atEnd p tFinal l.x l.h
  · rw [if_pos h6]
    rw [if_pos h6] at htr
    have hend : S.time r.next = tFinal := by rw [htime, htr]; ring
    have hex : ∃ before x, x0 :: (l.appended ++ [r.next]) = before ++ [l.x, x] ∧ S.time x = tFinal := by
      have h7 := List.dropLast_append_getLast? l.x (by rw [I.last]; rfl : l.x ∈ (x0 :: l.appended).getLast?)
      refine ⟨(x0 :: l.appended).dropLast, r.next, ?_, hend⟩
      rw [← List.cons_append]
      conv_lhs => rw [← h7]
      simp
    exact ⟨hsteps, hwithin, hbounded, .inr ⟨h6.1, hex⟩, fun _ _ => hex, fun _ he => absurd (h6.1.symm.trans he) (by decide), rfl⟩
  rw [if_neg h6]
  unfold AdaptiveStepper.adapt
  by_cases hn : negligible (S.time r.next) (S.adapted p h ratio) = true
  · rw [if_pos hn]
    exact ⟨hsteps, hwithin, hbounded, .inl hlast, (fun hs => by cases hs), (fun hs => by cases hs), rfl⟩
  · rw [if_neg hn]
    refine ⟨hsteps, hlast, hnext, adapted_positive hv hpos hratio hn, hwithin, ?_, hlen.symm, ?_⟩
    · intro he
      rw [if_neg h6] at htr
      rw [hae] at h6
      show 0 < p.firstStep * (tFinal - S.time r.next)
      rw [htime, htr]
      have := not_le.mp fun c => h6 ⟨he, c⟩
      nlinarith
    · intro hm
      have h7 := hbounded hm
      rw [hlen] at h7
      show ((l.count + 1 : ℕ) : ℤ) < p.maxSteps
      exact lt_of_le_of_ne h7 fun e => h5 ⟨e, h6⟩

theorem AdaptiveInv.loop {C : S.Coherent step} {tFinal : ℝ} {x0 : X} (hv : p.Valid negligible tolerance) (fuel : ℕ) :
    ∀ {l : AdaptiveLoop X G} (I : AdaptiveInv C tolerance p tFinal x0 l) {r : AInstance X × Status × List X} (hr : S.loop stop negligible tolerance p tFinal fuel l = .ok r),
      AdaptiveResult S.time step tolerance p tFinal x0 r.1 r.2.1 r.2.2 := by
  induction fuel with
  | zero => intro l I r hr; cases hr
  | succ n ih =>
    intro l I r hr
    have h := I.iterate (stop := stop) hv
    rw [AdaptiveStepper.loop] at hr
    cases hi : S.iterate stop negligible tolerance p tFinal l with
    | inl l' =>
      rw [hi] at hr h
      exact ih h hr
    | inr r' =>
      rw [hi] at hr h
      cases hr
      exact h

theorem AdaptiveStepper.solve_eq (S : AdaptiveStepper X G E) (hp : p.firstStep ≠ 0) {tFinal : ℝ} {i : AInstance X} (ha : 0 < p.firstStep * (tFinal - S.time i.current))
    (hu : i.firstUse = true ∨ p.lastStepIsExact = false) (fuel : ℕ) :
    S.solve stop negligible tolerance p fuel tFinal i = S.loop stop negligible tolerance p tFinal fuel ⟨i.current, (S.start i.current).1, i.step, (S.start i.current).2, [], 0⟩ := by
  unfold AdaptiveStepper.solve
  rw [if_neg, if_neg, if_neg (not_not.mpr hu)]
  · intro h
    nlinarith [h.1, not_lt.mp h.2]
  · intro h
    have := not_lt.mp h.1
    nlinarith [not_lt.mp h.2]

theorem AdaptiveStepper.solve_check (S : AdaptiveStepper X G E) (hp : p.firstStep ≠ 0) {tFinal : ℝ} {i : AInstance X}
    (ha : ¬ (0 < p.firstStep * (tFinal - S.time i.current) ∧ (i.firstUse = true ∨ p.lastStepIsExact = false))) (fuel : ℕ) :
    S.solve stop negligible tolerance p fuel tFinal i = .error .check := by
  unfold AdaptiveStepper.solve
  split_ifs with h1 h2 h3
  · rfl
  · rfl
  · exfalso
    refine ha ⟨?_, h3⟩
    rcases lt_or_gt_of_ne hp with h | h
    · have := not_not.mp fun c => h2 ⟨h, c⟩
      nlinarith
    · have := not_not.mp fun c => h1 ⟨not_lt.mpr h.le, c⟩
      exact mul_pos h (by linarith)
  · rfl

theorem AdaptiveStepper.Coherent.inv_start (C : S.Coherent step) {tFinal : ℝ} {x0 : X} {h : ℝ} (hh : 0 < p.firstStep * h) (ha : 0 < p.firstStep * (tFinal - S.time x0)) :
    AdaptiveInv C tolerance p tFinal x0 ⟨x0, (S.start x0).1, h, (S.start x0).2, [], 0⟩ :=
  ⟨List.isChain_singleton _, rfl, C.start x0, hh, (fun _ x hx => absurd hx (by simp)), fun _ => ha, rfl, (fun hm => by show ((0 : ℕ) : ℤ) < _; push_cast; omega)⟩

/-- Partial correctness. -/
theorem AdaptiveStepper.solve_result (C : S.Coherent step) (hv : p.Valid negligible tolerance) {fuel : ℕ} {tFinal : ℝ} {i : AInstance X} (hi : 0 < p.firstStep * i.step)
    {r : AInstance X × Status × List X} (hr : S.solve stop negligible tolerance p fuel tFinal i = .ok r) :
    AdaptiveResult S.time step tolerance p tFinal i.current r.1 r.2.1 r.2.2 := by
  by_cases ha : 0 < p.firstStep * (tFinal - S.time i.current) ∧ (i.firstUse = true ∨ p.lastStepIsExact = false)
  · rw [S.solve_eq hv.step ha.1 ha.2] at hr
    exact (C.inv_start hi ha.1).loop hv fuel hr
  · rw [S.solve_check hv.step ha] at hr
    cases hr

/-! ### Termination -/

theorem AdaptiveStepper.loop_mono (S : AdaptiveStepper X G E) {tFinal : ℝ} {fuel : ℕ} :
    ∀ {l : AdaptiveLoop X G} {r : AInstance X × Status × List X}, S.loop stop negligible tolerance p tFinal fuel l = .ok r →
      S.loop stop negligible tolerance p tFinal (fuel + 1) l = .ok r := by
  induction fuel with
  | zero => intro l r h; cases h
  | succ n ih =>
    intro l r h
    rw [AdaptiveStepper.loop] at h ⊢
    cases hi : S.iterate stop negligible tolerance p tFinal l with
    | inl l' => rw [hi] at h; exact ih h
    | inr r' => rw [hi] at h; exact h

/-- What an iteration which is not the last one does: the step shrinks by the safety factor, or the number of steps increases. -/
theorem AdaptiveInv.progress {C : S.Coherent step} {tFinal : ℝ} {x0 : X} (hv : p.Valid negligible tolerance) {l l' : AdaptiveLoop X G} (I : AdaptiveInv C tolerance p tFinal x0 l)
    (hl : S.iterate stop negligible tolerance p tFinal l = .inl l') :
    negligible (S.time l'.x) l'.h = false ∧ (l'.count = l.count ∧ p.firstStep * l'.h ≤ p.safetyFactor * (p.firstStep * l.h) ∨ l'.count = l.count + 1) := by
  have hpos := I.truncated_positive
  have htrle : p.firstStep * S.truncated p tFinal l.x l.h ≤ p.firstStep * l.h := by
    unfold AdaptiveStepper.truncated
    split_ifs with h
    · unfold AdaptiveStepper.atEnd at h
      rw [AdaptiveParameters.directed_le hv.step] at h
      exact h.2
    · exact le_rfl
  unfold AdaptiveStepper.iterate at hl
  simp only at hl
  generalize S.truncated p tFinal l.x l.h = h at hpos htrle hl
  generalize S.attempt h l.x l.g = r at hl
  have hratio := hv.tolerance h l.x r.error
  generalize hrr : tolerance h l.x r.error = ratio at hratio hl
  unfold AdaptiveStepper.adapt at hl
  split_ifs at hl with h1 hn h2 h3 h4 h5 h6 hn'
  · cases hl
    refine ⟨by simpa using hn, .inl ⟨rfl, ?_⟩⟩
    show p.firstStep * S.adapted p h ratio ≤ _
    unfold AdaptiveStepper.adapted
    have h7 : ratio ^ (1 / ((S.lowerOrder + 1 : ℕ) : ℝ)) ≤ 1 := Real.rpow_le_one hratio h1.le (by positivity)
    have h8 := hv.safety.1
    calc p.firstStep * (h * (p.safetyFactor * ratio ^ (1 / ((S.lowerOrder + 1 : ℕ) : ℝ)))) = p.safetyFactor * (p.firstStep * h) * ratio ^ (1 / ((S.lowerOrder + 1 : ℕ) : ℝ)) := by ring
      _ ≤ p.safetyFactor * (p.firstStep * h) * 1 := mul_le_mul_of_nonneg_left h7 (by positivity)
      _ = p.safetyFactor * (p.firstStep * h) := mul_one _
      _ ≤ _ := mul_le_mul_of_nonneg_left htrle h8.le
  · cases hl
    exact ⟨by simpa using hn', .inr rfl⟩

theorem AdaptiveInv.terminates {C : S.Coherent step} {tFinal : ℝ} {x0 : X} (hv : p.Valid negligible tolerance) (hm : 1 ≤ p.maxSteps) {ε : ℝ} (hε : 0 < ε)
    (hneg : ∀ t h, |h| < ε → negligible t h = true) (k : ℕ) :
    ∀ n, ∀ {l : AdaptiveLoop X G}, AdaptiveInv C tolerance p tFinal x0 l → p.maxSteps.toNat ≤ l.count + k → p.safetyFactor ^ n * (p.firstStep * l.h) < |p.firstStep| * ε →
      ∃ fuel r, S.loop stop negligible tolerance p tFinal fuel l = .ok r := by
  induction k with
  | zero =>
    intro n l I hk _
    have := I.bounded hm
    omega
  | succ k ihk =>
    intro n
    induction n with
    | zero =>
      intro l I hk hn
      cases hi : S.iterate stop negligible tolerance p tFinal l with
      | inr r => exact ⟨1, r, by rw [AdaptiveStepper.loop, hi]⟩
      | inl l' =>
        have I' := I.iterate (stop := stop) hv
        rw [hi] at I'
        obtain ⟨h1, h2⟩ := I.progress hv hi
        rcases h2 with h2 | h2
        · exfalso
          have h3 : |p.firstStep| * |l'.h| < |p.firstStep| * ε := by
            rw [← abs_mul, abs_of_pos I'.positive]
            have h4 := hv.safety
            rw [pow_zero, one_mul] at hn
            nlinarith [I.positive, h2.2]
          have h4 := hneg (S.time l'.x) l'.h (lt_of_mul_lt_mul_left h3 (abs_nonneg _))
          rw [h1] at h4
          cases h4
        · obtain ⟨m, hm'⟩ : ∃ m, p.safetyFactor ^ m * (p.firstStep * l'.h) < |p.firstStep| * ε := by
            obtain ⟨m, hm'⟩ := exists_pow_lt_of_lt_one (div_pos (mul_pos (abs_pos.mpr hv.step) hε) I'.positive) hv.safety.2
            exact ⟨m, (lt_div_iff₀ I'.positive).mp hm'⟩
          obtain ⟨fuel, r, hr⟩ := ihk m I' (by omega) hm'
          exact ⟨fuel + 1, r, by rw [AdaptiveStepper.loop, hi]; exact hr⟩
    | succ n ihn =>
      intro l I hk hn
      cases hi : S.iterate stop negligible tolerance p tFinal l with
      | inr r => exact ⟨1, r, by rw [AdaptiveStepper.loop, hi]⟩
      | inl l' =>
        have I' := I.iterate (stop := stop) hv
        rw [hi] at I'
        obtain ⟨h1, h2⟩ := I.progress hv hi
        rcases h2 with h2 | h2
        · obtain ⟨fuel, r, hr⟩ := ihn I' (by omega) (by
            refine lt_of_le_of_lt ?_ hn
            rw [pow_succ, mul_assoc]
            exact mul_le_mul_of_nonneg_left h2.2 (pow_nonneg hv.safety.1.le _))
          exact ⟨fuel + 1, r, by rw [AdaptiveStepper.loop, hi]; exact hr⟩
        · obtain ⟨m, hm'⟩ : ∃ m, p.safetyFactor ^ m * (p.firstStep * l'.h) < |p.firstStep| * ε := by
            obtain ⟨m, hm'⟩ := exists_pow_lt_of_lt_one (div_pos (mul_pos (abs_pos.mpr hv.step) hε) I'.positive) hv.safety.2
            exact ⟨m, (lt_div_iff₀ I'.positive).mp hm'⟩
          obtain ⟨fuel, r, hr⟩ := ihk m I' (by omega) hm'
          exact ⟨fuel + 1, r, by rw [AdaptiveStepper.loop, hi]; exact hr⟩

theorem AdaptiveStepper.solve_terminates (C : S.Coherent step) (hv : p.Valid negligible tolerance) (hm : 1 ≤ p.maxSteps) {ε : ℝ} (hε : 0 < ε)
    (hneg : ∀ t h, |h| < ε → negligible t h = true) {tFinal : ℝ} {i : AInstance X} (hi : 0 < p.firstStep * i.step) (ha : 0 < p.firstStep * (tFinal - S.time i.current))
    (hu : i.firstUse = true ∨ p.lastStepIsExact = false) : ∃ fuel r, S.solve stop negligible tolerance p fuel tFinal i = .ok r := by
  have I := C.inv_start (tolerance := tolerance) hi ha
  obtain ⟨m, hm'⟩ := exists_pow_lt_of_lt_one (div_pos (mul_pos (abs_pos.mpr hv.step) hε) hi) hv.safety.2
  obtain ⟨fuel, r, hr⟩ := I.terminates (stop := stop) hv hm hε hneg p.maxSteps.toNat m (by show _ ≤ 0 + _; omega) ((lt_div_iff₀ hi).mp hm')
  exact ⟨fuel, r, by rw [S.solve_eq hv.step ha hu]; exact hr⟩

/-! ### Restarts -/

/-- A longer call does the same as a shorter one followed by another. -/
theorem AdaptiveInv.prefix {C : S.Coherent step} {t1 t2 : ℝ} {x0 : X} (hv : p.Valid negligible tolerance) (hf : 0 < p.firstStep) (hex : p.lastStepIsExact = false) (h12 : t1 ≤ t2)
    (fuel : ℕ) : ∀ {l : AdaptiveLoop X G} (I : AdaptiveInv C tolerance p t1 x0 l) {i : AInstance X} {appended : List X},
    S.loop stop negligible tolerance p t1 fuel l = .ok (i, .ok, appended) →
      ∃ l' n, AdaptiveInv C tolerance p t1 x0 l' ∧ l'.x = i.current ∧ l'.h = i.step ∧ l'.appended = appended ∧
        l'.status.update (S.attempt l'.h l'.x l'.g).status = .ok ∧ ∀ fuel', S.loop stop negligible tolerance p t2 (n + fuel') l = S.loop stop negligible tolerance p t2 fuel' l' := by
  induction fuel with
  | zero => intro l I i appended h; cases h
  | succ fuel ih =>
    intro l I i appended h
    rw [AdaptiveStepper.loop] at h
    have hnot : ∀ t, ¬ S.atEnd p t l.x l.h := fun t c => absurd (c.1.symm.trans hex) (by decide)
    have htr : ∀ t, S.truncated p t l.x l.h = l.h := fun t => if_neg (hnot t)
    by_cases hover : ¬ tolerance l.h l.x (S.attempt l.h l.x l.g).error < 1 ∧ t1 < S.time l.x + l.h
    · have hi : S.iterate stop negligible tolerance p t1 l = .inr (⟨l.x, l.h, false⟩, l.status.update (S.attempt l.h l.x l.g).status, l.appended) := by
        unfold AdaptiveStepper.iterate
        simp only [htr]
        rw [if_neg hover.1, if_pos ⟨hex, hover.2⟩]
      rw [hi] at h
      simp only [Except.ok.injEq, Prod.mk.injEq] at h
      obtain ⟨rfl, hst, rfl⟩ := h
      exact ⟨l, 0, I, rfl, rfl, rfl, hst, fun fuel' => by rw [Nat.zero_add]⟩
    · have he : S.iterate stop negligible tolerance p t2 l = S.iterate stop negligible tolerance p t1 l := by
        unfold AdaptiveStepper.iterate
        simp only [htr]
        by_cases h1 : tolerance l.h l.x (S.attempt l.h l.x l.g).error < 1
        · rw [if_pos h1, if_pos h1]
        · have h2 : ¬ t1 < S.time l.x + l.h := fun c => hover ⟨h1, c⟩
          rw [if_neg h1, if_neg h1, if_neg (c := p.lastStepIsExact = false ∧ t1 < S.time l.x + l.h) (fun c => h2 c.2),
            if_neg (c := p.lastStepIsExact = false ∧ t2 < S.time l.x + l.h) (fun c => h2 (lt_of_le_of_lt h12 c.2))]
          have e1 : (S.atEnd p t2 l.x l.h) = False := eq_false (hnot t2)
          have e2 : (S.atEnd p t1 l.x l.h) = False := eq_false (hnot t1)
          simp only [e1, e2]
      have I' := I.iterate (stop := stop) hv
      cases hi : S.iterate stop negligible tolerance p t1 l with
      | inr r =>
        exfalso
        rw [hi] at h I'
        cases h
        have h3 := I'.inexact rfl hex
        unfold AdaptiveStepper.iterate AdaptiveStepper.adapt at hi
        simp only [htr] at hi
        split_ifs at hi with h1 hn h2 hs4 h4 h5 h6 hn' <;> simp only [Sum.inr.injEq, Prod.mk.injEq, reduceCtorEq] at hi
        · exact absurd hi.2.1 (by decide)
        · exact hover ⟨h1, h2.2⟩
        · exact absurd hi.2.1 (by decide)
        · exact absurd (h4.2.symm.trans hi.2.1) (by decide)
        · exact absurd hi.2.1 (by decide)
        · exact hnot _ h6
        · exact absurd hi.2.1 (by decide)
      | inl l' =>
        rw [hi] at h I'
        obtain ⟨l'', n, h1, h2, h3, h4, h6, h5⟩ := ih I' h
        refine ⟨l'', n + 1, h1, h2, h3, h4, h6, fun fuel' => ?_⟩
        rw [show n + 1 + fuel' = n + fuel' + 1 by omega, AdaptiveStepper.loop, he, hi]
        exact h5 fuel'

theorem AdaptiveStepper.loop_length (S : AdaptiveStepper X G E) {tFinal : ℝ} (fuel : ℕ) : ∀ {l : AdaptiveLoop X G} {r : AInstance X × Status × List X},
    S.loop stop negligible tolerance p tFinal fuel l = .ok r → l.appended.length ≤ r.2.2.length := by
  induction fuel with
  | zero => intro l r h; cases h
  | succ n ih =>
    intro l r h
    rw [AdaptiveStepper.loop] at h
    cases hi : S.iterate stop negligible tolerance p tFinal l with
    | inl l' =>
      rw [hi] at h
      refine le_trans ?_ (ih h)
      unfold AdaptiveStepper.iterate AdaptiveStepper.adapt at hi
      simp only at hi
      split_ifs at hi <;> · cases hi; simp
    | inr r' =>
      rw [hi] at h
      cases h
      unfold AdaptiveStepper.iterate AdaptiveStepper.adapt at hi
      simp only at hi
      split_ifs at hi <;> · cases hi; simp

/-- The iterations starting from loops in the same state and with the same step. -/
theorem AdaptiveStepper.Coherent.simulate (C : S.Coherent step) {tFinal : ℝ} (hab : ∀ h x g, (S.attempt h x g).status = .ok) (hex : p.lastStepIsExact = false) (base : List X) (fuel : ℕ) :
    ∀ (l l' : AdaptiveLoop X G), C.good l.x l.g → C.good l'.x l'.g → l'.x = l.x → l'.h = l.h → l'.status = l.status → l'.appended = base ++ l.appended → l.count = l.appended.length →
      l'.count = l'.appended.length → ∀ {i : AInstance X} {status : Status} {appended : List X}, S.loop (fun _ => false) negligible tolerance p tFinal fuel l = .ok (i, status, appended) →
        (1 ≤ p.maxSteps → (base.length + appended.length : ℤ) < p.maxSteps) → S.loop (fun _ => false) negligible tolerance p tFinal fuel l' = .ok (i, status, base ++ appended) := by
  induction fuel with
  | zero => intro l l' _ _ _ _ _ _ _ _ i status appended h; cases h
  | succ fuel ih =>
    rintro ⟨x, g, h, s, a, c⟩ ⟨x', g', h', s', a', c'⟩ hg hg' hx hh hst ha hc hc' i status appended hr hmax
    simp only at hg hg' hx hh hst ha hc hc'
    subst hx hh hst ha hc hc'
    have hnot : ¬ S.atEnd p tFinal x' h' := fun c => absurd (c.1.symm.trans hex) (by decide)
    have htr : S.truncated p tFinal x' h' = h' := if_neg hnot
    obtain ⟨u1, u2⟩ := C.unique h' x' g g' hg hg'
    have hn1 := C.next h' x' g hg
    have hn2 := C.next h' x' g' hg'
    rw [AdaptiveStepper.loop] at hr ⊢
    unfold AdaptiveStepper.iterate AdaptiveStepper.adapt at hr ⊢
    simp only [htr, Bool.false_eq_true, if_false] at hr ⊢
    have ha1 := hab h' x' g
    have ha2 := hab h' x' g'
    rw [← u1] at hn2
    rw [← u1, ← u2]
    generalize (S.attempt h' x' g).error = e at hr ⊢
    generalize (S.attempt h' x' g).next = y at hr hn1 hn2 ⊢
    generalize tolerance h' x' e = ratio at hr ⊢
    have e1 : (S.atEnd p tFinal x' h') = False := eq_false hnot
    simp only [e1, ha1, ha2, reduceCtorEq, and_false, if_false, not_false_eq_true, and_true] at hr ⊢
    by_cases h1 : ratio < 1
    · rw [if_pos h1] at hr ⊢
      by_cases h2 : negligible (S.time x') (S.adapted p h' ratio) = true
      · rw [if_pos h2] at hr ⊢
        cases hr
        rfl
      · rw [if_neg h2] at hr ⊢
        exact ih ⟨x', g, _, s', a, a.length⟩ ⟨x', g', _, s', base ++ a, _⟩ hg hg' rfl rfl rfl rfl rfl rfl hr hmax
    · rw [if_neg h1] at hr ⊢
      by_cases h2 : p.lastStepIsExact = false ∧ tFinal < S.time x' + h'
      · rw [if_pos h2] at hr ⊢
        cases hr
        rfl
      · rw [if_neg h2] at hr ⊢
        have key : ∀ n : ℕ, a.length + 1 ≤ n → (1 ≤ p.maxSteps → (base.length + n : ℤ) < p.maxSteps) → ¬ (((base ++ a).length + 1 : ℕ) : ℤ) = p.maxSteps := by
          intro n hn hm c
          rw [List.length_append] at c
          have := hm (by omega)
          omega
        by_cases h3 : ((a.length + 1 : ℕ) : ℤ) = p.maxSteps
        · exfalso
          rw [if_pos h3] at hr
          cases hr
          have := hmax (by omega)
          rw [List.length_append] at this
          simp at this
          omega
        · rw [if_neg h3] at hr
          have hlen : a.length + 1 ≤ appended.length := by
            split_ifs at hr
            · cases hr
              simp
            · have := S.loop_length fuel hr
              simpa using this
          rw [if_neg (key appended.length hlen hmax)]
          by_cases h4 : negligible (S.time y) (S.adapted p h' ratio) = true
          · rw [if_pos h4] at hr ⊢
            cases hr
            simp
          · rw [if_neg h4] at hr ⊢
            exact ih ⟨y, _, _, _, a ++ [y], a.length + 1⟩ ⟨y, _, _, _, base ++ a ++ [y], _⟩ hn1 hn2 rfl rfl rfl (by simp) (by simp) (by simp; omega) hr hmax

/-- If the equation never fails, nobody stops the integration and the maximal number of steps is not reached, interrupting an integration whose last step need not be exact doesn't change it. -/
theorem AdaptiveStepper.solve_restart (C : S.Coherent step) (hv : p.Valid negligible tolerance) (hok : ∀ h x g, (S.attempt h x g).status = .ok) (hstart : ∀ x, (S.start x).2 = .ok)
    (hf : 0 < p.firstStep) (hex : p.lastStepIsExact = false) {fuel1 fuel2 : ℕ} {t1 t2 : ℝ} (h12 : t1 ≤ t2) {i i1 i2 : AInstance X} (hi : 0 < i.step) {status : Status}
    {appended1 appended2 : List X} (h1 : S.solve (fun _ => false) negligible tolerance p fuel1 t1 i = .ok (i1, .ok, appended1))
    (h2 : S.solve (fun _ => false) negligible tolerance p fuel2 t2 i1 = .ok (i2, status, appended2))
    (hmax : 1 ≤ p.maxSteps → (appended1.length + appended2.length : ℤ) < p.maxSteps) :
    ∃ fuel, S.solve (fun _ => false) negligible tolerance p fuel t2 i = .ok (i2, status, appended1 ++ appended2) := by
  by_cases ha : 0 < p.firstStep * (t1 - S.time i.current) ∧ (i.firstUse = true ∨ p.lastStepIsExact = false)
  swap
  · rw [S.solve_check hv.step ha] at h1
    cases h1
  by_cases ha2 : 0 < p.firstStep * (t2 - S.time i1.current) ∧ (i1.firstUse = true ∨ p.lastStepIsExact = false)
  swap
  · rw [S.solve_check hv.step ha2] at h2
    cases h2
  rw [S.solve_eq hv.step ha.1 ha.2] at h1
  rw [S.solve_eq hv.step ha2.1 ha2.2] at h2
  have I := C.inv_start (tolerance := tolerance) (mul_pos hf hi) ha.1
  obtain ⟨l, n, I', e1, e2, e3, e4, e5⟩ := I.prefix hv hf hex h12 fuel1 h1
  rw [hok] at e4
  have e4' : l.status = .ok := by
    unfold Status.update at e4
    split_ifs at e4 with h <;> assumption
  refine ⟨n + fuel2, ?_⟩
  rw [S.solve_eq hv.step (by nlinarith [ha.1]) ha.2, e5, ← e3]
  refine C.simulate hok hex l.appended fuel2 _ l (C.start _) I'.good e1 e2 (by rw [e4', hstart]) ?_ rfl I'.count h2 (by rw [e3]; exact hmax)
  simp

end

end Principia.Integrators
