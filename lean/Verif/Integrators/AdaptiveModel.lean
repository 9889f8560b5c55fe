import Verif.Integrators.FixedStepModel
import Verif.Integrators.MethodsModel
import Mathlib.Analysis.SpecialFunctions.Pow.Real

/-!
The integrators with an adaptive step: integrators/embedded_explicit_runge_kutta_integrator_body.hpp, integrators/embedded_explicit_runge_kutta_nyström_integrator_body.hpp and
integrators/embedded_explicit_generalized_runge_kutta_nyström_integrator_body.hpp.

The simplifications are those of `FixedStepModel`.  In particular the time of the last stage of the last step, which is set to the final time if the last step is exact, is the sum of the current time and of the
step, since there is no rounding.  The test that detects that the step vanishes is about rounding: it is an arbitrary function here.
-/

namespace Principia.Integrators

noncomputable section

/-- integrators/integrators.hpp:160-190 (`AdaptiveStepSizeIntegrator::Parameters`). -/
structure AdaptiveParameters where
  firstStep : ℝ
  safetyFactor : ℝ
  maxSteps : ℤ
  lastStepIsExact : Bool

/-- integrators/integrators.hpp:193-224 (`AdaptiveStepSizeIntegrator::Instance`): `current_state_`, `step_` and `first_use_`. -/
structure AInstance (X : Type*) where
  current : X
  step : ℝ
  firstUse : Bool

/-- What the computation of a step yields: the state that follows with the higher order, the error estimate, the data kept for the next step if this one is accepted, and `step_status`. -/
structure Attempt (X G E : Type*) where
  next : X
  error : E
  g : G
  status : Status

/-- The part of `Solve` that is specific to an integrator.  `checksAborted` says whether the aborted status is checked after each step. -/
structure AdaptiveStepper (X G E : Type*) where
  time : X → ℝ
  lowerOrder : ℕ
  checksAborted : Bool
  start : X → G × Status
  attempt : ℝ → X → G → Attempt X G E

/-- integrators/ordinary_differential_equations.hpp:38-43. -/
def reachedMaximalStepCount : Status := .error 8

def vanishingStepSize : Status := .error 9

section Driver

variable {X G E : Type*} (S : AdaptiveStepper X G E) (stop : List X → Bool) (negligible : ℝ → ℝ → Bool) (tolerance : ℝ → X → E → ℝ) (parameters : AdaptiveParameters)

/-- The local variables of `Solve`. -/
structure AdaptiveLoop (X G : Type*) where
  x : X
  g : G
  h : ℝ
  status : Status
  appended : List X
  count : ℕ

open Classical in
/-- geometry/sign_body.hpp:18-25: the product of the sign of the first step and of a duration. -/
def AdaptiveParameters.directed (d : ℝ) : ℝ := if parameters.firstStep < 0 then -d else d

/-- integrators/embedded_explicit_runge_kutta_nyström_integrator_body.hpp:145-149: the next step to try. -/
def AdaptiveStepper.adapted (h ratio : ℝ) : ℝ := h * (parameters.safetyFactor * ratio ^ (1 / ((S.lowerOrder + 1 : ℕ) : ℝ)))

/-- integrators/embedded_explicit_runge_kutta_nyström_integrator_body.hpp:140-157: what precedes `runge_kutta_nyström_step`. -/
def AdaptiveStepper.adapt (x : X) (g : G) (h ratio : ℝ) (status : Status) (appended : List X) (count : ℕ) : AdaptiveLoop X G ⊕ (AInstance X × Status × List X) :=
  if negligible (S.time x) (S.adapted parameters h ratio) then .inr (⟨x, S.adapted parameters h ratio, false⟩, vanishingStepSize, appended)
  else .inl ⟨x, g, S.adapted parameters h ratio, status, appended, count⟩

open Classical in
/-- integrators/embedded_explicit_runge_kutta_nyström_integrator_body.hpp:161-164: `at_end`. -/
def AdaptiveStepper.atEnd (tFinal : ℝ) (x : X) (h : ℝ) : Prop := parameters.lastStepIsExact = true ∧ parameters.directed (tFinal - S.time x) ≤ parameters.directed h

open Classical in
/-- integrators/embedded_explicit_runge_kutta_nyström_integrator_body.hpp:165-174: the step, possibly truncated. -/
def AdaptiveStepper.truncated (tFinal : ℝ) (x : X) (h : ℝ) : ℝ := if S.atEnd parameters tFinal x h then tFinal - S.time x else h

open Classical in
/-- integrators/embedded_explicit_runge_kutta_nyström_integrator_body.hpp:159-258, integrators/embedded_explicit_generalized_runge_kutta_nyström_integrator_body.hpp:164-268,
integrators/embedded_explicit_runge_kutta_integrator_body.hpp:158-264: from `runge_kutta_nyström_step` to the next time when it is reached, or to the exit. -/
def AdaptiveStepper.iterate (tFinal : ℝ) (l : AdaptiveLoop X G) : AdaptiveLoop X G ⊕ (AInstance X × Status × List X) :=
  let h := S.truncated parameters tFinal l.x l.h
  let r := S.attempt h l.x l.g
  let ratio := tolerance h l.x r.error
  if ratio < 1 then S.adapt negligible parameters l.x l.g h ratio l.status l.appended l.count
  else if parameters.lastStepIsExact = false ∧ tFinal < S.time l.x + h then .inr (⟨l.x, h, false⟩, l.status.update r.status, l.appended)
  else if stop (l.appended ++ [r.next]) then .inr (⟨r.next, h, false⟩, .cancelled, l.appended ++ [r.next])
  else if S.checksAborted = true ∧ r.status = .aborted then .inr (⟨r.next, h, false⟩, r.status, l.appended ++ [r.next])
  else if ((l.count + 1 : ℕ) : ℤ) = parameters.maxSteps ∧ ¬ S.atEnd parameters tFinal l.x l.h then .inr (⟨r.next, h, false⟩, reachedMaximalStepCount, l.appended ++ [r.next])
  else if S.atEnd parameters tFinal l.x l.h then .inr (⟨l.x, h, false⟩, l.status.update r.status, l.appended ++ [r.next])
  else S.adapt negligible parameters r.next r.g h ratio (l.status.update r.status) (l.appended ++ [r.next]) (l.count + 1)

/-- The iteration. -/
def AdaptiveStepper.loop (tFinal : ℝ) : ℕ → AdaptiveLoop X G → Except Failure (AInstance X × Status × List X)
  | 0, _ => .error .outOfFuel
  | fuel + 1, l =>
    match S.iterate stop negligible tolerance parameters tFinal l with
    | .inr r => .ok r
    | .inl l' => AdaptiveStepper.loop tFinal fuel l'

open Classical in
/-- integrators/embedded_explicit_runge_kutta_nyström_integrator_body.hpp:44-259 (`Instance::Solve`), and similarly for the others.  The status that results is the last component but one, the states passed to
`append_state` are the last one. -/
def AdaptiveStepper.solve (fuel : ℕ) (tFinal : ℝ) (i : AInstance X) : Except Failure (AInstance X × Status × List X) :=
  if ¬ parameters.firstStep < 0 ∧ ¬ S.time i.current < tFinal then .error .check
  else if parameters.firstStep < 0 ∧ ¬ tFinal < S.time i.current then .error .check
  else if ¬ (i.firstUse = true ∨ parameters.lastStepIsExact = false) then .error .check
  else S.loop stop negligible tolerance parameters tFinal fuel ⟨i.current, (S.start i.current).1, i.step, (S.start i.current).2, [], 0⟩

/-- integrators/integrators_body.hpp:823-838 (the constructor of `AdaptiveStepSizeIntegrator::Instance`), called by `NewInstance`. -/
def newAdaptiveInstance (x : X) : Option (AInstance X) :=
  open Classical in
  if parameters.firstStep ≠ 0 ∧ 0 < parameters.safetyFactor ∧ parameters.safetyFactor < 1 then some ⟨x, parameters.firstStep, true⟩ else none

end Driver

variable {V : Type*} [AddCommGroup V] [Module ℝ V]

/-! ### The embedded Runge-Kutta integrators -/

/-- integrators/methods.hpp:19-29 (`EmbeddedExplicitRungeKutta`): a Runge-Kutta method, whose weights are those of the higher order, and the weights of the lower order. -/
structure EERK extends ERK where
  lowerOrder : ℕ
  bLow : ℕ → ℝ

/-- integrators/embedded_explicit_runge_kutta_integrator_body.hpp:46-262.  The stages are computed as in `ExplicitRungeKuttaIntegrator`. -/
def EERK.stepper (m : EERK) (f : RightHandSide V) : AdaptiveStepper (FState V) V V where
  time := FState.s
  lowerOrder := m.lowerOrder
  checksAborted := true
  start x := if m.firstSameAsLast = true then ((f x.s x.y).1, (f x.s x.y).2) else (0, .ok)
  attempt h x lastF :=
    let s := m.allStages f h x lastF .ok
    { next := ⟨x.s + h, x.y + ∑ i ∈ Finset.range m.stages, m.b i • s.k.getD i 0⟩
      error := ∑ i ∈ Finset.range m.stages, m.bLow i • s.k.getD i 0 - ∑ i ∈ Finset.range m.stages, m.b i • s.k.getD i 0
      g := if m.firstSameAsLast = true then s.f else lastF
      status := s.status }

/-! ### The embedded Runge-Kutta-Nyström integrators -/

/-- integrators/methods.hpp:31-62 (`EmbeddedExplicitRungeKuttaNyström` and `EmbeddedExplicitGeneralizedRungeKuttaNyström`).  The special methods have no `a'`, they don't compute the velocity of the stages. -/
structure EERKN where
  lowerOrder : ℕ
  stages : ℕ
  firstSameAsLast : Bool
  c : ℕ → ℝ
  a : ℕ → ℕ → ℝ
  a' : ℕ → ℕ → ℝ
  bHat : ℕ → ℝ
  bHat' : ℕ → ℝ
  b : ℕ → ℝ
  b' : ℕ → ℝ

/-- integrators/embedded_explicit_runge_kutta_nyström_integrator_body.hpp:28-41 and integrators/embedded_explicit_generalized_runge_kutta_nyström_integrator_body.hpp:31-44, the checks of the constructor.  There is
no check on `a'` in the code. -/
structure EERKN.Checked (m : EERKN) : Prop where
  first : m.c 0 = 0
  fsal : m.firstSameAsLast = true → m.c (m.stages - 1) = 1 ∧ m.bHat (m.stages - 1) = 0 ∧ ∀ j < m.stages - 1, m.bHat j = m.a (m.stages - 1) j

/-- integrators/ordinary_differential_equations.hpp:205-209: the right-hand side of an equation where the acceleration depends on the velocity. -/
abbrev GeneralRightHandSide (V : Type*) := ℝ → V → V → V × Status

/-- integrators/embedded_explicit_generalized_runge_kutta_nyström_integrator_body.hpp:183-201, and integrators/embedded_explicit_runge_kutta_nyström_integrator_body.hpp:178-193: stage `i`, appended to the
accelerations of the previous stages. -/
def EERKN.stage (m : EERKN) (f : GeneralRightHandSide V) (h : ℝ) (x : NState V) (s : List V × Status) (i : ℕ) : List V × Status :=
  let r := f (x.time + m.c i * h) (x.positions + (h * m.c i) • x.velocities + (h * h) • ∑ j ∈ Finset.range i, m.a i j • s.1.getD j 0)
    (x.velocities + h • ∑ j ∈ Finset.range i, m.a' i j • s.1.getD j 0)
  (s.1 ++ [r.1], s.2.update r.2)

/-- The same lines: all the stages.  `g` is the acceleration of stage 0 if it is already known, i.e., if `first_stage` is 1. -/
def EERKN.allStages (m : EERKN) (f : GeneralRightHandSide V) (h : ℝ) (x : NState V) (g : Option V) : List V × Status :=
  match g with
  | none => (List.range m.stages).foldl (m.stage f h x) ([], .ok)
  | some g => (List.range' 1 (m.stages - 1)).foldl (m.stage f h x) ([g], .ok)

/-- A sum of accelerations. -/
def weighted (stages : ℕ) (w : ℕ → ℝ) (g : List V) : V := ∑ i ∈ Finset.range stages, w i • g.getD i 0

/-- integrators/embedded_explicit_generalized_runge_kutta_nyström_integrator_body.hpp:46-269 and integrators/embedded_explicit_runge_kutta_nyström_integrator_body.hpp:44-259; the latter doesn't check for an
aborted status. -/
def EERKN.stepper (m : EERKN) (checksAborted : Bool) (f : GeneralRightHandSide V) : AdaptiveStepper (NState V) (Option V) (V × V) where
  time := NState.time
  lowerOrder := m.lowerOrder
  checksAborted := checksAborted
  start _ := (none, .ok)
  attempt h x g :=
    let s := m.allStages f h x g
    let w := fun b => weighted m.stages b s.1
    { next := ⟨x.time + h, x.positions + (h • x.velocities + (h * h) • w m.bHat), x.velocities + h • w m.bHat'⟩
      error := ((h • x.velocities + (h * h) • w m.b) - (h • x.velocities + (h * h) • w m.bHat), h • w m.b' - h • w m.bHat')
      g := if m.firstSameAsLast = true then some (s.1.getD (m.stages - 1) 0) else g
      status := s.2 }

/-! ### The tables -/

/-- integrators/embedded_explicit_runge_kutta_integrator.hpp, where the coefficients of the integrator are those of the method. -/
def EmbeddedTable.method (t : EmbeddedTable) : EERK where
  stages := t.stages
  firstSameAsLast := t.firstSameAsLast
  a i j := (((t.a.getD i []).getD j 0 : ℚ) : ℝ)
  b i := ((t.bHat.getD i 0 : ℚ) : ℝ)
  c i := ((t.c.getD i 0 : ℚ) : ℝ)
  lowerOrder := t.lowerOrder
  bLow i := ((t.b.getD i 0 : ℚ) : ℝ)

/-- integrators/embedded_explicit_generalized_runge_kutta_nyström_integrator.hpp, where the coefficients of the integrator are those of the method. -/
def GeneralizedNystromTable.method (t : GeneralizedNystromTable) : EERKN where
  lowerOrder := t.lowerOrder
  stages := t.stages
  firstSameAsLast := t.firstSameAsLast
  c i := ((t.c.getD i 0 : ℚ) : ℝ)
  a i j := (((t.a.getD i []).getD j 0 : ℚ) : ℝ)
  a' i j := (((t.a'.getD i []).getD j 0 : ℚ) : ℝ)
  bHat i := ((t.bHat.getD i 0 : ℚ) : ℝ)
  bHat' i := ((t.bHat'.getD i 0 : ℚ) : ℝ)
  b i := ((t.b.getD i 0 : ℚ) : ℝ)
  b' i := ((t.b'.getD i 0 : ℚ) : ℝ)

/-- integrators/embedded_explicit_runge_kutta_nyström_integrator.hpp, where the coefficients of the integrator are those of the method. -/
def NystromTable.method (t : NystromTable) : EERKN := GeneralizedNystromTable.method { toNystromTable := t, a' := [] }

/-- integrators/ordinary_differential_equations.hpp:151-153: the right-hand side of an equation where the acceleration doesn't depend on the velocity. -/
def RightHandSide.general (f : RightHandSide V) : GeneralRightHandSide V := fun t q _ => f t q

/-- The integrators for special equations. -/
def NystromTable.stepper (t : NystromTable) (f : RightHandSide V) : AdaptiveStepper (NState V) (Option V) (V × V) := t.method.stepper false f.general

/-- The integrators for general equations. -/
def GeneralizedNystromTable.stepper (t : GeneralizedNystromTable) (f : GeneralRightHandSide V) : AdaptiveStepper (NState V) (Option V) (V × V) := t.method.stepper true f

end

end Principia.Integrators
