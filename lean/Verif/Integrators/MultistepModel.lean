import Verif.Integrators.FixedStepModel

/-!
The multistep integrators with a fixed step and the way in which they are started: integrators/starter_body.hpp, integrators/symmetric_linear_multistep_integrator_body.hpp,
integrators/explicit_linear_multistep_integrator_body.hpp.

The simplifications are those of `FixedStepModel`.  The integrator used for the startup is one of the one-step integrators of that file.
-/

namespace Principia.Integrators

noncomputable section

/-- The data of an instance of a multistep integrator: `current_state_`, and the `previous_steps_` and `startup_step_index_` of its starter. -/
structure MInstance (X P : Type*) where
  current : X
  previous : List P
  index : ℕ

/-- The part of a multistep integrator that is specific to it: the number of its steps, the way in which a step is obtained from a state (`FillStepFromState`), the time of a step, and the body of the loop up
to the call to `append_state`, given the previous steps, from the oldest to the most recent, and the state. -/
structure Multistepper (X P : Type*) where
  steps : ℕ
  fill : X → P
  time : P → ℝ
  advance : ℝ → List P → X → Status → P × X × Status

section Driver

variable {X G P : Type*} (S : Stepper X G) (M : Multistepper X P)

/-- integrators/symmetric_linear_multistep_integrator_body.hpp:20 and integrators/explicit_linear_multistep_integrator_body.hpp:21 (`startup_step_divisor`). -/
def startupStepDivisor : ℕ := 16

/-- integrators/starter_body.hpp:42-64 (`startup_append_state`).  The second component is the list of the states passed to the `append_state` of the instance. -/
def Multistepper.startupAppendState (p : MInstance X P × List X) (state : X) : MInstance X P × List X :=
  if p.1.previous.length < M.steps then
    if (p.1.index + 1) % startupStepDivisor = 0 then
      (⟨state, p.1.previous ++ [M.fill state], p.1.index + 1⟩, p.2 ++ [state])
    else (⟨state, p.1.previous, p.1.index + 1⟩, p.2)
  else p

/-- integrators/starter_body.hpp:23-74 (`Starter::Solve`).  The startup integrator has its own copy of the state, so its calls to `startup_append_state` may be processed once it has returned. -/
def Multistepper.startup (stop : List X → Bool) (checkStep : Bool) (h : ℝ) (fuel : ℕ) (tFinal : ℝ) (i : MInstance X P) : Except Failure (MInstance X P × List X) :=
  let previous := if i.previous = [] then [M.fill i.current] else i.previous
  if previous.length < M.steps then
    match S.solve stop checkStep (h / startupStepDivisor) fuel (min (S.time i.current + ((M.steps - previous.length : ℕ) : ℝ) * h + h / 2) tFinal) i.current with
    | .error e => .error e
    | .ok r => .ok (r.appended.foldl M.startupAppendState (⟨i.current, previous, i.index⟩, []))
  else .error .check

open Classical in
/-- integrators/symmetric_linear_multistep_integrator_body.hpp:69-151 and integrators/explicit_linear_multistep_integrator_body.hpp:66-130, the loop; integrators/starter_body.hpp:77-81 (`Starter::Push`).  `t`
is the time of the last step. -/
def Multistepper.loop (stop : List X → Bool) (h tFinal : ℝ) : ℕ → MInstance X P → ℝ → Status → List X → Except Failure (MInstance X P × Status × List X)
  | 0, _, _, _, _ => .error .outOfFuel
  | fuel + 1, i, t, status, appended =>
    if h ≤ tFinal - t then
      let r := M.advance h i.previous i.current status
      let i' : MInstance X P := ⟨r.2.1, (i.previous ++ [r.1]).tail, i.index⟩;
      if stop (appended ++ [r.2.1]) then .ok (i', .cancelled, appended ++ [r.2.1])
      else if r.2.2 = .aborted then .ok (i', r.2.2, appended ++ [r.2.1])
      else Multistepper.loop stop h tFinal fuel i' (t + h) r.2.2 (appended ++ [r.2.1])
    else .ok (i, status, appended)

/-- integrators/symmetric_linear_multistep_integrator_body.hpp:48-68 and integrators/explicit_linear_multistep_integrator_body.hpp:44-65: `Solve` once the startup has been called, if needed.  `appended` is
the list of the states appended by the startup. -/
def Multistepper.afterStartup (stop : List X → Bool) (h : ℝ) (fuel : ℕ) (tFinal : ℝ) (i : MInstance X P) (appended : List X) : Except Failure (MInstance X P × Status × List X) :=
  if i.previous.length = M.steps then
    if 0 < h then
      match i.previous.getLast? with
      | none => .error .check
      | some p => M.loop stop h tFinal fuel i (M.time p) .ok appended
    else .error .check
  else .ok (i, .ok, appended)

/-- integrators/symmetric_linear_multistep_integrator_body.hpp:22-152 and integrators/explicit_linear_multistep_integrator_body.hpp:23-131 (`Instance::Solve`). -/
def Multistepper.solve (stop : List X → Bool) (checkStep : Bool) (h : ℝ) (fuel : ℕ) (tFinal : ℝ) (i : MInstance X P) : Except Failure (MInstance X P × Status × List X) :=
  if i.previous.length = M.steps then M.afterStartup stop h fuel tFinal i []
  else
    match M.startup S stop checkStep h fuel tFinal i with
    | .error e => .error e
    | .ok (i', appended) => M.afterStartup stop h fuel tFinal i' appended

end Driver

variable {V : Type*} [AddCommGroup V] [Module ℝ V]

/-! ### The symmetric linear multistep integrators -/

/-- integrators/methods.hpp:84-93 (`SymmetricLinearMultistep`), and the corresponding constants of integrators/cohen_hubbard_oesterwinter.hpp. -/
structure SLMS where
  order : ℕ
  α : ℕ → ℝ
  βNumerator : ℕ → ℝ
  βDenominator : ℝ
  choNumerators : ℕ → ℝ
  choDenominator : ℝ

/-- integrators/symmetric_linear_multistep_integrator.hpp:73-88 (`Step`). -/
@[ext]
structure NStep (V : Type*) where
  time : ℝ
  displacements : V
  accelerations : V

/-- An element of the list of previous steps. -/
def stepAt (l : List (NStep V)) (j : ℕ) : NStep V := l.getD j ⟨0, 0, 0⟩

/-- integrators/symmetric_linear_multistep_integrator_body.hpp:70-114: the sums of the −αⱼ qⱼ and of the βⱼ aⱼ. -/
def SLMS.sums (m : SLMS) (l : List (NStep V)) : V × V :=
  let k := m.order
  let generic := (List.range' 1 (k / 2 - 1)).foldl
    (fun (s : V × V) j =>
      (s.1 - m.α j • (stepAt l j).displacements - m.α j • (stepAt l (k - j)).displacements, s.2 + m.βNumerator j • ((stepAt l j).accelerations + (stepAt l (k - j)).accelerations)))
    ((-m.α 0) • (stepAt l 0).displacements, m.βNumerator 0 • (stepAt l 0).accelerations)
  (generic.1 - m.α (k / 2) • (stepAt l (k / 2)).displacements, generic.2 + m.βNumerator (k / 2) • (stepAt l (k / 2)).accelerations)

/-- integrators/symmetric_linear_multistep_integrator_body.hpp:281-323 (`ComputeVelocityUsingCohenHubbardOesterwinter`). -/
def SLMS.velocity (m : SLMS) (h : ℝ) (l : List (NStep V)) : V :=
  let n := l.length
  (1 / h) • ((stepAt l (n - 1)).displacements - (stepAt l (n - 2)).displacements) +
    (h / m.choDenominator) • ∑ i ∈ Finset.range m.order, m.choNumerators i • (stepAt l (n - 1 - i)).accelerations

/-- integrators/symmetric_linear_multistep_integrator_body.hpp:48-145 and 245-269.  The state has the time of the new step. -/
def SLMS.multistepper (m : SLMS) (f : RightHandSide V) : Multistepper (NState V) (NStep V) where
  steps := m.order
  fill x := ⟨x.time, x.positions, (f x.time x.positions).1⟩
  time p := p.time
  advance h l x status :=
    let t := (stepAt l (l.length - 1)).time + h
    let q := (m.sums l).1 + (h * h / m.βDenominator) • (m.sums l).2
    let p : NStep V := ⟨t, q, (f t q).1⟩
    (p, ⟨t, q, m.velocity h (l ++ [p]).tail⟩, status.update (f t q).2)

/-! ### The explicit linear multistep integrators -/

/-- integrators/methods.hpp:64-70 (`ExplicitLinearMultistep`), with `steps`. -/
structure ELMS where
  steps : ℕ
  α : ℕ → ℝ
  βNumerator : ℕ → ℝ
  βDenominator : ℝ

/-- integrators/explicit_linear_multistep_integrator.hpp:63-67 (`Step`). -/
@[ext]
structure FStep (V : Type*) where
  s : ℝ
  y : V
  y' : V

/-- An element of the list of previous steps, from the most recent. -/
def fstepBack (l : List (FStep V)) (j : ℕ) : FStep V := l.getD (l.length - j) ⟨0, 0, 0⟩

/-- integrators/explicit_linear_multistep_integrator_body.hpp:67-93: the sums of the −αⱼ yⱼ and of the βⱼ fⱼ. -/
def ELMS.sums (m : ELMS) (l : List (FStep V)) : V × V :=
  (List.range' 1 m.steps).foldl (fun (s : V × V) j => (s.1 - m.α j • (fstepBack l j).y, s.2 + m.βNumerator j • (fstepBack l j).y')) (0, 0)

/-- integrators/explicit_linear_multistep_integrator_body.hpp:44-124 and 145-168. -/
def ELMS.multistepper (m : ELMS) (f : RightHandSide V) : Multistepper (FState V) (FStep V) where
  steps := m.steps
  fill x := ⟨x.s, x.y, (f x.s x.y).1⟩
  time p := p.s
  advance h l x status :=
    let s := (fstepBack l 1).s + h
    let y := (m.sums l).1 + (h / m.βDenominator) • (m.sums l).2
    (⟨s, y, (f s y).1⟩, ⟨s, y⟩, status.update (f s y).2)

end

end Principia.Integrators
