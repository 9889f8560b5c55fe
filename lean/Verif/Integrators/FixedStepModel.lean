import Mathlib.Data.Real.Basic
import Mathlib.Algebra.Module.Basic
import Mathlib.Algebra.BigOperators.Group.Finset.Basic

/-!
The one-step integrators with a fixed step: integrators/symplectic_runge_kutta_nyström_integrator_body.hpp and
integrators/explicit_runge_kutta_integrator_body.hpp.

The times are real numbers and the dependent variables are the elements of a real vector space: the rounding and the compensated summation of `DoublePrecision` are not modelled, a `DoublePrecision` is the
exact sum of its `value` and its `error`.  The vector space stands for the whole vector of the dependent variables (`std::vector<Position>`, or the tuple of a first-order equation): every loop over the
dimensions in the code is componentwise.  The right-hand side of the equation is a function from a time and a value of the dependent variables to a derivative and a status.
-/

namespace Principia.Integrators

/-- `absl::Status`, as far as the integrators distinguish the codes. -/
inductive Status where
  | ok
  | aborted
  | cancelled
  | error (code : ℕ)
  deriving DecidableEq

/-- `absl::Status::Update`: the first error is kept. -/
def Status.update (s t : Status) : Status := if s = .ok then t else s

/-- The ways in which a call may not return: a `CHECK` failed, or the fuel was exhausted. -/
inductive Failure where
  | check
  | outOfFuel
  deriving DecidableEq

/-- What a call to `Solve` does: the `current_state_` that it leaves, the status that it returns and the states that it passes to `append_state`, in that order. -/
structure Result (X : Type*) where
  state : X
  status : Status
  appended : List X

/-- The part of `Solve` that is specific to an integrator: `start` is what precedes the loop, `advance` is the body of the loop up to the call to `append_state`, `time` is the time of a state.  `G` is the
data which is kept from one iteration of the loop to the next. -/
structure Stepper (X G : Type*) where
  time : X → ℝ
  start : X → G × Status
  advance : ℝ → X → G → Status → X × G × Status

noncomputable section

section Driver

variable {X G : Type*} (S : Stepper X G) (stop : List X → Bool)

open Classical in
/-- integrators/symplectic_runge_kutta_nyström_integrator_body.hpp:97-143 and integrators/explicit_runge_kutta_integrator_body.hpp:108-170, the loop.  Whether a stop is requested when `RETURN_IF_STOPPED`
is reached is a function of the states appended so far: any schedule of the request can be so described. -/
def Stepper.loop (h tFinal : ℝ) : ℕ → X → G → Status → List X → Except Failure (Result X)
  | 0, _, _, _, _ => .error .outOfFuel
  | fuel + 1, x, g, status, appended =>
    if |h| ≤ |tFinal - S.time x| then
      if stop (appended ++ [(S.advance h x g status).1]) then
        .ok ⟨(S.advance h x g status).1, .cancelled, appended ++ [(S.advance h x g status).1]⟩
      else if (S.advance h x g status).2.2 = .aborted then
        .ok ⟨(S.advance h x g status).1, (S.advance h x g status).2.2, appended ++ [(S.advance h x g status).1]⟩
      else
        Stepper.loop h tFinal fuel (S.advance h x g status).1 (S.advance h x g status).2.1 (S.advance h x g status).2.2 (appended ++ [(S.advance h x g status).1])
    else .ok ⟨x, status, appended⟩

open Classical in
/-- integrators/symplectic_runge_kutta_nyström_integrator_body.hpp:24-144 and integrators/explicit_runge_kutta_integrator_body.hpp:47-171 (`Instance::Solve`).  The former checks that the step is not zero,
which the latter doesn't do: `checkStep` is true for the former. -/
def Stepper.solve (checkStep : Bool) (h : ℝ) (fuel : ℕ) (tFinal : ℝ) (x : X) : Except Failure (Result X) :=
  if checkStep = true ∧ h = 0 then .error .check
  else if 0 ≤ h ∧ ¬ S.time x < tFinal then .error .check
  else if h < 0 ∧ ¬ tFinal < S.time x then .error .check
  else S.loop stop h tFinal fuel x (S.start x).1 (S.start x).2 []

end Driver

/-! ### The symplectic Runge-Kutta-Nyström integrators -/

/-- serialization/integrators.proto, `FixedStepSizeIntegrator.CompositionMethod`, without the unspecified one. -/
inductive Composition where
  | BA
  | ABA
  | BAB
  deriving DecidableEq

/-- integrators/methods.hpp:95-118 (`SymplecticRungeKuttaNyström`). -/
structure SRKN where
  timeReversible : Bool
  composition : Composition
  stages : ℕ
  a : ℕ → ℝ
  b : ℕ → ℝ

/-- integrators/symplectic_runge_kutta_nyström_integrator_body.hpp:203-207: the nodes. -/
def SRKN.c (m : SRKN) (i : ℕ) : ℝ := ∑ j ∈ Finset.range i, m.a j

/-- integrators/symplectic_runge_kutta_nyström_integrator_body.hpp:200-238, the checks of the constructor.  The sum of the `a` is exactly 1 here, it may be off by 4 ULPs in the code.  That there is at least
one stage (two if there is one more stage than evaluations) is by construction of the methods. -/
structure SRKN.Checked (m : SRKN) : Prop where
  stages : (match m.composition with | .BA => 0 | _ => 1) < m.stages
  sum : m.c m.stages = 1
  aba : m.composition = .ABA → m.b 0 = 0
  bab : m.composition = .BAB → m.a (m.stages - 1) = 0
  reversibleABA : m.timeReversible = true → m.composition = .ABA → (∀ i < m.stages, m.a i = m.a (m.stages - 1 - i)) ∧ ∀ i < m.stages - 1, m.b (i + 1) = m.b (m.stages - 1 - i)
  reversibleBAB : m.timeReversible = true → m.composition = .BAB → (∀ i < m.stages - 1, m.a i = m.a (m.stages - 2 - i)) ∧ ∀ i < m.stages, m.b i = m.b (m.stages - 1 - i)
  reversibleBA : m.timeReversible = true → m.composition ≠ .BA

/-- integrators/ordinary_differential_equations.hpp, the state of a `DecomposableFirstOrderDifferentialEquation` or of a `SpecialSecondOrderDifferentialEquation`: the time, the positions and the velocities. -/
@[ext]
structure NState (V : Type*) where
  time : ℝ
  positions : V
  velocities : V

/-- The right-hand side of an equation: `compute_acceleration` or `compute_derivative`. -/
abbrev RightHandSide (V : Type*) := ℝ → V → V × Status

variable {V : Type*} [AddCommGroup V] [Module ℝ V]

/-- The variables of the loop over the stages: `Δq`, `Δv`, `g` and `status`. -/
structure Stage (V : Type*) where
  dq : V
  dv : V
  g : V
  status : Status

/-- integrators/symplectic_runge_kutta_nyström_integrator_body.hpp:113-129: one stage. -/
def SRKN.stage (m : SRKN) (f : RightHandSide V) (h : ℝ) (x : NState V) (s : Stage V) (i : ℕ) : Stage V :=
  let r := f (x.time + m.c i * h) (x.positions + s.dq)
  let dv := s.dv + (h * m.b i) • r.1;
  { dq := s.dq + (h * m.a i) • (x.velocities + dv), dv := dv, g := r.1, status := s.status.update r.2 }

/-- integrators/symplectic_runge_kutta_nyström_integrator_body.hpp:86. -/
def SRKN.firstStage (m : SRKN) : ℕ := match m.composition with | .BA => 0 | _ => 1

/-- integrators/symplectic_runge_kutta_nyström_integrator_body.hpp:98-110: what precedes the loop over the stages. -/
def SRKN.initialStage (m : SRKN) (h : ℝ) (x : NState V) (g : V) (status : Status) : Stage V :=
  match m.composition with
  | .BA => { dq := 0, dv := 0, g := g, status := status }
  | .ABA => { dq := (h * m.a 0) • x.velocities, dv := 0, g := g, status := status }
  | .BAB => { dq := (h * m.a 0) • (x.velocities + (h * m.b 0) • g), dv := (h * m.b 0) • g, g := g, status := status }

/-- integrators/symplectic_runge_kutta_nyström_integrator_body.hpp:98-130: all the stages. -/
def SRKN.allStages (m : SRKN) (f : RightHandSide V) (h : ℝ) (x : NState V) (g : V) (status : Status) : Stage V :=
  (List.range' m.firstStage (m.stages - m.firstStage)).foldl (m.stage f h x) (m.initialStage h x g status)

/-- integrators/symplectic_runge_kutta_nyström_integrator_body.hpp:88-143.  In the compositions where `g` is not evaluated first, it is zero (`std::vector<Acceleration> g(dimension)`). -/
def SRKN.stepper (m : SRKN) (f : RightHandSide V) : Stepper (NState V) V where
  time := NState.time
  start x := match m.composition with | .BAB => ((f x.time x.positions).1, Status.ok.update (f x.time x.positions).2) | _ => (0, .ok)
  advance h x g status :=
    let s := m.allStages f h x g status
    (⟨x.time + h, x.positions + s.dq, x.velocities + s.dv⟩, s.g, s.status)

/-! ### The explicit Runge-Kutta integrators -/

/-- integrators/methods.hpp:72-82 (`ExplicitRungeKutta`). -/
structure ERK where
  stages : ℕ
  firstSameAsLast : Bool
  a : ℕ → ℕ → ℝ
  b : ℕ → ℝ
  c : ℕ → ℝ

/-- integrators/explicit_runge_kutta_integrator_body.hpp:30-44, the checks of the constructor. -/
structure ERK.Checked (m : ERK) : Prop where
  stages : 0 < m.stages
  first : m.c 0 = 0
  fsal : m.firstSameAsLast = true → m.c (m.stages - 1) = 1 ∧ m.b (m.stages - 1) = 0 ∧ ∀ j < m.stages - 1, m.b j = m.a (m.stages - 1) j

/-- integrators/ordinary_differential_equations.hpp, the state of an `ExplicitFirstOrderOrdinaryDifferentialEquation`. -/
@[ext]
structure FState (V : Type*) where
  s : ℝ
  y : V

/-- The variables of the loop over the stages: `k`, `f` and `status`. -/
structure RKStage (V : Type*) where
  k : List V
  f : V
  status : Status

/-- integrators/explicit_runge_kutta_integrator_body.hpp:111-138: stage `i`. -/
def ERK.stage (m : ERK) (f : RightHandSide V) (h : ℝ) (x : FState V) (lastF : V) (s : RKStage V) (i : ℕ) : RKStage V :=
  if i = 0 ∧ m.firstSameAsLast = true then { k := s.k ++ [h • lastF], f := lastF, status := s.status }
  else
    let r := f (x.s + m.c i * h) (x.y + ∑ j ∈ Finset.range i, m.a i j • s.k.getD j 0)
    { k := s.k ++ [h • r.1], f := r.1, status := s.status.update r.2 }

/-- integrators/explicit_runge_kutta_integrator_body.hpp:110-138: all the stages. -/
def ERK.allStages (m : ERK) (f : RightHandSide V) (h : ℝ) (x : FState V) (lastF : V) (status : Status) : RKStage V :=
  (List.range m.stages).foldl (m.stage f h x lastF) { k := [], f := 0, status := status }

/-- integrators/explicit_runge_kutta_integrator_body.hpp:101-162. -/
def ERK.stepper (m : ERK) (f : RightHandSide V) : Stepper (FState V) V where
  time := FState.s
  start x := if m.firstSameAsLast = true then f x.s x.y else (0, .ok)
  advance h x lastF status :=
    let s := m.allStages f h x lastF status
    (⟨x.s + h, x.y + ∑ i ∈ Finset.range m.stages, m.b i • s.k.getD i 0⟩, if m.firstSameAsLast = true then s.f else lastF, s.status)

end

end Principia.Integrators
