import Verif.Physics.ContinuousTrajectoryModel

/-!
# Model of the history of an ephemeris, `physics/ephemeris_body.hpp`

The construction, prolongation, serialization, deserialization and reanimation of an ephemeris.  The simplifications are those of `ContinuousTrajectoryModel` and `CheckpointerModel`.  The integrator is an arbitrary
deterministic function on the states of its instances, which may be multistep, with a startup.  The reanimator thread is modelled by the segments that remain to be reanimated and by the trajectories that have been computed
and not stitched yet; its actions, which are the computation of a segment and its stitching, are interleaved with the calls to the ephemeris, each of which is atomic because it holds the lock.  `last_severe_integration_status_`
is not modelled, nor is the compatibility with the saves made by versions before Grassmann.
-/

namespace Principia.Ephemeris

open Principia.ContinuousTrajectory Principia.Checkpointer

variable {T L D P E I : Type} [AddCommGroup T] [LinearOrder T] [IsOrderedAddMonoid T] [Field L] [LinearOrder L]

/-- A call that didn't return: a `CHECK` failed or the behaviour is undefined, or it does more iterations than the bound given to the model. -/
inductive Failure
  | crashed
  | outOfFuel
  deriving DecidableEq

/-- The result of a function that may fail a `CHECK`. -/
def checked {A : Type} : Option A → Except Failure A
  | none => .error .crashed
  | some a => .ok a

/-- A function applied to all the elements of a list, in order. -/
def forAll {A B : Type} (f : A → Option B) : List A → Option (List B)
  | [] => some []
  | a :: l => (f a).bind fun b => (forAll f l).map (b :: ·)

/-- A function applied to all the pairs of elements of two lists that must have the same length. -/
def forAll₂ {A A' B : Type} (f : A → A' → Option B) : List A → List A' → Option (List B)
  | [], [] => some []
  | a :: l, a' :: l' => (f a a').bind fun b => (forAll₂ f l l').map (b :: ·)
  | _, _ => none

/-- The instances of a fixed-step integrator, integrators/integrators.hpp: the time, the size of the next step, the instance after the next step, whether its state is passed to `append_state` when it is reached, whether it has
been started, and the degrees of freedom of the bodies.  For a multistep integrator, the steps of the startup integrator are smaller, and only some of its states are passed to `append_state`, integrators/starter_body.hpp:42-64. -/
structure Integrator (T D I : Type) where
  time : I → T
  dt : I → T
  advance : I → I
  appends : I → Bool
  started : I → Bool
  state : I → List D

/-- The parameters of an ephemeris.  `maxTimeBetweenCheckpoints` is 180 days, physics/ephemeris_body.hpp:61. -/
structure Env (T L D P E I : Type) where
  trajectory : ContinuousTrajectory.Env T L D P E
  integrator : Integrator T D I
  maxTimeBetweenCheckpoints : T

/-- The polls of the stop token of the thread, base/stoppable_thread.hpp:16-36 `RETURN_IF_STOPPED`: `none` if they all return false, `some n` if they return false `n` times, and then true. -/
abbrev Stop := Option ℕ

/-- A poll. -/
def Stop.poll : Stop → Bool × Stop
  | none => (false, none)
  | some 0 => (true, some 0)
  | some (n + 1) => (false, some n)

/-- integrators/symmetric_linear_multistep_integrator_body.hpp:22-152 `Instance::Solve`, with integrators/starter_body.hpp:24-75 `Starter::Solve`, whose error status is ignored: a stop during the startup ends it, and ends the
call with an OK status if the startup is not complete.  `append` is the call to `append_state`.  The result has the instance, the data modified by `append`, and whether the status is OK.  A one-step integrator is always
started.  The equation of motion never returns an error. -/
def solve {σ : Type} (integrator : Integrator T D I) (append : I → σ → Option σ) (tFinal : T) : ℕ → Stop → I → σ → Except Failure (I × σ × Bool × Stop)
  | 0, _, _, _ => .error .outOfFuel
  | fuel + 1, stop, i, s =>
    if integrator.dt i ≤ tFinal - integrator.time i then
      let i' := integrator.advance i
      match (if integrator.appends i' then append i' s else some s) with
      | none => .error .crashed
      | some s' =>
        match stop.poll with
        | (false, stop') => solve integrator append tFinal fuel stop' i' s'
        | (true, stop') =>
          if integrator.started i then .ok (i', s', false, stop')
          else if integrator.started i' then solve integrator append tFinal fuel stop' i' s'
          else .ok (i', s', true, stop')
    else .ok (i, s, true, stop)

/-- The members of the ephemeris: `trajectories_`, `checkpointer_`, `instance_`, `oldest_reanimated_checkpoint_`; for the latter, `none` is -∞. -/
structure State (T L D P E I : Type) where
  trajectories : List (Trajectory T L D P E)
  checkpoints : Checkpointer.State T I
  inst : I
  oldestReanimated : Option T

/-- physics/ephemeris_body.hpp:1098-1116 `AppendMassiveBodiesStateToTrajectories`, without the statuses. -/
def appendToTrajectories (env : Env T L D P E I) (i : I) (trajectories : List (Trajectory T L D P E)) : Option (List (Trajectory T L D P E)) :=
  forAll₂ (fun s d => (append env.trajectory s (env.integrator.time i) d).map Prod.fst) trajectories (env.integrator.state i)

/-- physics/ephemeris_body.hpp:923-934 `WriteToCheckpointIfNeeded`. -/
def writeToCheckpointIfNeeded (env : Env T L D P E I) (s : State T L D P E I) (t : T) : Option (State T L D P E I) :=
  (Checkpointer.writeIfNeeded s.checkpoints t env.maxTimeBetweenCheckpoints s.inst).bind fun r =>
    if r.2 then (forAll (fun x => writeToCheckpoint x t) s.trajectories).map fun l => { s with checkpoints := r.1, trajectories := l }
    else some s

/-- physics/ephemeris_body.hpp:1072-1096 `AppendMassiveBodiesState`, called when the instance is `i`. -/
def appendState (env : Env T L D P E I) (i : I) (s : State T L D P E I) : Option (State T L D P E I) :=
  (appendToTrajectories env i s.trajectories).bind fun l => writeToCheckpointIfNeeded env { s with trajectories := l, inst := i } (env.integrator.time i)

/-- physics/ephemeris_body.hpp:93-171: the constructor, when the instance for the initial state is `i0`. -/
def create (env : Env T L D P E I) (i0 : I) : Option (State T L D P E I) :=
  if env.integrator.state i0 = [] then none
  else
    (forAll (fun d => (append env.trajectory (ContinuousTrajectory.create env.trajectory) (env.integrator.time i0) d).bind fun r => if r.2 then some r.1 else none) (env.integrator.state i0)).map fun l =>
      { trajectories := l, checkpoints := [], inst := i0, oldestReanimated := none }

/-- The larger of two instants one of which may be +∞. -/
def maxTop : Option T → Option T → Option T
  | some a, some b => some (max a b)
  | _, _ => none

/-- The smaller of two instants one of which may be -∞. -/
def minBot : Option T → Option T → Option T
  | some a, some b => some (min a b)
  | _, _ => none

/-- physics/ephemeris_body.hpp:1154-1162 `t_min_locked`. -/
def tMin (s : State T L D P E I) : Option T :=
  match s.trajectories with
  | [] => none
  | x :: l => (x :: l).foldl (fun t y => maxTop t (ContinuousTrajectory.tMin y)) (ContinuousTrajectory.tMin x)

/-- physics/ephemeris_body.hpp:1164-1172 `t_max_locked`. -/
def tMax (s : State T L D P E I) : Option T :=
  match s.trajectories with
  | [] => none
  | x :: l => (x :: l).foldl (fun t y => minBot t (ContinuousTrajectory.tMax y)) (ContinuousTrajectory.tMax x)

/-- Whether an instant, which may be -∞, is before another one. -/
def beforeBot (a : Option T) (b : T) : Bool :=
  match a with
  | none => true
  | some a => decide (a < b)

/-- physics/ephemeris_body.hpp:334-341: the loop. -/
def prolongLoop (env : Env T L D P E I) (fuel : ℕ) (desiredTMax : T) : ℕ → T → Stop → State T L D P E I → Except Failure (State T L D P E I × Bool)
  | 0, _, _, _ => .error .outOfFuel
  | n + 1, tFinal, stop, s =>
    if beforeBot (tMax s) desiredTMax then
      match solve env.integrator (appendState env) tFinal fuel stop s.inst s with
      | .error e => .error e
      | .ok (i, s', _, stop') =>
        match stop'.poll with
        | (true, _) => .ok ({ s' with inst := i }, false)
        | (false, stop'') => prolongLoop env fuel desiredTMax n (tFinal + env.trajectory.step) stop'' { s' with inst := i }
    else .ok (s, true)

/-- physics/ephemeris_body.hpp:315-321: the time that `t_max` must reach. -/
def desiredTMax (env : Env T L D P E I) (s : State T L D P E I) (t : T) (maxSteps : ℤ) : T := min t (env.integrator.time s.inst + maxSteps • env.trajectory.step)

/-- physics/ephemeris_body.hpp:312-344 `Prolong`: the ephemeris after the call, and whether the status is OK. -/
def prolong (env : Env T L D P E I) (fuel : ℕ) (t : T) (maxSteps : ℤ) (stop : Stop) (s : State T L D P E I) : Except Failure (State T L D P E I × Bool) :=
  prolongLoop env fuel (desiredTMax env s t maxSteps) fuel
    (if desiredTMax env s t maxSteps ≤ env.integrator.time s.inst then env.integrator.time s.inst + env.trajectory.step else desiredTMax env s t maxSteps) stop s

/-- The evaluation of the trajectory of a body, which may change its look-up cache. -/
def evaluate (s : State T L D P E I) (b : ℕ) (t : T) : Option (P × State T L D P E I) :=
  (s.trajectories[b]?).bind fun x => (ContinuousTrajectory.evaluate x t).map fun r => (r.1, { s with trajectories := s.trajectories.set b r.2 })

/-- The serialized form of an ephemeris, without its parameters and its bodies. -/
structure Message (T L D P E I : Type) where
  checkpoints : List (T × I)
  trajectories : List (ContinuousTrajectory.Message T L D P E)

/-- physics/ephemeris_body.hpp:775-802 `WriteToMessage`: the message and the ephemeris after the call. -/
def writeToMessage (env : Env T L D P E I) (s : State T L D P E I) : Option (Message T L D P E I × State T L D P E I) :=
  (writeToCheckpointIfNeeded env s (env.integrator.time s.inst)).bind fun s' =>
    (forAll ContinuousTrajectory.writeToMessage s'.trajectories).map fun l => (⟨Checkpointer.writeToMessage s'.checkpoints, l⟩, s')

/-- physics/ephemeris_body.hpp:804-907 `ReadFromMessage`.  If there is no checkpoint at or before `desiredTMin`, the ephemeris is only valid if the trajectories have polynomials before the oldest checkpoint, which is the case
for the saves made by old versions, which are not modelled; otherwise, reading the trajectories has failed. -/
def readFromMessage (env : Env T L D P E I) (desiredTMin : T) (m : Message T L D P E I) : Option (State T L D P E I) :=
  (forAll (ContinuousTrajectory.readFromMessage env.trajectory desiredTMin) m.trajectories).bind fun l =>
    if l = [] then none
    else
      let checkpoints := Checkpointer.readFromMessage none m.checkpoints
      (Checkpointer.atOrBefore checkpoints desiredTMin).bind fun c =>
        (Checkpointer.readAt checkpoints c).map fun i => { trajectories := l, checkpoints := checkpoints, inst := i, oldestReanimated := some c }

/-- physics/checkpointer_body.hpp:129-151 `all_checkpoints_between`, for instants that may be -∞. -/
def checkpointsBetween (s : Checkpointer.State T I) : Option T → Option T → Option (List T)
  | _, none => some []
  | none, some t2 => some (Checkpointer.allAtOrBefore s t2)
  | some t1, some t2 => Checkpointer.allBetween s t1 t2

/-- physics/ephemeris_body.hpp:969-1008 `Reanimate`: the segments that it reanimates, in order. -/
def segments (s : State T L D P E I) (desiredTMin : T) : Option (List (T × T)) :=
  (checkpointsBetween s.checkpoints (Checkpointer.atOrBefore s.checkpoints desiredTMin) s.oldestReanimated).map fun l => (l.zip l.tail).reverse

/-- physics/ephemeris_body.hpp:1011-1047 `ReanimateOneCheckpoint` up to the call to `Solve`: the local trajectories, or `none` if the status is an error. -/
def computeSegment (env : Env T L D P E I) (fuel : ℕ) (stop : Stop) (s : State T L D P E I) (tInitial tFinal : T) : Except Failure (Option (List (Trajectory T L D P E))) :=
  match Checkpointer.readAt s.checkpoints tInitial with
  | none => .ok none
  | some i =>
    match forAll (fun x => readFromCheckpointAt x tInitial (ContinuousTrajectory.create env.trajectory)) s.trajectories with
    | none => .error .crashed
    | some l =>
      match solve env.integrator (appendToTrajectories env) tFinal fuel stop i l with
      | .error e => .error e
      | .ok (_, l', ok, _) => .ok (if ok then some l' else none)

/-- physics/ephemeris_body.hpp:1048-1061: the end of `ReanimateOneCheckpoint`. -/
def stitch (s : State T L D P E I) (tInitial : T) (prefixes : List (Trajectory T L D P E)) : Option (State T L D P E I) :=
  (forAll₂ prepend s.trajectories prefixes).map fun l => { s with trajectories := l, oldestReanimated := some tInitial }

/-- An ephemeris and its reanimator: the segments that are yet to be reanimated, and the start and the trajectories of the segment which has been computed and not stitched. -/
structure System (T L D P E I : Type) where
  ephemeris : State T L D P E I
  pending : List (T × T)
  computed : Option (T × List (Trajectory T L D P E))

/-- What may happen to an ephemeris.  `load` writes it and reads it, and continues with the result.  The last three are `Reanimate` being called by the reanimator when it is idle, and its actions. -/
inductive Event (T : Type)
  | prolong (t : T) (maxSteps : ℤ) (stop : Stop)
  | evaluate (body : ℕ) (t : T)
  | save
  | load (desiredTMin : T)
  | reanimate (desiredTMin : T)
  | compute (stop : Stop)
  | stitch

/-- The effect of an event. -/
def step (env : Env T L D P E I) (fuel : ℕ) (s : System T L D P E I) : Event T → Except Failure (System T L D P E I)
  | .prolong t maxSteps stop =>
    match prolong env fuel t maxSteps stop s.ephemeris with
    | .error e => .error e
    | .ok (e, _) => .ok { s with ephemeris := e }
  | .evaluate b t => checked ((evaluate s.ephemeris b t).map fun r => { s with ephemeris := r.2 })
  | .save => checked ((writeToMessage env s.ephemeris).map fun r => { s with ephemeris := r.2 })
  | .load desired => checked (((writeToMessage env s.ephemeris).bind fun r => readFromMessage env desired r.1).map fun e => ⟨e, [], none⟩)
  | .reanimate desired => if s.pending = [] ∧ s.computed.isNone then checked ((segments s.ephemeris desired).map fun l => { s with pending := l }) else .ok s
  | .compute stop =>
    match s.pending, s.computed with
    | (tInitial, tFinal) :: l, none =>
      match computeSegment env fuel stop s.ephemeris tInitial tFinal with
      | .error e => .error e
      | .ok none => .ok { s with pending := [] }
      | .ok (some trajectories) => .ok { s with pending := l, computed := some (tInitial, trajectories) }
    | _, _ => .ok s
  | .stitch =>
    match s.computed with
    | none => .ok s
    | some (tInitial, trajectories) => checked ((stitch s.ephemeris tInitial trajectories).map fun e => { s with ephemeris := e, computed := none })

end Principia.Ephemeris
