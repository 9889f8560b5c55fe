import Verif.Physics.CheckpointerModel
import Mathlib.Algebra.Order.Field.Basic

/-!
# Model of `physics/continuous_trajectory_body.hpp`

Instants and times are the elements of an arbitrary linearly ordered additive group `T`, lengths are the elements of an arbitrary linearly ordered field `L`, the degrees of freedom `D`, the polynomials `P` and the
evaluator policies `E` are arbitrary types.  The arithmetic is exact: in particular the check of `Append` that the points are equally spaced to within one ULP is a check that they are equally spaced.  The infinities
returned by `t_min` and `t_max` are represented by `none`.  The locking is not modelled: the functions are atomic.  A failed `CHECK` and an undefined behaviour are both represented by `none`.  The compatibility with
the saves made by versions before کاشانی is not modelled, nor are the piecewise Poisson series, which are disabled.
-/

namespace Principia.ContinuousTrajectory

open Principia.SortedMap Principia.Checkpointer

variable {T L D P E : Type} [AddCommGroup T] [LinearOrder T] [IsOrderedAddMonoid T] [Field L] [LinearOrder L]

/-- The construction parameters of a trajectory, physics/continuous_trajectory.hpp:203-204, and the things on which the code depends: the computation of the Newhall approximation and of the norm of its error estimate
for a degree, the degrees of freedom at the points and the bounds of the interval; the largest number; whether the processor has an FMA instruction; the policies `AlwaysEstrin` and `AlwaysEstrinWithoutFMA`. -/
structure Env (T L D P E : Type) where
  step : T
  tolerance : L
  fit : E → ℕ → List D → T → T → P × L
  huge : L
  canUseHardwareFMA : Bool
  alwaysEstrin : E
  alwaysEstrinWithoutFMA : E

/-- The members that are adjusted when the degree is chosen, physics/continuous_trajectory.hpp:209-217: `adjusted_tolerance_`, `is_unstable_`, `degree_`, `degree_age_`. -/
structure Regulator (L : Type) where
  adjustedTolerance : L
  isUnstable : Bool
  degree : ℕ
  degreeAge : ℕ

/-- The contents of a checkpoint, physics/continuous_trajectory_body.hpp:591-614. -/
structure Checkpoint (T L D : Type) where
  regulator : Regulator L
  lastPoints : List (T × D)

/-- physics/continuous_trajectory.hpp:203-251: the members. -/
structure Trajectory (T L D P E : Type) where
  checkpointer : Checkpointer.State T (Checkpoint T L D)
  regulator : Regulator L
  polynomials : List (T × P)
  policy : E
  lastAccessed : ℕ
  firstTime : Option T
  lastPoints : List (T × D)

/-- physics/continuous_trajectory_body.hpp:35. -/
def maxDegree : ℕ := 17
/-- physics/continuous_trajectory_body.hpp:36. -/
def minDegree : ℕ := 3
/-- physics/continuous_trajectory_body.hpp:37. -/
def maxDegreeAge : ℕ := 100
/-- physics/continuous_trajectory_body.hpp:40. -/
def divisions : ℕ := 8

/-- The policy of a new trajectory, physics/continuous_trajectory_body.hpp:56-58. -/
def Env.defaultPolicy (env : Env T L D P E) : E := if env.canUseHardwareFMA then env.alwaysEstrin else env.alwaysEstrinWithoutFMA

/-- physics/continuous_trajectory_body.hpp:43-60: the constructor. -/
def create (env : Env T L D P E) : Trajectory T L D P E where
  checkpointer := []
  regulator := ⟨env.tolerance, false, minDegree, 0⟩
  polynomials := []
  policy := env.defaultPolicy
  lastAccessed := 0
  firstTime := none
  lastPoints := []

/-- physics/continuous_trajectory_body.hpp:670-676 `t_min_locked`; `none` is +∞ if the trajectory is empty. -/
def tMin (s : Trajectory T L D P E) : Option T := if s.polynomials = [] then none else s.firstTime

/-- physics/continuous_trajectory_body.hpp:678-684 `t_max_locked`; `none` is -∞. -/
def tMax (s : Trajectory T L D P E) : Option T := s.polynomials.getLast?.map Prod.fst

/-- physics/continuous_trajectory_body.hpp:811-826: the loop that increases the degree.  The first argument bounds the number of iterations.  `best` is the last polynomial, with its error estimate. -/
def raiseDegree (fit : ℕ → P × L) (adjustedTolerance : L) : ℕ → ℕ → P × L → L → ℕ × (P × L) × L
  | 0, degree, best, previous => (degree, best, previous)
  | n + 1, degree, best, previous =>
    if best.2 > adjustedTolerance ∧ best.2 < previous ∧ degree < maxDegree then raiseDegree fit adjustedTolerance n (degree + 1) (fit (degree + 1)) best.2
    else (degree, best, previous)

/-- physics/continuous_trajectory_body.hpp:759-857 `ComputeBestNewhallApproximation`: the members after the call, the polynomial that is added at the end of the polynomials, and whether the status is OK. -/
def computeBestNewhallApproximation (env : Env T L D P E) (policy : E) (members : Regulator L) (oldest time : T) (degreesOfFreedom : List D) : Regulator L × P × Bool :=
  let fit := fun degree => env.fit policy degree degreesOfFreedom oldest time
  -- Lines 767-775.
  let r : Regulator L := if members.degreeAge ≥ maxDegreeAge then ⟨env.tolerance, false, minDegree, 0⟩ else members
  -- Lines 777-789.
  let best := fit r.degree
  -- Lines 791-806.
  let reset := decide (r.isUnstable = true ∧ best.2 > r.adjustedTolerance)
  let previous := if reset then env.huge else best.2 + best.2
  let best : P × L := if reset then (best.1, env.huge / 2) else best
  let r : Regulator L := if reset then ⟨env.tolerance, false, minDegree - 1, 0⟩ else r
  -- Lines 808-826.
  let raised := raiseDegree fit r.adjustedTolerance (maxDegree - r.degree) r.degree best previous
  -- Lines 828-846.
  let r : Regulator L :=
    if raised.2.1.2 ≥ raised.2.2 then ⟨max r.adjustedTolerance raised.2.2, true, if raised.1 > minDegree then raised.1 - 1 else raised.1, r.degreeAge + 1⟩
    else ⟨r.adjustedTolerance, r.isUnstable, raised.1, r.degreeAge + 1⟩
  -- Lines 848-857.
  (r, raised.2.1.1, decide (r.adjustedTolerance < 1000000 * members.adjustedTolerance))

/-- physics/continuous_trajectory_body.hpp:99-127: `Append` after the consistency checks. -/
def appendChecked (env : Env T L D P E) (s : Trajectory T L D P E) (time : T) (degreesOfFreedom : D) : Option (Trajectory T L D P E × Bool) :=
  match s.lastPoints with
  | [] => some ({ s with lastPoints := [(time, degreesOfFreedom)] }, true)
  | (oldest, _) :: _ =>
    if s.lastPoints.length > divisions then none
    else if s.lastPoints.length = divisions then
      let r := computeBestNewhallApproximation env s.policy s.regulator oldest time (s.lastPoints.map Prod.snd ++ [degreesOfFreedom])
      some ({ s with regulator := r.1, polynomials := s.polynomials ++ [(time, r.2.1)], lastPoints := [(time, degreesOfFreedom)] }, r.2.2)
    else some ({ s with lastPoints := s.lastPoints ++ [(time, degreesOfFreedom)] }, true)

/-- physics/continuous_trajectory_body.hpp:83-127 `Append`. -/
def append (env : Env T L D P E) (s : Trajectory T L D P E) (time : T) (degreesOfFreedom : D) : Option (Trajectory T L D P E × Bool) :=
  match s.firstTime with
  | some _ =>
    match s.lastPoints.getLast? with
    | none => none
    | some last => if last.1 + env.step = time then appendChecked env s time degreesOfFreedom else none
  | none => appendChecked env { s with firstTime := some time } time degreesOfFreedom

/-- physics/continuous_trajectory_body.hpp:130-167 `Prepend`: this object after the call.  The steps and the tolerances are those of the environment. -/
def prepend (s pre : Trajectory T L D P E) : Option (Trajectory T L D P E) :=
  match pre.polynomials.getLast? with
  | none => some s
  | some last =>
    if s.polynomials = [] then
      some { s with regulator := pre.regulator, polynomials := pre.polynomials, lastAccessed := pre.lastAccessed, firstTime := pre.firstTime, lastPoints := pre.lastPoints }
    else if s.firstTime = some last.1 then
      some { s with polynomials := pre.polynomials ++ s.polynomials, firstTime := pre.firstTime }
    else none

/-- physics/continuous_trajectory_body.hpp:866-871: whether the last accessed polynomial is the one for the given time. -/
def isLastAccessed (s : Trajectory T L D P E) (time : T) : Bool :=
  match s.polynomials[s.lastAccessed]? with
  | none => false
  | some p => decide (time ≤ p.1) && (s.lastAccessed == 0 || (match s.polynomials[s.lastAccessed - 1]? with | none => false | some q => decide (q.1 < time)))

/-- physics/continuous_trajectory_body.hpp:860-887 `FindPolynomialForInstantLocked`: the iterator, and the object after the call. -/
def findPolynomialForInstant (s : Trajectory T L D P E) (time : T) : Option (ℕ × Trajectory T L D P E) :=
  if s.lastAccessed > s.polynomials.length then none
  else if isLastAccessed s time then some (s.lastAccessed, s)
  else some (lowerBound s.polynomials time, { s with lastAccessed := lowerBound s.polynomials time })

/-- physics/continuous_trajectory_body.hpp:686-721 `EvaluatePositionLocked`, `EvaluateVelocityLocked`, `EvaluateDegreesOfFreedomLocked`: the polynomial which is evaluated at `time`, and the object after the call. -/
def evaluate (s : Trajectory T L D P E) (time : T) : Option (P × Trajectory T L D P E) :=
  match tMin s, tMax s with
  | some tMin, some tMax =>
    if tMin ≤ time ∧ tMax ≥ time then
      match findPolynomialForInstant s time with
      | none => none
      | some (it, s') => (s.polynomials[it]?).map fun p => (p.2, s')
    else none
  | _, _ => none

/-- physics/continuous_trajectory_body.hpp:589-614 `MakeCheckpointerWriter`. -/
def checkpoint (s : Trajectory T L D P E) : Checkpoint T L D := ⟨s.regulator, s.lastPoints⟩

/-- physics/continuous_trajectory_body.hpp:616-668 `MakeCheckpointerReader`. -/
def readCheckpoint (s : Trajectory T L D P E) (c : Checkpoint T L D) : Trajectory T L D P E :=
  let s : Trajectory T L D P E := { s with regulator := c.regulator, lastPoints := c.lastPoints, lastAccessed := 0 }
  match c.lastPoints with
  | [] => { s with polynomials := [], firstTime := none }
  | (oldest, _) :: _ =>
    let polynomials := s.polynomials.take (upperBound s.polynomials oldest)
    { s with polynomials := polynomials, firstTime := if polynomials = [] then some oldest else s.firstTime }

/-- physics/continuous_trajectory_body.hpp:576-579. -/
def writeToCheckpoint (s : Trajectory T L D P E) (t : T) : Option (Trajectory T L D P E) :=
  (Checkpointer.write s.checkpointer t (checkpoint s)).map fun c => { s with checkpointer := c }

/-- The serialized form of a trajectory.  The step and the tolerance are those of the environment. -/
structure Message (T L D P E : Type) where
  checkpoints : List (T × Checkpoint T L D)
  policy : E
  polynomials : List (T × P)
  firstTime : Option T

/-- physics/continuous_trajectory_body.hpp:330-359 `WriteToMessage`. -/
def writeToMessage (s : Trajectory T L D P E) : Option (Message T L D P E) :=
  match Checkpointer.oldest s.checkpointer with
  | none => none
  | some oldest => some ⟨Checkpointer.writeToMessage s.checkpointer, s.policy, s.polynomials.takeWhile fun p => decide (p.1 ≤ oldest), s.firstTime⟩

/-- physics/continuous_trajectory_body.hpp:361-574 `ReadFromMessage`.  The rewriting of the evaluators of the polynomials when there is no FMA is not modelled. -/
def readFromMessage (env : Env T L D P E) (desiredTMin : T) (m : Message T L D P E) : Option (Trajectory T L D P E) :=
  let s : Trajectory T L D P E :=
    { create env with polynomials := m.polynomials, policy := if env.canUseHardwareFMA then m.policy else env.alwaysEstrinWithoutFMA, firstTime := m.firstTime,
                      checkpointer := Checkpointer.readFromMessage none m.checkpoints }
  match Checkpointer.readAtOrBefore s.checkpointer desiredTMin with
  | some c => some (readCheckpoint s c)
  | none =>
    match tMin s with
    | none => none
    | some t => if t ≤ desiredTMin then some s else none

/-- physics/continuous_trajectory_body.hpp:581-587 `ReadFromCheckpointAt` with the reader of the trajectory `reader`. -/
def readFromCheckpointAt (s : Trajectory T L D P E) (t : T) (reader : Trajectory T L D P E) : Option (Trajectory T L D P E) :=
  (Checkpointer.readAt s.checkpointer t).map (readCheckpoint reader)

end Principia.ContinuousTrajectory
