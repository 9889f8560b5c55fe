import Mathlib.Order.Defs.LinearOrder
import Mathlib.Algebra.Order.Ring.Int

/-!
A model of flight plans, ksp_plugin/flight_plan.cpp.

Simplifications:
* Times are the elements of a linear order.  What the flight plan needs to know of the manœuvres (ksp_plugin/manœuvre_body.hpp, see
  `Verif.Ksp.ManoeuvreModel`) is given by an `Engine`.
* The result of an integration is given by an arbitrary oracle, `Env`; each operation has its own `Env`, so that the ephemeris may have been prolonged (by
  the prolongator thread or by anybody else) or the parameters changed between operations, and the outcomes of the integrations are arbitrary.
* The trajectory and the vector `segments_` of iterators into it are modelled by the list of segments, the last one first.  (The functions of
  `DiscreteTrajectory` are the subject of C18 to C24.)
* An analyser is modelled by the last request that was made.
* `none` is a failed check or undefined behaviour.
-/

namespace Principia.FlightPlan

/-- The status codes. -/
inductive Status
  | ok
  | deadlineExceeded
  | outOfRange
  | invalidArgument
  | other (code : Nat)
  deriving DecidableEq, Repr

/-- absl `Status::Update`: keeps the first error. -/
def Status.update (s t : Status) : Status := if s = .ok then t else s

/-- The functions of ksp_plugin/manœuvre_body.hpp for a given initial mass and burn: `initial_time` (209-212), `final_time` (257-260), `final_mass`
(246-249), `IsSingular` (262-265), `is_inertially_fixed` (236-239). -/
structure Engine (T M B : Type) where
  initialTime : M → B → T
  finalTime : M → B → T
  finalMass : M → B → M
  singular : B → Bool
  inertial : B → Bool

/-- A manœuvre: its initial mass, its burn, and the degrees of freedom at the end of the preceding coast (ksp_plugin/manœuvre.hpp:223-227). -/
structure Manoeuvre (M B X : Type) where
  mass : M
  burn : B
  dof : Option X
  deriving DecidableEq

/-- A segment of a trajectory. -/
abbrev Segment (T X : Type) := List (T × X)

/-- ksp_plugin/orbit_analyser.hpp `OrbitAnalyser::Parameters`, with times instead of durations. -/
structure Request (T X : Type) where
  first : T × X
  missionEnd : T
  extendedEnd : Option T
  deriving DecidableEq

/-- The members of a flight plan, ksp_plugin/flight_plan.hpp:234-260; the constant `ephemeris_`, the prolongator and the parameters are not
modelled.  The last segment is the head of `stack`. -/
structure Plan (T M B X : Type) where
  initialMass : M
  initialTime : T
  initialDof : X
  desiredFinalTime : T
  stack : List (Segment T X)
  anomalous : Nat
  status : Status
  manoeuvres : List (Manoeuvre M B X)
  analysers : List (Option (Request T X))
  analysisIsEnabled : Bool
  deriving DecidableEq

variable {T M B X : Type} [LinearOrder T]

/-- The intrinsic acceleration: that of a manœuvre, or none. -/
abbrev Acceleration (M B X : Type) := Option (Manoeuvre M B X)

/-- The outcomes of the integrations performed during an operation, as a function of the number of segments: the end of the ephemeris once it has
been prolonged to reach the given time, and the points appended and status returned by the integrator. -/
structure Env (T M B X : Type) where
  tMax : Nat → T → T
  solve : Nat → Acceleration M B X → T × X → T → List (T × X) × Status

/-- physics/ephemeris_body.hpp:1632-1695 `Ephemeris::FlowODEWithAdaptiveStep`: the points appended and the status. -/
def flow (env : Env T M B X) (i : Nat) (a : Acceleration M B X) (start : T × X) (t : T) : Option (List (T × X) × Status) :=
  if start.1 = t then some ([], .ok)
  else if ¬ start.1 < min t (env.tMax i t) then none
  else
    let r := env.solve i a start (min t (env.tMax i t))
    let s := if r.2 = .outOfRange then .ok else r.2
    if s ≠ .ok ∨ min t (env.tMax i t) = t then some (r.1, s) else some (r.1, .deadlineExceeded)

/-- Appends points to the last segment. -/
def Plan.append (p : Plan T M B X) (points : List (T × X)) : Plan T M B X :=
  match p.stack with
  | [] => p
  | s :: rest => { p with stack := (s ++ points) :: rest }

/-- `segments_.back()->back()`. -/
def Plan.back (p : Plan T M B X) : Option (T × X) := p.stack.head?.bind List.getLast?

/-- `segments_.back()->front()`. -/
def Plan.front (p : Plan T M B X) : Option (T × X) := p.stack.head?.bind List.head?

/-- ksp_plugin/flight_plan.cpp:502-519 `FlightPlan::CoastSegment`. -/
def coastSegment (env : Env T M B X) (t : T) (p : Plan T M B X) : Option (Status × Plan T M B X) :=
  p.back.bind fun last => (flow env p.stack.length none last t).map fun r => (r.2, p.append r.1)

/-- ksp_plugin/flight_plan.cpp:469-500 `FlightPlan::BurnSegment`.  For a burn that is inertially fixed, the check is that of
ksp_plugin/manœuvre_body.hpp:326. -/
def burnSegment (E : Engine T M B) (env : Env T M B X) (m : Manoeuvre M B X) (p : Plan T M B X) : Option (Status × Plan T M B X) :=
  if E.initialTime m.mass m.burn < E.finalTime m.mass m.burn then
    if E.inertial m.burn ∧ m.dof = none then none
    else p.back.bind fun last =>
      (flow env p.stack.length (some m) last (E.finalTime m.mass m.burn)).map fun r => (r.2, p.append r.1)
  else some (.ok, p)

/-- ksp_plugin/manœuvre_body.hpp:283-290 `Manœuvre::set_coasting_trajectory`. -/
def setCoastingTrajectory (E : Engine T M B) (m : Manoeuvre M B X) (coast : Segment T X) : Option (Manoeuvre M B X) :=
  (coast.find? fun q => q.1 = E.initialTime m.mass m.burn).map fun q => { m with dof := some q.2 }

/-- ksp_plugin/flight_plan.cpp:606-611 `FlightPlan::AddLastSegment`. -/
def addLastSegment (p : Plan T M B X) : Option (Plan T M B X) :=
  p.back.map fun last =>
    { p with stack := [last] :: p.stack, anomalous := if 0 < p.anomalous then p.anomalous + 1 else p.anomalous }

/-- ksp_plugin/flight_plan.cpp:542-544, 568-570, 598-600: what is done if the status of an integration is not OK. -/
def Plan.failIf (p : Plan T M B X) (s : Status) : Plan T M B X :=
  if s = .ok then p else { p with anomalous := 1, status := s }

/-- `OrbitAnalyser::RequestAnalysis` for the given coast. -/
def request (p : Plan T M B X) (coast : Nat) (r : Request T X) : Option (Plan T M B X) :=
  if coast < p.analysers.length then some { p with analysers := p.analysers.set coast (some r) } else none

/-- ksp_plugin/flight_plan.cpp:546-557: the request for the coast that precedes a manœuvre. -/
def requestCoast (p : Plan T M B X) : Option (Plan T M B X) :=
  if p.analysisIsEnabled then
    p.front.bind fun first => p.back.bind fun last => request p p.manoeuvres.length ⟨first, last.1, some p.desiredFinalTime⟩
  else some p

/-- ksp_plugin/flight_plan.cpp:533-558: the coast that precedes a manœuvre. -/
def coastPart (E : Engine T M B) (env : Env T M B X) (m : Manoeuvre M B X) (p : Plan T M B X) (overall : Status) :
    Option (Plan T M B X × Manoeuvre M B X × Status) :=
  let m := { m with dof := none }
  if p.anomalous = 0 then
    (coastSegment env (E.initialTime m.mass m.burn) p).bind fun r =>
      (if r.1 = .ok then r.2.stack.head?.bind (setCoastingTrajectory E m) else some m).bind fun m =>
        (requestCoast (r.2.failIf r.1)).map fun p => (p, m, overall.update r.1)
  else some (p, m, overall)

/-- ksp_plugin/flight_plan.cpp:562-572: the burn. -/
def burnPart (E : Engine T M B) (env : Env T M B X) (m : Manoeuvre M B X) (p : Plan T M B X) (overall : Status) : Option (Plan T M B X × Status) :=
  if p.anomalous = 0 then (burnSegment E env m p).map fun r => (r.2.failIf r.1, overall.update r.1)
  else some (p, overall)

/-- ksp_plugin/flight_plan.cpp:530-575: the loop over the manœuvres.  While the loop is executing, only those manœuvres that have been processed are in the
plan of the model. -/
def computeLoop (E : Engine T M B) (env : Env T M B X) : List (Manoeuvre M B X) → Plan T M B X → Status → Option (Plan T M B X × Status)
  | [], p, overall => some (p, overall)
  | m :: rest, p, overall =>
    (coastPart E env m p overall).bind fun c =>
      (addLastSegment c.1).bind fun p =>
        (burnPart E env c.2.1 p c.2.2).bind fun b =>
          (addLastSegment b.1).bind fun p =>
            computeLoop E env rest { p with manoeuvres := p.manoeuvres ++ [c.2.1] } b.2

/-- ksp_plugin/flight_plan.cpp:583-593: the request for the last coast. -/
def requestLast (p : Plan T M B X) : Option (Plan T M B X) :=
  if p.analysisIsEnabled then
    p.front.bind fun first => request p (p.analysers.length - 1) ⟨first, p.desiredFinalTime, none⟩
  else some p

/-- ksp_plugin/flight_plan.cpp:576-603: the last coast. -/
def lastCoast (env : Env T M B X) (p : Plan T M B X) (overall : Status) : Option (Status × Plan T M B X) :=
  if p.anomalous = 0 then
    p.back.bind fun last =>
      (requestLast { p with desiredFinalTime := max p.desiredFinalTime last.1 }).bind fun p =>
        (coastSegment env p.desiredFinalTime p).map fun r => (overall.update r.1, r.2.failIf r.1)
  else some (overall, p)

/-- ksp_plugin/flight_plan.cpp:521-604 `FlightPlan::ComputeSegments`, for the manœuvres starting at index `i`. -/
def computeSegments (E : Engine T M B) (env : Env T M B X) (i : Nat) (p : Plan T M B X) : Option (Status × Plan T M B X) :=
  if p.stack = [] then none
  else
    let p := if p.anomalous = 0 then { p with status := .ok } else p
    (computeLoop E env (p.manoeuvres.drop i) { p with manoeuvres := p.manoeuvres.take i } p.status).bind fun r => lastCoast env r.1 r.2

/-- ksp_plugin/flight_plan.cpp:613-619 `FlightPlan::ResetLastSegment`. -/
def resetLastSegment (p : Plan T M B X) : Option (Plan T M B X) :=
  match p.stack with
  | [] => none
  | [] :: _ => none
  | (q :: _) :: rest => some { p with stack := [q] :: rest, anomalous := if p.anomalous = 1 then 0 else p.anomalous }

/-- ksp_plugin/flight_plan.cpp:625-632: the loop. -/
def popSegments : Nat → Plan T M B X → Option (Plan T M B X)
  | 0, p => some p
  | n + 1, p =>
    if p.stack = [] then none else popSegments n { p with stack := p.stack.tail, anomalous := if 0 < p.anomalous then p.anomalous - 1 else p.anomalous }

/-- ksp_plugin/flight_plan.cpp:621-633 `FlightPlan::PopLastSegments`. -/
def popLastSegments (count : Int) (p : Plan T M B X) : Option (Plan T M B X) :=
  if count.tmod 2 = 0 then popSegments count.toNat p else none

/-- ksp_plugin/flight_plan.cpp:635-641 `FlightPlan::PopSegmentsAffectedByManœuvre`. -/
def popSegmentsAffectedBy (i : Nat) (p : Plan T M B X) : Option (Plan T M B X) :=
  (popLastSegments ((p.stack.length : Int) - (2 * i + 1)) p).bind resetLastSegment

/-- ksp_plugin/flight_plan.cpp:647-651: the manœuvres that follow one whose final mass is given. -/
def updateMasses (E : Engine T M B) : M → List (Manoeuvre M B X) → List (Manoeuvre M B X)
  | _, [] => []
  | mass, m :: rest => ⟨mass, m.burn, none⟩ :: updateMasses E (E.finalMass mass m.burn) rest

/-- ksp_plugin/flight_plan.cpp:643-652 `FlightPlan::UpdateInitialMassOfManœuvresAfter`. -/
def updateInitialMassAfter (E : Engine T M B) (i : Nat) (ms : List (Manoeuvre M B X)) : List (Manoeuvre M B X) :=
  match ms.drop i with
  | [] => ms
  | m :: rest => ms.take i ++ m :: updateMasses E (E.finalMass m.mass m.burn) rest

/-- ksp_plugin/flight_plan.cpp:687-689 `FlightPlan::start_of_last_coast`. -/
def startOfLastCoast (E : Engine T M B) (p : Plan T M B X) : T :=
  match p.manoeuvres.getLast? with
  | none => p.initialTime
  | some m => E.finalTime m.mass m.burn

/-- ksp_plugin/flight_plan.cpp:691-694 `FlightPlan::start_of_burn`; `none` if the index is out of bounds. -/
def startOfBurn (E : Engine T M B) (p : Plan T M B X) (i : Nat) : Option T :=
  if i = p.manoeuvres.length then some p.desiredFinalTime
  else p.manoeuvres[i]?.map fun m => E.initialTime m.mass m.burn

/-- ksp_plugin/flight_plan.cpp:700-702 `FlightPlan::start_of_previous_coast`. -/
def startOfPreviousCoast (E : Engine T M B) (p : Plan T M B X) (i : Nat) : Option T :=
  if i = 0 then some p.initialTime
  else p.manoeuvres[i - 1]?.map fun m => E.finalTime m.mass m.burn

/-- ksp_plugin/manœuvre_body.hpp:267-270 `Manœuvre::IsAfter`. -/
def isAfter (E : Engine T M B) (mass : M) (burn : B) (t : T) : Bool := t < E.initialTime mass burn

/-- ksp_plugin/manœuvre_body.hpp:272-276 `Manœuvre::FitsBetween`. -/
def fitsBetween (E : Engine T M B) (mass : M) (burn : B) (s t : T) : Bool := s < E.initialTime mass burn ∧ E.finalTime mass burn < t

/-- ksp_plugin/flight_plan.cpp:61-91 `FlightPlan::FlightPlan`. -/
def make (E : Engine T M B) (env : Env T M B X) (mass : M) (t : T) (x : X) (desired : T) : Option (Plan T M B X) :=
  if t ≤ desired then
    (computeSegments E env 0 ⟨mass, t, x, desired, [[(t, x)]], 0, .ok, [], [none], true⟩).map Prod.snd
  else none

/-- ksp_plugin/flight_plan.cpp:168-170: the initial mass of an inserted manœuvre. -/
def insertionMass (E : Engine T M B) (i : Nat) (p : Plan T M B X) : Option M :=
  if i = 0 then some p.initialMass else p.manoeuvres[i - 1]?.map fun m => E.finalMass m.mass m.burn

/-- ksp_plugin/flight_plan.cpp:164-187 `FlightPlan::Insert`. -/
def insert (E : Engine T M B) (env : Env T M B X) (burn : B) (i : Nat) (p : Plan T M B X) : Option (Status × Plan T M B X) :=
  if i ≤ p.manoeuvres.length then
    (insertionMass E i p).bind fun mass =>
      if E.singular burn then some (.invalidArgument, p)
      else (startOfPreviousCoast E p i).bind fun s => (startOfBurn E p i).bind fun t =>
        if ¬ fitsBetween E mass burn s t then some (.outOfRange, p)
        else
          (popSegmentsAffectedBy i { p with
            manoeuvres := updateInitialMassAfter E i (p.manoeuvres.insertIdx i ⟨mass, burn, none⟩),
            analysers := p.analysers.insertIdx (i + 1) none }).bind (computeSegments E env i)
  else none

/-- ksp_plugin/flight_plan.cpp:189-199 `FlightPlan::Remove`. -/
def remove (E : Engine T M B) (env : Env T M B X) (i : Nat) (p : Plan T M B X) : Option (Status × Plan T M B X) :=
  if i < p.manoeuvres.length then
    (popSegmentsAffectedBy i { p with
      manoeuvres := updateInitialMassAfter E i (p.manoeuvres.eraseIdx i),
      analysers := p.analysers.eraseIdx (i + 1) }).bind (computeSegments E env i)
  else none

/-- ksp_plugin/flight_plan.cpp:227-234: the end of `FlightPlan::Replace`. -/
def replaceAt (E : Engine T M B) (env : Env T M B X) (m : Manoeuvre M B X) (i : Nat) (p : Plan T M B X) : Option (Status × Plan T M B X) :=
  (popSegmentsAffectedBy i { p with
    manoeuvres := updateInitialMassAfter E i (p.manoeuvres.set i m) }).bind (computeSegments E env i)

/-- ksp_plugin/flight_plan.cpp:201-235 `FlightPlan::Replace`. -/
def replace (E : Engine T M B) (env : Env T M B X) (burn : B) (i : Nat) (p : Plan T M B X) : Option (Status × Plan T M B X) :=
  p.manoeuvres[i]?.bind fun old =>
    if E.singular burn then some (.invalidArgument, p)
    else (startOfPreviousCoast E p i).bind fun s =>
      if i + 1 = p.manoeuvres.length then
        if isAfter E old.mass burn s then
          replaceAt E env ⟨old.mass, burn, none⟩ i { p with desiredFinalTime := max p.desiredFinalTime (E.finalTime old.mass burn) }
        else some (.outOfRange, p)
      else (startOfBurn E p (i + 1)).bind fun t =>
        if ¬ fitsBetween E old.mass burn s t then some (.outOfRange, p)
        else replaceAt E env ⟨old.mass, burn, none⟩ i p

/-- ksp_plugin/flight_plan.cpp:237-251 `FlightPlan::SetDesiredFinalTime`. -/
def setDesiredFinalTime (E : Engine T M B) (env : Env T M B X) (t : T) (p : Plan T M B X) : Option (Status × Plan T M B X) :=
  if t < startOfLastCoast E p then some (.outOfRange, p)
  else (resetLastSegment { p with desiredFinalTime := t }).bind fun p => computeSegments E env p.manoeuvres.length p

/-- ksp_plugin/flight_plan.cpp:443-449 `FlightPlan::RecomputeAllSegments`; `FlightPlan::SetAdaptiveStepParameters` (253-261) calls it after changing the
parameters, which are part of `env`. -/
def recomputeAllSegments (E : Engine T M B) (env : Env T M B X) (p : Plan T M B X) : Option (Status × Plan T M B X) :=
  (popLastSegments ((p.stack.length : Int) - 1) p).bind fun p => (resetLastSegment p).bind (computeSegments E env 0)

/-- ksp_plugin/flight_plan.cpp:457-462: the loop. -/
def popManoeuvres : Nat → Plan T M B X → Option (Plan T M B X)
  | 0, p => some p
  | n + 1, p => (popLastSegments 2 p).bind (popManoeuvres n)

/-- ksp_plugin/flight_plan.cpp:451-467 `FlightPlan::RecomputeSegmentsAvoidingDeadlineIfNeeded`, called by the functions that avoid deadlines (288-300). -/
def avoidDeadline (E : Engine T M B) (env : Env T M B X) (p : Plan T M B X) : Option (Status × Plan T M B X) :=
  if p.anomalous = 0 ∨ p.status ≠ .deadlineExceeded then some (.ok, p)
  else if p.manoeuvres.length < p.anomalous / 2 then none
  else (popManoeuvres (p.anomalous / 2) p).bind fun q =>
    (resetLastSegment q).bind (computeSegments E env (p.manoeuvres.length - p.anomalous / 2))

/-- The request made for a coast, ksp_plugin/flight_plan.cpp:328-334. -/
def enableRequest (p : Plan T M B X) (coast : Nat) : Option (Request T X) :=
  p.stack.reverse[2 * coast]?.bind fun s => s.head?.bind fun first => s.getLast?.map fun last => ⟨first, last.1, some p.desiredFinalTime⟩

/-- ksp_plugin/flight_plan.cpp:319-345 `FlightPlan::EnableAnalysis`.  The analysers that correspond to the indices of the loop are updated at once. -/
def enableAnalysis (enabled : Bool) (p : Plan T M B X) : Plan T M B X :=
  if enabled = p.analysisIsEnabled then p
  else if enabled then
    { p with
      analysers := p.analysers.mapIdx fun coast r =>
        if 2 * coast < p.stack.length - (p.anomalous - 1) then enableRequest p coast else r
      analysisIsEnabled := true }
  else { p with analysisIsEnabled := false }

/-- ksp_plugin/flight_plan.cpp:93-132 `FlightPlan::FlightPlan(FlightPlan const&)`.  The points are copied one by one, except the first one of each segment
but the first, which is copied by `NewSegment`. -/
def copySegments : List (Segment T X) → List (Segment T X) → Option (List (Segment T X))
  | [], acc => some acc
  | s :: rest, [] => copySegments rest [s]
  | s :: rest, previous :: acc => previous.getLast?.bind fun last => copySegments rest ((last :: s.tail) :: previous :: acc)

/-- ksp_plugin/flight_plan.cpp:93-132 `FlightPlan::FlightPlan(FlightPlan const&)`.  `anomalous_status_` is not in the initializer list. -/
def copy (p : Plan T M B X) : Option (Plan T M B X) :=
  (copySegments p.stack.reverse []).map fun stack =>
    { p with stack := stack, status := .ok, analysers := p.analysers.map fun _ => none }

/-- ksp_plugin/flight_plan.cpp:347-361 `FlightPlan::WriteToMessage`, where the manœuvres are written as their masses and burns. -/
structure Message (T M B X : Type) where
  initialMass : M
  initialTime : T
  initialDof : X
  desiredFinalTime : T
  manoeuvres : List (M × B)

/-- ksp_plugin/flight_plan.cpp:347-361 `FlightPlan::WriteToMessage`. -/
def write (p : Plan T M B X) : Message T M B X :=
  ⟨p.initialMass, p.initialTime, p.initialDof, p.desiredFinalTime, p.manoeuvres.map fun m => (m.mass, m.burn)⟩

/-- ksp_plugin/flight_plan.cpp:363-423 `FlightPlan::ReadFromMessage`. -/
def read (E : Engine T M B) (env env' : Env T M B X) (msg : Message T M B X) : Option (Plan T M B X) :=
  (make E env msg.initialMass msg.initialTime msg.initialDof msg.desiredFinalTime).bind fun p =>
    (recomputeAllSegments E env' { p with
      manoeuvres := p.manoeuvres ++ msg.manoeuvres.map fun m => ⟨m.1, m.2, none⟩,
      analysers := p.analysers ++ msg.manoeuvres.map fun _ => none }).map Prod.snd

/-! ## The observers -/

/-- The vector `segments_`, ksp_plugin/flight_plan.hpp:246. -/
def Plan.segments (p : Plan T M B X) : List (Segment T X) := p.stack.reverse

/-- ksp_plugin/flight_plan.cpp:277-282 `FlightPlan::GetSegment`. -/
def Plan.getSegment (p : Plan T M B X) (i : Nat) : Option (Segment T X) := p.segments[i]?

/-- ksp_plugin/flight_plan.cpp:273-275 `FlightPlan::number_of_segments`. -/
def Plan.numberOfSegments (p : Plan T M B X) : Nat := p.stack.length

/-- ksp_plugin/flight_plan.cpp:150-152 `FlightPlan::number_of_anomalous_manœuvres`. -/
def Plan.numberOfAnomalousManoeuvres (p : Plan T M B X) : Int := ((p.anomalous : Int) - 1).tdiv 2

/-- ksp_plugin/flight_plan.cpp:138-140 `FlightPlan::actual_final_time`. -/
def Plan.actualFinalTime (p : Plan T M B X) : Option T := p.back.map Prod.fst

/-- ksp_plugin/flight_plan.cpp:302-310 `FlightPlan::analysis`: the request whose result is returned; `none` for a null pointer. -/
def Plan.analysis (p : Plan T M B X) (coast : Nat) : Option (Request T X) :=
  if (p.manoeuvres.length : Int) - p.numberOfAnomalousManoeuvres < coast then none
  else p.analysers[coast]?.bind id

end Principia.FlightPlan
