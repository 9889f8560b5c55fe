import Verif.Ksp.FlightPlanModel

/-!
The specification of flight plans: what is assumed of the integrator, the histories, and the consistency of a flight plan as seen by its
clients.
-/

namespace Principia.FlightPlan.Spec

variable {T M B X : Type} [LinearOrder T]

/-- A segment: at least one point, the times are increasing. -/
def Path (s : Segment T X) : Prop := s ≠ [] ∧ s.Pairwise fun p q => p.1 < q.1

/-- What is assumed of the integrator: it goes forward, not beyond the time requested, and it reaches that time if it succeeds or if it reports a
collision (which doesn't stop it, and is reported as `OutOfRange`). -/
structure Integrator (env : Env T M B X) : Prop where
  forward : ∀ i a q t, q.1 < t → (q :: (env.solve i a q t).1).Pairwise fun p q => p.1 < q.1
  bounded : ∀ i a q t, q.1 < t → ∀ r ∈ (env.solve i a q t).1, r.1 ≤ t
  reaches : ∀ i a q t, q.1 < t → (env.solve i a q t).2 = .ok ∨ (env.solve i a q t).2 = .outOfRange →
    (env.solve i a q t).1.getLast?.map Prod.fst = some t

/-- The flight plans that result from a sequence of operations, the integrations having arbitrary results.  `copies` tells whether some of the plans
may have been copied. -/
inductive Reachable (E : Engine T M B) (copies : Bool) : Plan T M B X → Prop
  | make {env mass t x desired p} : Integrator env → make E env mass t x desired = some p → Reachable E copies p
  | read {env env' msg p} : Integrator env → Integrator env' → read E env env' msg = some p → Reachable E copies p
  | insert {env burn i p s p'} : Reachable E copies p → Integrator env → insert E env burn i p = some (s, p') → Reachable E copies p'
  | remove {env i p s p'} : Reachable E copies p → Integrator env → remove E env i p = some (s, p') → Reachable E copies p'
  | replace {env burn i p s p'} : Reachable E copies p → Integrator env → replace E env burn i p = some (s, p') → Reachable E copies p'
  | setDesiredFinalTime {env t p s p'} : Reachable E copies p → Integrator env → setDesiredFinalTime E env t p = some (s, p') → Reachable E copies p'
  | setAdaptiveStepParameters {env p s p'} : Reachable E copies p → Integrator env → recomputeAllSegments E env p = some (s, p') → Reachable E copies p'
  | avoidDeadline {env p s p'} : Reachable E copies p → Integrator env → avoidDeadline E env p = some (s, p') → Reachable E copies p'
  | enableAnalysis {b p} : Reachable E copies p → Reachable E copies (enableAnalysis b p)
  | copy {p p'} : Reachable E copies p → copies = true → copy p = some p' → Reachable E copies p'

/-- The initial time of a manœuvre. -/
def initialTime (E : Engine T M B) (m : Manoeuvre M B X) : T := E.initialTime m.mass m.burn

/-- The final time of a manœuvre. -/
def finalTime (E : Engine T M B) (m : Manoeuvre M B X) : T := E.finalTime m.mass m.burn

/-- A list of segments, of which the last `a` are anomalous, is consistent with a list of manœuvres. -/
structure Consistent (E : Engine T M B) (q₀ : T × X) (ms : List (Manoeuvre M B X)) (segments : List (Segment T X)) (a : Nat) : Prop where
  /-- There is a coast before each manœuvre and one at the end, and a burn for each manœuvre. -/
  count : segments.length = 2 * ms.length + 1
  anomalous_le : a ≤ segments.length
  path : ∀ s ∈ segments, Path s
  /-- The first coast starts at the initial time and degrees of freedom of the flight plan. -/
  start : segments.head?.bind List.head? = some q₀
  /-- Each segment starts where the preceding one ends. -/
  contiguous : ∀ i s t, segments[i]? = some s → segments[i + 1]? = some t → t.head? = s.getLast?
  /-- The segments that follow the first anomalous one are single points. -/
  single : ∀ i s, segments[i]? = some s → segments.length < i + a → s.length = 1
  /-- If the coast that precedes a manœuvre is not anomalous, it ends at the initial time of that manœuvre, and the degrees of freedom of the
  manœuvre are those at the end of the coast. -/
  coast : ∀ i m c, ms[i]? = some m → segments[2 * i]? = some c → 2 * i + a < segments.length →
    ∃ x, m.dof = some x ∧ c.getLast? = some (initialTime E m, x)
  /-- If the coast that precedes a manœuvre is anomalous, its degrees of freedom are not known. -/
  noCoast : ∀ i m, ms[i]? = some m → segments.length ≤ 2 * i + a → m.dof = none
  /-- If the burn of a manœuvre is not anomalous, it ends at the final time of the manœuvre. -/
  burn : ∀ i m b, ms[i]? = some m → segments[2 * i + 1]? = some b → 2 * i + 1 + a < segments.length →
    b.getLast?.map Prod.fst = some (max (initialTime E m) (finalTime E m))

/-- The masses of the manœuvres form a chain. -/
def MassChain (E : Engine T M B) : M → List (Manoeuvre M B X) → Prop
  | _, [] => True
  | mass, m :: rest => m.mass = mass ∧ MassChain E (E.finalMass m.mass m.burn) rest

/-- The mass before the manœuvre inserted at index `i`. -/
def massBefore (E : Engine T M B) (p : Plan T M B X) : Nat → Option M
  | 0 => some p.initialMass
  | i + 1 => p.manoeuvres[i]?.map fun m => E.finalMass m.mass m.burn

/-- The start of the coast at index `i`. -/
def coastStart (E : Engine T M B) (p : Plan T M B X) : Nat → Option T
  | 0 => some p.initialTime
  | i + 1 => p.manoeuvres[i]?.map (finalTime E)

/-- The end of the coast at index `i`. -/
def coastEnd (E : Engine T M B) (p : Plan T M B X) (i : Nat) : Option T :=
  match p.manoeuvres[i]? with
  | some m => some (initialTime E m)
  | none => if i = p.manoeuvres.length then some p.desiredFinalTime else none

/-- The burns of the manœuvres. -/
def burns (p : Plan T M B X) : List B := p.manoeuvres.map fun m => m.burn

/-- The masses and burns of the manœuvres. -/
def keys (p : Plan T M B X) : List (M × B) := p.manoeuvres.map fun m => (m.mass, m.burn)

/-- The histories where manœuvres are only removed from the end of the plan, and where the plans that are read had been written. -/
inductive Edited (E : Engine T M B) : Plan T M B X → Prop
  | make {env mass t x desired p} : Integrator env → FlightPlan.make E env mass t x desired = some p → Edited E p
  | read {env env' p p'} : Edited E p → Integrator env → Integrator env' → FlightPlan.read E env env' (write p) = some p' → Edited E p'
  | insert {env burn i p s p'} : Edited E p → Integrator env → FlightPlan.insert E env burn i p = some (s, p') → Edited E p'
  | removeLast {env i p s p'} : Edited E p → Integrator env → i + 1 = p.manoeuvres.length → FlightPlan.remove E env i p = some (s, p') → Edited E p'
  | replace {env burn i p s p'} : Edited E p → Integrator env → FlightPlan.replace E env burn i p = some (s, p') → Edited E p'
  | setDesiredFinalTime {env t p s p'} : Edited E p → Integrator env → FlightPlan.setDesiredFinalTime E env t p = some (s, p') → Edited E p'
  | setAdaptiveStepParameters {env p s p'} : Edited E p → Integrator env → recomputeAllSegments E env p = some (s, p') → Edited E p'
  | avoidDeadline {env p s p'} : Edited E p → Integrator env → FlightPlan.avoidDeadline E env p = some (s, p') → Edited E p'
  | enableAnalysis {b p} : Edited E p → Edited E (FlightPlan.enableAnalysis b p)
  | copy {p p'} : Edited E p → FlightPlan.copy p = some p' → Edited E p'

/-- The successive masses, starting with a given one. -/
def chain (E : Engine T M B) : M → List B → List (M × B)
  | _, [] => []
  | mass, b :: rest => (mass, b) :: chain E (E.finalMass mass b) rest

/-- The manœuvres are in order, and after a given time. -/
def Ordered (E : Engine T M B) : T → List (M × B) → Prop
  | _, [] => True
  | t, m :: rest => t ≤ E.initialTime m.1 m.2 ∧ E.initialTime m.1 m.2 ≤ E.finalTime m.1 m.2 ∧ Ordered E (E.finalTime m.1 m.2) rest

/-- The ephemeris is prolonged by each integration, unless it already reaches the desired time; it was known up to the time `t₀` before the operation. -/
structure Prolongs (env : Env T M B X) (t₀ : T) : Prop where
  start : ∀ i t, t ≤ env.tMax i t ∨ t₀ < env.tMax i t
  step : ∀ i j t u, i < j → u ≤ env.tMax j u ∨ env.tMax i t < env.tMax j u

/-- The points of the flight plan are not after the time `t₀`. -/
def Until (p : Plan T M B X) (t₀ : T) : Prop := ∀ s ∈ p.segments, ∀ q ∈ s, q.1 ≤ t₀

/-- The circumstances of an operation: the plan resulted from some history, the integrator steps forward and each integration prolongs the ephemeris, which
already covers the segments of the plan. -/
structure Context (E : Engine T M B) (env : Env T M B X) (p : Plan T M B X) : Prop where
  reachable : ∃ copies, Reachable E copies p
  integrator : Integrator env
  ephemeris : ∃ t₀, Until p t₀ ∧ Prolongs env t₀

/-- The masses and burns that follow the removal of the manœuvre at index `i`: the next manœuvre keeps its initial mass. -/
def afterRemoval (E : Engine T M B) (p : Plan T M B X) (i : Nat) : List (M × B) :=
  match (keys p).drop (i + 1) with
  | [] => []
  | m :: rest => chain E m.1 (m.2 :: rest.map Prod.snd)

/-- The properties of rockets: burns consume mass, and the same burn, executed by a heavier vessel, starts no later, ends no earlier, and leaves more
mass. -/
structure Monotone [Preorder M] (E : Engine T M B) : Prop where
  loses : ∀ m b, E.finalMass m b ≤ m
  mass : ∀ m m' b, m ≤ m' → E.finalMass m b ≤ E.finalMass m' b
  initial : ∀ m m' b, m ≤ m' → E.initialTime m' b ≤ E.initialTime m b
  final : ∀ m m' b, m ≤ m' → E.finalTime m b ≤ E.finalTime m' b
  forward : ∀ m b, E.initialTime m b ≤ E.finalTime m b

/-- The manœuvres of the plan are in order and their masses are those of a vessel that executes them. -/
structure Sound (E : Engine T M B) (p : Plan T M B X) : Prop where
  mass : MassChain E p.initialMass p.manoeuvres
  order : Ordered E p.initialTime (keys p)

end Principia.FlightPlan.Spec
