import Verif.Ksp.LifecycleModel

/-!
What the vessels and parts are for the game, without pointers: a vessel is known by its GUID, a part by its identifier, and each part is in one vessel.
-/

set_option linter.unusedVariables false

namespace Principia.Ksp.Lifecycle

/-- A vessel, as seen by the game. -/
@[ext]
structure VesselState where
  name : String
  parent : ℕ
  prediction : Parameters
  start : Option ℚ
  flightPlans : ℕ
  /-- The game told that the vessel still exists. -/
  kept : Bool
  /-- The game told that the vessel is loaded. -/
  loaded : Bool

/-- A part, as seen by the game. -/
@[ext]
structure PartState (δ : Type) where
  name : String
  truthful : Bool
  properties : δ
  motion : δ
  /-- The vessel that contains the part. -/
  vessel : String
  /-- The game told that the part still exists. -/
  kept : Bool

/-- The state, as seen by the game. -/
@[ext]
structure Game (δ : Type) where
  time : ℚ
  celestials : List ℕ
  vessel : String → Option VesselState
  part : ℕ → Option (PartState δ)
  /-- The parameters of the vessels that no longer exist. -/
  zombie : String → Option Parameters
  target : Option String
  /-- The parts that existed when collisions started to be reported. -/
  prepared : ℕ → Prop
  contacts : List (ℕ × ℕ)
  ground : List ℕ

variable {δ : Type} (untruthful : δ) (defaultParameters : Parameters)

namespace Game

/-- The part is in a vessel for which some property holds. -/
def PartIn (g : Game δ) (id : ℕ) (P : PartState δ → VesselState → Prop) : Prop := ∃ x v, g.part id = some x ∧ g.vessel x.vessel = some v ∧ P x v

/-- The part will not be destroyed by the next cleanup, unless it touches the ground: its vessel was kept and, if that vessel is loaded, the part was kept. -/
def Survives (g : Game δ) (id : ℕ) : Prop := g.PartIn id fun x v => v.kept ∧ (v.loaded → x.kept)

/-- The parts are joined by a chain of contacts and of vessels. -/
def Joined (g : Game δ) : ℕ → ℕ → Prop :=
  Relation.EqvGen fun a b => (a, b) ∈ g.contacts ∨ (g.Survives a ∧ g.Survives b ∧ (g.part a).map PartState.vessel = (g.part b).map PartState.vessel)

/-- A part of the vessel is joined to one that touches the ground. -/
def Grounded (g : Game δ) (guid : String) : Prop :=
  ∃ id, g.Survives id ∧ (g.part id).map PartState.vessel = some guid ∧ ∃ b ∈ g.ground, g.Joined id b

/-- The vessel will exist after the next cleanup. -/
def Remains (g : Game δ) (guid : String) : Prop := (∃ v, g.vessel guid = some v ∧ v.kept) ∧ ¬g.Grounded guid

/-- The conditions under which a cleanup succeeds: each vessel that is kept has a part that survives, the parts that survive existed when collisions started to be reported, and none of
them touches a part that doesn't survive. -/
def MayFree (g : Game δ) : Prop :=
  (∀ guid v, g.vessel guid = some v → v.kept → ∃ id, g.Survives id ∧ (g.part id).map PartState.vessel = some guid) ∧
    (∀ id, g.Survives id → g.prepared id) ∧ ∀ c ∈ g.contacts, (g.Survives c.1 ↔ g.Survives c.2)

open Classical in
/-- The effect of a cleanup. -/
noncomputable def free (g : Game δ) (Δt : ℚ) : Game δ :=
  { g with
    vessel := fun guid => if g.Remains guid then (g.vessel guid).map fun v => { v with kept := false, start := v.start.or (some (if v.loaded then g.time - Δt else g.time)) } else none
    part := fun id => if g.Survives id then (g.part id).bind fun x =>
      if g.Remains x.vessel then (g.vessel x.vessel).map fun v => { x with kept := if v.loaded then false else x.kept } else none else none
    zombie := fun guid => if g.Remains guid then g.zombie guid else match g.vessel guid with | some v => some v.prediction | none => g.zombie guid
    target := g.target.bind fun guid => if g.Remains guid then some guid else none
    prepared := fun _ => False
    contacts := []
    ground := [] }

open Classical in
/-- The effect of a call; `none` is a crash. -/
noncomputable def call (g : Game δ) : Call δ → Option (Game δ)
  | .insertOrKeepVessel guid name parent loaded =>
    if parent ∈ g.celestials then
      some { g with
        vessel := update g.vessel guid (some (match g.vessel guid with
          | none => ⟨name, parent, (g.zombie guid).getD defaultParameters, none, 0, true, loaded⟩
          | some v => { v with name := name, parent := parent, kept := true, loaded := v.loaded || loaded }))
        zombie := if (g.vessel guid).isNone then update g.zombie guid none else g.zombie }
    else none
  | .insertUnloadedPart id name guid motion =>
    if (g.vessel guid).isSome ∧ (g.part id).isNone then some { g with part := update g.part id (some ⟨name, false, untruthful, motion, guid, false⟩) } else none
  | .insertOrKeepLoadedPart id name properties guid motion =>
    if ∃ v, g.vessel guid = some v ∧ v.loaded then
      some { g with part := update g.part id (some (match g.part id with
        | none => ⟨name, true, properties, motion, guid, true⟩
        | some x => { x with truthful := true, properties := properties, vessel := guid, kept := true })) }
    else none
  | .applyForce id => if g.PartIn id fun _ v => v.loaded then some g else none
  | .prepareToReportCollisions => some { g with prepared := fun id => (g.part id).isSome, contacts := [], ground := [] }
  | .reportGroundCollision id => if g.prepared id then some { g with ground := id :: g.ground } else none
  | .reportPartCollision id₁ id₂ =>
    if (g.prepared id₁ ∧ g.PartIn id₁ fun x v => v.kept ∧ x.kept) ∧ (g.prepared id₂ ∧ g.PartIn id₂ fun x v => v.kept ∧ x.kept) then
      some { g with contacts := (id₁, id₂) :: g.contacts }
    else none
  | .freeVesselsAndParts Δt => if g.MayFree then some (g.free Δt) else none
  | .advanceTime t => if g.time < t then some { g with time := t, vessel := fun guid => (g.vessel guid).map fun v => { v with loaded := false } } else none
  | .setPrediction guid parameters => (g.vessel guid).map fun v =>
    { g with vessel := fun other => (g.vessel other).map fun w =>
        if other = guid then { w with prediction := parameters }
        else if g.target = some other then
          { w with prediction := if 0 < v.flightPlans then { parameters with maxSteps := max w.prediction.maxSteps parameters.maxSteps } else parameters }
        else w }
  | .createFlightPlan guid => (g.vessel guid).bind fun v => if v.start.isSome then some { g with vessel := update g.vessel guid (some { v with flightPlans := v.flightPlans + 1 }) } else none
  | .setTargetVessel guid celestial => if celestial ∈ g.celestials ∧ (g.vessel guid).isSome then some { g with target := some guid } else none
  | .clearTargetVessel => some { g with target := none }

/-- The effect of a sequence of calls. -/
noncomputable def run (g : Game δ) (calls : List (Call δ)) : Option (Game δ) := calls.foldlM (Game.call untruthful defaultParameters) g

/-- The state at the end of the initialization. -/
def initial (t : ℚ) (celestials : List ℕ) : Game δ := ⟨t, celestials, fun _ => none, fun _ => none, fun _ => none, none, fun _ => False, [], []⟩

end Game

/-- The state seen by the game, from the data of the plugin. -/
def Plugin.view (p : Plugin δ) : Game δ where
  time := p.currentTime
  celestials := p.celestials
  vessel guid := (p.vessels.find guid).bind fun q => (p.heap q).map fun v => ⟨v.name, v.parent, v.prediction, v.start, v.flightPlans, q ∈ p.kept, q ∈ p.loaded⟩
  part id := (p.partIdToVessel id).bind fun q => (p.heap q).bind fun v => (v.parts.find id).map fun x =>
    ⟨x.name, x.truthful, x.properties, x.motion, v.guid, id ∈ v.keptParts⟩
  zombie := p.zombies
  target := p.target.bind fun q => (p.heap q).map Vessel.guid
  prepared id := id ∈ p.subsets.prepared
  contacts := p.subsets.contacts
  ground := p.subsets.ground

end Principia.Ksp.Lifecycle
