import Mathlib.Logic.Relation
import Mathlib.Data.Rat.Defs
import Mathlib.Algebra.Order.Ring.Rat

/-!
A model of the vessels and parts of the plugin, ksp_plugin/plugin.cpp and ksp_plugin/vessel.cpp: how they are inserted, kept, moved and destroyed.

Simplifications: the plugin is initialized.  Of the objects, only the data that affects which ones exist, and the data passed by the game, are kept: the trajectories are reduced to
their initial time, the flight plans to their number, the physical properties of the parts to one value.  The union-find structure is replaced with the relation that it computes (this
is property C08), and the pile-ups are not modelled here (same property).  `none` is a failed check or undefined behaviour.  Pointers are natural numbers, and never reused: the
dereferencing of a pointer to an object that was destroyed is undefined behaviour.
-/

set_option linter.unusedVariables false

namespace Principia.Ksp.Lifecycle

/-- `std::map` and `absl::flat_hash_map`, in the order of an iteration. -/
abbrev Map (K V : Type) := List (K × V)

namespace Map

variable {K V : Type} [DecidableEq K]

/-- `find`. -/
def find (m : Map K V) (k : K) : Option V := (List.find? (fun x => x.1 = k) m).map Prod.snd

/-- `emplace`, which has no effect if the key is present. -/
def emplace (m : Map K V) (k : K) (v : V) : Map K V := if (m.find k).isSome then m else m ++ [(k, v)]

/-- `erase`. -/
def erase (m : Map K V) (k : K) : Map K V := m.filter fun x => x.1 ≠ k

end Map

/-- The insertion in a set. -/
def insertSet {α : Type} [DecidableEq α] (a : α) (s : List α) : List α := if a ∈ s then s else s ++ [a]

/-- A change of the value of a function at a point. -/
def update {α β : Type} [DecidableEq α] (f : α → β) (a : α) (b : β) : α → β := fun x => if x = a then b else f x

/-- physics/ephemeris.hpp: `AdaptiveStepParameters`. -/
structure Parameters where
  integrator : ℕ
  maxSteps : ℤ
  lengthTolerance : ℚ
  speedTolerance : ℚ
  deriving DecidableEq

/-- ksp_plugin/part.hpp: the data of a part.  `properties` stands for the mass, the centre of mass, the inertia tensor and the kind of the part, `motion` for its motion when it was
created. -/
structure Part (δ : Type) where
  id : ℕ
  name : String
  truthful : Bool
  properties : δ
  motion : δ

/-- ksp_plugin/vessel.hpp: the data of a vessel. -/
structure Vessel (δ : Type) where
  guid : String
  name : String
  parent : ℕ
  prediction : Parameters
  /-- The initial time of the trajectory, if it is not empty. -/
  start : Option ℚ
  flightPlans : ℕ
  parts : Map ℕ (Part δ)
  keptParts : List ℕ

/-- base/disjoint_sets.hpp, ksp_plugin/part_subsets.hpp: the parts for which `MakeSingleton` was called, and what was reported since. -/
structure Subsets where
  prepared : List ℕ
  contacts : List (ℕ × ℕ)
  ground : List ℕ

/-- ksp_plugin/plugin.hpp: the data of the plugin.  The heap gives the vessels that exist. -/
structure Plugin (δ : Type) where
  currentTime : ℚ
  celestials : List ℕ
  heap : ℕ → Option (Vessel δ)
  next : ℕ
  vessels : Map String ℕ
  partIdToVessel : ℕ → Option ℕ
  kept : List ℕ
  loaded : List ℕ
  zombies : String → Option Parameters
  target : Option ℕ
  subsets : Subsets

section

variable {δ : Type} (untruthful : δ) (defaultParameters : Parameters)

/-- The vessel pointed to. -/
def Plugin.vesselAt (p : Plugin δ) (q : ℕ) : Option (Vessel δ) := p.heap q

/-- A change of the vessel pointed to. -/
def Plugin.setVessel (p : Plugin δ) (q : ℕ) (v : Vessel δ) : Plugin δ := { p with heap := update p.heap q (some v) }

/-! ## The vessels -/

/-- ksp_plugin/vessel.cpp:139-143 (`AddPart`).  If there was a part with this identifier, the part given as an argument would be destroyed. -/
def Vessel.addPart (v : Vessel δ) (part : Part δ) : Option (Vessel δ) :=
  if (v.parts.find part.id).isSome then none else some { v with parts := v.parts.emplace part.id part }

/-- ksp_plugin/vessel.cpp:145-156 (`ExtractPart`). -/
def Vessel.extractPart (v : Vessel δ) (id : ℕ) : Option (Vessel δ × Part δ) :=
  if v.keptParts.length ≤ v.parts.length then
    (v.parts.find id).map fun part => ({ v with parts := v.parts.erase id, keptParts := v.keptParts.erase id }, part)
  else none

/-- ksp_plugin/vessel.cpp:158-162 (`KeepPart`). -/
def Vessel.keepPart (v : Vessel δ) (id : ℕ) : Option (Vessel δ) :=
  if v.keptParts.length ≤ v.parts.length ∧ (v.parts.find id).isSome then some { v with keptParts := insertSet id v.keptParts } else none

/-- ksp_plugin/vessel.cpp:221-223 (`part`) and ksp_plugin/plugin.cpp:509-514: the changes made to a part of a loaded vessel. -/
def Vessel.updatePart (v : Vessel δ) (id : ℕ) (properties : δ) : Option (Vessel δ) :=
  (v.parts.find id).map fun part =>
    { v with parts := v.parts.map fun x => if x.1 = id then (x.1, { part with truthful := true, properties := properties }) else x }

/-- ksp_plugin/vessel.cpp:168-181 (`FreeParts`): the vessel, and the identifiers of the parts that are destroyed. -/
def Vessel.freeParts (v : Vessel δ) : Option (Vessel δ × List ℕ) :=
  if v.keptParts.length ≤ v.parts.length then
    let parts := v.parts.filter fun x => x.2.id ∈ v.keptParts;
    if parts = [] then none
    else some ({ v with parts := parts, keptParts := [] }, (v.parts.filter fun x => x.2.id ∉ v.keptParts).map fun x => x.2.id)
  else none

/-- ksp_plugin/vessel.cpp:194-213 (`CreateTrajectoryIfNeeded`). -/
def Vessel.createTrajectoryIfNeeded (v : Vessel δ) (t : ℚ) : Option (Vessel δ) :=
  if v.parts = [] then none else some (if v.start.isNone then { v with start := some t } else v)

/-! ## The plugin -/

/-- ksp_plugin/plugin.cpp:1820-1823 and ksp_plugin/part.cpp:66-71: the destruction of a part calls the deletion callback. -/
def Plugin.destroyPart (p : Plugin δ) (id : ℕ) : Plugin δ :=
  { p with partIdToVessel := update p.partIdToVessel id none, subsets := { p.subsets with prepared := p.subsets.prepared.filter (· ≠ id) } }

/-- ksp_plugin/plugin.cpp:606-612, 650-655: the removal of a vessel, whose destructor destroys the parts. -/
def Plugin.removeVessel (p : Plugin δ) (q : ℕ) (v : Vessel δ) : Plugin δ :=
  let p := { p with loaded := p.loaded.filter (· ≠ q)
                    target := if p.target = some q then none else p.target
                    zombies := update p.zombies v.guid (some v.prediction)
                    vessels := p.vessels.erase v.guid };
  let p := (v.parts.map fun x => x.2.id).foldl Plugin.destroyPart p;
  { p with heap := update p.heap q none }

/-- ksp_plugin/plugin.cpp:391-434 (`InsertOrKeepVessel`): the plugin, and whether the vessel was inserted. -/
def Plugin.insertOrKeepVessel (p : Plugin δ) (guid name : String) (parent : ℕ) (loaded : Bool) : Option (Plugin δ × Bool) :=
  if parent ∈ p.celestials then
    let (p, q, inserted) := match p.vessels.find guid with
      | none =>
        let prediction := (p.zombies guid).getD defaultParameters;
        let zombies := if (p.zombies guid).isSome then update p.zombies guid none else p.zombies;
        ({ p with zombies := zombies
                  heap := update p.heap p.next (some ⟨guid, name, parent, prediction, none, 0, [], []⟩)
                  next := p.next + 1
                  vessels := p.vessels.emplace guid p.next }, p.next, true)
      | some q => (p, q, false);
    (p.vesselAt q).map fun v =>
      let v := if v.name ≠ name then { v with name := name } else v;
      let v := if v.parent ≠ parent then { v with parent := parent } else v;
      ({ p.setVessel q v with kept := insertSet q p.kept, loaded := if loaded then insertSet q p.loaded else p.loaded }, inserted)
  else none

/-- ksp_plugin/plugin.cpp:1808-1830 (`AddPart`). -/
def Plugin.addPart (p : Plugin δ) (q : ℕ) (part : Part δ) : Option (Plugin δ) :=
  if (p.partIdToVessel part.id).isSome then none
  else (p.vesselAt q).bind fun v => (v.addPart part).map fun v => { p.setVessel q v with partIdToVessel := update p.partIdToVessel part.id (some q) }

/-- ksp_plugin/plugin.cpp:436-452 (`InsertUnloadedPart`). -/
def Plugin.insertUnloadedPart (p : Plugin δ) (id : ℕ) (name guid : String) (motion : δ) : Option (Plugin δ) :=
  (p.vessels.find guid).bind fun q => p.addPart q ⟨id, name, false, untruthful, motion⟩

/-- ksp_plugin/plugin.cpp:454-515 (`InsertOrKeepLoadedPart`).  The computation of the motion is not modelled: `motion` is its result. -/
def Plugin.insertOrKeepLoadedPart (p : Plugin δ) (id : ℕ) (name : String) (properties : δ) (guid : String) (motion : δ) : Option (Plugin δ) :=
  (p.vessels.find guid).bind fun q =>
    if q ∈ p.loaded then
      (show Option (Plugin δ) from match p.partIdToVessel id with
        | some q' =>
          if q = q' then some p
          else
            let p := { p with partIdToVessel := update p.partIdToVessel id (some q) };
            (p.vesselAt q').bind fun v' => (v'.extractPart id).bind fun e =>
              let p := p.setVessel q' e.1;
              (p.vesselAt q).bind fun v => (v.addPart e.2).map fun v => p.setVessel q v
        | none => p.addPart q ⟨id, name, true, properties, motion⟩).bind fun p =>
        (p.vesselAt q).bind fun v => (v.keepPart id).bind fun v => (v.updatePart id properties).map fun v => p.setVessel q v
    else none

/-- ksp_plugin/plugin.cpp:517-548 (`ApplyPartIntrinsicForce`, `ApplyPartIntrinsicForceAtPosition`, `ApplyPartIntrinsicTorque`), of which only the checks are modelled. -/
def Plugin.applyForce (p : Plugin δ) (id : ℕ) : Option (Plugin δ) :=
  (p.partIdToVessel id).bind fun q => if q ∈ p.loaded then (p.vesselAt q).bind fun v => (v.parts.find id).map fun _ => p else none

/-- ksp_plugin/plugin.cpp:550-557 (`PartIsTruthful`). -/
def Plugin.partIsTruthful (p : Plugin δ) (id : ℕ) : Option Bool :=
  match p.partIdToVessel id with
  | none => some false
  | some q => (p.vesselAt q).bind fun v => (v.parts.find id).map Part.truthful

/-- ksp_plugin/plugin.cpp:559-568 (`PrepareToReportCollisions`). -/
def Plugin.prepareToReportCollisions (p : Plugin δ) : Option (Plugin δ) :=
  (p.vessels.mapM fun x => p.vesselAt x.2).map fun vessels => { p with subsets := ⟨vessels.flatMap fun v => v.parts.map fun x => x.2.id, [], []⟩ }

/-- ksp_plugin/plugin.cpp:570-576 (`ReportGroundCollision`). -/
def Plugin.reportGroundCollision (p : Plugin δ) (id : ℕ) : Option (Plugin δ) :=
  (p.partIdToVessel id).bind fun q => (p.vesselAt q).bind fun v => (v.parts.find id).bind fun _ =>
    if id ∈ p.subsets.prepared then some { p with subsets := { p.subsets with ground := id :: p.subsets.ground } } else none

/-- ksp_plugin/plugin.cpp:578-590 (`ReportPartCollision`). -/
def Plugin.reportPartCollision (p : Plugin δ) (id₁ id₂ : ℕ) : Option (Plugin δ) :=
  (p.partIdToVessel id₁).bind fun q₁ => (p.partIdToVessel id₂).bind fun q₂ =>
    (p.vesselAt q₁).bind fun v₁ => (p.vesselAt q₂).bind fun v₂ =>
      (v₁.parts.find id₁).bind fun _ => (v₂.parts.find id₂).bind fun _ =>
        if q₁ ∈ p.kept ∧ q₂ ∈ p.kept ∧ id₁ ∈ v₁.keptParts ∧ id₂ ∈ v₂.keptParts ∧ id₁ ∈ p.subsets.prepared ∧ id₂ ∈ p.subsets.prepared then
          some { p with subsets := { p.subsets with contacts := (id₁, id₂) :: p.subsets.contacts } }
        else none

/-- ksp_plugin/plugin.cpp:599-615: an iteration of the loop that removes the vessels that are not kept. -/
def Plugin.keepOrRemove (Δt : ℚ) (p : Plugin δ) (x : String × ℕ) : Option (Plugin δ) :=
  (p.vesselAt x.2).bind fun v =>
    let vesselTime := if x.2 ∈ p.loaded then p.currentTime - Δt else p.currentTime;
    if x.2 ∈ p.kept then (v.createTrajectoryIfNeeded vesselTime).map fun v => { p.setVessel x.2 v with kept := p.kept.filter (· ≠ x.2) }
    else some (p.removeVessel x.2 v)

/-- ksp_plugin/plugin.cpp:619-621: an iteration of the loop that frees the parts. -/
def Plugin.freeParts (p : Plugin δ) (q : ℕ) : Option (Plugin δ) :=
  (p.vesselAt q).bind fun v => v.freeParts.map fun e => (e.2.foldl Plugin.destroyPart p).setVessel q e.1

/-- Whether two parts are in the same vessel. -/
def Plugin.sameVessel (p : Plugin δ) (a b : ℕ) : Prop :=
  ∃ x ∈ p.vessels, ∃ v, p.heap x.2 = some v ∧ (v.parts.find a).isSome ∧ (v.parts.find b).isSome

/-- The relation computed by the subsets of parts, once the vessels are bound. -/
def Plugin.joined (p : Plugin δ) : ℕ → ℕ → Prop := Relation.EqvGen fun a b => (a, b) ∈ p.subsets.contacts ∨ p.sameVessel a b

/-- Whether a vessel has a part that is joined to one that touches the ground. -/
def Plugin.isGrounded (p : Plugin δ) (v : Vessel δ) : Prop := ∃ x ∈ v.parts, ∃ b ∈ p.subsets.ground, p.joined x.2.id b

/-- ksp_plugin/plugin.cpp:625-632: what the binding of the vessels requires: vessels that are not empty, whose parts were prepared, and that are not in contact with parts that were
destroyed. -/
def Plugin.mayBind (p : Plugin δ) : Prop :=
  (∀ x ∈ p.vessels, ∃ v, p.heap x.2 = some v ∧ v.parts ≠ [] ∧ ∀ y ∈ v.parts, y.2.id ∈ p.subsets.prepared) ∧
    ∀ c ∈ p.subsets.contacts, ((p.partIdToVessel c.1).isSome ↔ (p.partIdToVessel c.2).isSome)

open Classical in
/-- ksp_plugin/plugin.cpp:592-679 (`FreeVesselsAndPartsAndCollectPileUps`).  Simplifications: the collection of the pile-ups, which follows, is not modelled; the subsets are emptied, so that
reporting a collision before the next call to `PrepareToReportCollisions` is a crash, whereas in the code it uses the stale data of the previous subsets. -/
noncomputable def Plugin.freeVesselsAndParts (p : Plugin δ) (Δt : ℚ) : Option (Plugin δ) :=
  (p.vessels.foldlM (Plugin.keepOrRemove Δt) p).bind fun p =>
    if p.kept = [] then
      (p.loaded.foldlM Plugin.freeParts p).bind fun p =>
        if p.mayBind then
          let grounded := p.vessels.filter fun x => ∃ v, p.heap x.2 = some v ∧ p.isGrounded v;
          (grounded.foldlM (fun (p : Plugin δ) x => (p.vesselAt x.2).map fun v => p.removeVessel x.2 v) p).map fun p => { p with subsets := ⟨[], [], []⟩ }
        else none
    else none

/-- ksp_plugin/plugin.cpp:780-793 (`AdvanceTime`).  The intrinsic forces are not modelled. -/
def Plugin.advanceTime (p : Plugin δ) (t : ℚ) : Option (Plugin δ) :=
  if p.currentTime < t then (p.loaded.mapM p.vesselAt).map fun _ => { p with currentTime := t, loaded := [] } else none

/-- ksp_plugin/plugin.cpp:907-939 (`SetPredictionAdaptiveStepParameters`). -/
def Plugin.setPrediction (p : Plugin δ) (guid : String) (parameters : Parameters) : Option (Plugin δ) :=
  (p.vessels.find guid).bind fun q => (p.vesselAt q).bind fun v =>
    (show Option (Plugin δ) from match p.target with
      | none => some p
      | some q' => (p.vesselAt q').map fun v' =>
        p.setVessel q' { v' with prediction := if 0 < v.flightPlans then { parameters with maxSteps := max v'.prediction.maxSteps parameters.maxSteps } else parameters }).bind fun p =>
      (p.vesselAt q).map fun v => p.setVessel q { v with prediction := parameters }

/-- ksp_plugin/plugin.cpp:971-982 and ksp_plugin/vessel.cpp:465-484 (`CreateFlightPlan`): the trajectory must not be empty. -/
def Plugin.createFlightPlan (p : Plugin δ) (guid : String) : Option (Plugin δ) :=
  (p.vessels.find guid).bind fun q => (p.vesselAt q).bind fun v => v.start.map fun _ => p.setVessel q { v with flightPlans := v.flightPlans + 1 }

/-- ksp_plugin/plugin.cpp:1289-1295 and ksp_plugin/renderer.cpp:40-49 (`SetTargetVessel`), where only the vessel is kept. -/
def Plugin.setTargetVessel (p : Plugin δ) (guid : String) (celestial : ℕ) : Option (Plugin δ) :=
  if celestial ∈ p.celestials then (p.vessels.find guid).map fun q => { p with target := some q } else none

/-- ksp_plugin/renderer.cpp:51-53 (`ClearTargetVessel`). -/
def Plugin.clearTargetVessel (p : Plugin δ) : Plugin δ := { p with target := none }

/-- ksp_plugin/plugin.cpp:1190-1192 (`HasVessel`). -/
def Plugin.hasVessel (p : Plugin δ) (guid : String) : Bool := (p.vessels.find guid).isSome

/-- The plugin at the end of the initialization, ksp_plugin/plugin.cpp:210-310. -/
def Plugin.initial (t : ℚ) (celestials : List ℕ) : Plugin δ :=
  ⟨t, celestials, fun _ => none, 0, [], fun _ => none, [], [], fun _ => none, none, ⟨[], [], []⟩⟩

/-- The calls that the game may make. -/
inductive Call (δ : Type)
  | insertOrKeepVessel (guid name : String) (parent : ℕ) (loaded : Bool)
  | insertUnloadedPart (id : ℕ) (name guid : String) (motion : δ)
  | insertOrKeepLoadedPart (id : ℕ) (name : String) (properties : δ) (guid : String) (motion : δ)
  | applyForce (id : ℕ)
  | prepareToReportCollisions
  | reportGroundCollision (id : ℕ)
  | reportPartCollision (id₁ id₂ : ℕ)
  | freeVesselsAndParts (Δt : ℚ)
  | advanceTime (t : ℚ)
  | setPrediction (guid : String) (parameters : Parameters)
  | createFlightPlan (guid : String)
  | setTargetVessel (guid : String) (celestial : ℕ)
  | clearTargetVessel

/-- The effect of a call. -/
noncomputable def Plugin.call (p : Plugin δ) : Call δ → Option (Plugin δ)
  | .insertOrKeepVessel guid name parent loaded => (p.insertOrKeepVessel defaultParameters guid name parent loaded).map Prod.fst
  | .insertUnloadedPart id name guid motion => p.insertUnloadedPart untruthful id name guid motion
  | .insertOrKeepLoadedPart id name properties guid motion => p.insertOrKeepLoadedPart id name properties guid motion
  | .applyForce id => p.applyForce id
  | .prepareToReportCollisions => p.prepareToReportCollisions
  | .reportGroundCollision id => p.reportGroundCollision id
  | .reportPartCollision id₁ id₂ => p.reportPartCollision id₁ id₂
  | .freeVesselsAndParts Δt => p.freeVesselsAndParts Δt
  | .advanceTime t => p.advanceTime t
  | .setPrediction guid parameters => p.setPrediction guid parameters
  | .createFlightPlan guid => p.createFlightPlan guid
  | .setTargetVessel guid celestial => p.setTargetVessel guid celestial
  | .clearTargetVessel => some p.clearTargetVessel

/-- The effect of a sequence of calls. -/
noncomputable def Plugin.run (p : Plugin δ) (calls : List (Call δ)) : Option (Plugin δ) := calls.foldlM (Plugin.call untruthful defaultParameters) p

end

end Principia.Ksp.Lifecycle
