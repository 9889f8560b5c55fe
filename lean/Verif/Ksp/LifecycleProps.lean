import Verif.Ksp.LifecycleCleanup

/-!
The vessels and parts of the plugin.
-/

set_option linter.unusedSimpArgs false
set_option linter.unusedVariables false
set_option linter.unusedSectionVars false

namespace Principia.Ksp.Lifecycle

variable {δ : Type} {untruthful : δ} {defaultParameters : Parameters}

theorem run_consistent {t : ℚ} {celestials : List ℕ} {calls : List (Call δ)} {p : Plugin δ} (h : (Plugin.initial t celestials).run untruthful defaultParameters calls = some p) : Consistent p :=
  (run_spec (consistent_initial t celestials) calls).1 p h

/-- Whatever the game does, what it sees of the vessels and of the parts is what it expects: in particular, the calls crash in the cases that are documented, and only in these. -/
theorem C77_refinement (t : ℚ) (celestials : List ℕ) (calls : List (Call δ)) :
    ((Plugin.initial t celestials).run untruthful defaultParameters calls).map Plugin.view = (Game.initial t celestials).run untruthful defaultParameters calls := by
  rw [← view_initial]
  exact (run_spec (consistent_initial t celestials) calls).2

/-- Whatever the game does, there are no dangling pointers, no leaks, and each part is in one vessel. -/
theorem C77_consistent (t : ℚ) (celestials : List ℕ) (calls : List (Call δ)) (p : Plugin δ) (h : (Plugin.initial t celestials).run untruthful defaultParameters calls = some p) :
    (∀ guid q, p.vessels.find guid = some q → ∃ v, p.heap q = some v ∧ v.guid = guid) ∧ (∀ q v, p.heap q = some v → p.vessels.find v.guid = some q) ∧
      (∀ id q, p.partIdToVessel id = some q ↔ ∃ v, p.heap q = some v ∧ (v.parts.find id).isSome) ∧
        (∀ q q' v v' id, p.heap q = some v → p.heap q' = some v' → (v.parts.find id).isSome → (v'.parts.find id).isSome → q = q') ∧
          (∀ q ∈ p.kept, (p.heap q).isSome) ∧ (∀ q ∈ p.loaded, (p.heap q).isSome) ∧ ∀ q, p.target = some q → (p.heap q).isSome := by
  have hc := run_consistent h
  have hp : ∀ id q, p.partIdToVessel id = some q ↔ ∃ v, p.heap q = some v ∧ (v.parts.find id).isSome := by
    intro id q
    constructor
    · intro e
      obtain ⟨v, x, h1, h2⟩ := hc.partAlive id q e
      exact ⟨v, h1, by rw [h2]; rfl⟩
    · rintro ⟨v, h1, h2⟩
      obtain ⟨x, hx⟩ := Option.isSome_iff_exists.1 h2
      exact hc.partOwned q v id x h1 hx
  refine ⟨hc.alive, hc.owned, hp, ?_, hc.kept, hc.loaded, hc.target⟩
  intro q q' v v' id h1 h2 h3 h4
  have e1 := (hp id q).2 ⟨v, h1, h3⟩
  rw [(hp id q').2 ⟨v', h2, h4⟩] at e1
  exact (Option.some.inj e1).symm

/-- The vessel exists, in the view of the game. -/
theorem hasVessel_iff {p : Plugin δ} (h : Consistent p) (guid : String) : p.hasVessel guid = true ↔ ∃ v, p.view.vessel guid = some v := by
  rw [← mem_vessels h, ← Map.find_isSome]
  rfl

/-- A cleanup succeeds, from any state that the game may reach, under exactly these conditions, and then the vessels that remain are the ones that were kept and are not joined to the ground. -/
theorem C77_cleanup (t : ℚ) (celestials : List ℕ) (calls : List (Call δ)) (p : Plugin δ) (h : (Plugin.initial t celestials).run untruthful defaultParameters calls = some p) (Δt : ℚ) :
    ((p.freeVesselsAndParts Δt).isSome ↔ p.view.MayFree) ∧
      ∀ p', p.freeVesselsAndParts Δt = some p' →
        (∀ guid, p'.hasVessel guid = true ↔ (∃ v, p.view.vessel guid = some v ∧ v.kept) ∧ ¬p.view.Grounded guid) ∧
          (∀ id, (p'.partIdToVessel id).isSome ↔ ∃ x v, p.view.part id = some x ∧ p.view.vessel x.vessel = some v ∧ v.kept ∧ (v.loaded → x.kept) ∧ ¬p.view.Grounded x.vessel) ∧
            ∀ guid v, p.view.vessel guid = some v → p'.hasVessel guid = false → p'.zombies guid = some v.prediction := by
  have hc := run_consistent h
  obtain ⟨h1, h2⟩ := free_spec (untruthful := untruthful) (defaultParameters := defaultParameters) hc Δt
  rw [Game.call] at h2
  constructor
  · by_cases hm : p.view.MayFree
    · rw [if_pos hm] at h2
      obtain ⟨p', e, -⟩ := Option.map_eq_some_iff.1 h2
      simp [e, hm]
    · rw [if_neg hm, Option.map_eq_none_iff] at h2
      simp [h2, hm]
  · intro p' e
    have hc' := h1 p' e
    rw [e, Option.map_some] at h2
    by_cases hm : p.view.MayFree
    · rw [if_pos hm] at h2
      have e2 : p'.view = p.view.free Δt := Option.some.inj h2
      have hv : ∀ guid, p'.hasVessel guid = true ↔ p.view.Remains guid := by
        intro guid
        rw [hasVessel_iff hc', e2]
        unfold Game.free
        simp only
        constructor
        · rintro ⟨v, hv⟩
          by_contra hr
          rw [if_neg hr] at hv
          cases hv
        · intro hr
          rw [if_pos hr]
          obtain ⟨⟨v, hv, -⟩, -⟩ := hr
          rw [hv]
          exact ⟨_, rfl⟩
      refine ⟨hv, ?_, ?_⟩
      · intro id
        have : (p'.partIdToVessel id).isSome ↔ p'.view.part id ≠ none := by
          rw [Ne, hc'.part_none]
          exact Option.isSome_iff_ne_none
        rw [this, e2]
        unfold Game.free
        simp only
        constructor
        · intro hn
          by_cases hs : p.view.Survives id
          · have hs' := hs
            obtain ⟨x, v, a, b, c, d⟩ := hs'
            refine ⟨x, v, a, b, c, d, ?_⟩
            rw [if_pos hs, a, Option.bind_some] at hn
            by_cases hr : p.view.Remains x.vessel
            · exact hr.2
            · rw [if_neg hr] at hn
              exact absurd rfl hn
          · rw [if_neg hs] at hn
            exact absurd rfl hn
        · rintro ⟨x, v, a, b, c, d, f⟩
          rw [if_pos (show p.view.Survives id from ⟨x, v, a, b, c, d⟩), a, Option.bind_some, if_pos (show p.view.Remains x.vessel from ⟨⟨v, b, c⟩, f⟩), b]
          simp
      · intro guid v hv' hn
        have hr : ¬p.view.Remains guid := fun hr => by
          rw [(hv guid).2 hr] at hn
          cases hn
        have : p'.zombies = (p.view.free Δt).zombie := congrArg Game.zombie e2
        rw [this]
        unfold Game.free
        simp only
        rw [if_neg hr, hv']
    · rw [if_neg hm] at h2
      cases h2

/-- The call is a cleanup. -/
def Call.IsFree : Call δ → Prop
  | .freeVesselsAndParts _ => True
  | _ => False

/-- A call that is not a cleanup marks no other vessel as being kept than its argument. -/
theorem call_kept {g g' : Game δ} {c : Call δ} (hc : ¬c.IsFree) (h : g.call untruthful defaultParameters c = some g') (guid : String) :
    g'.Kept guid ↔ g.Kept guid ∨ ∃ name parent loaded, c = .insertOrKeepVessel guid name parent loaded := by
  have key : (∀ b, (g'.vessel b).map VesselState.kept = (g.vessel b).map VesselState.kept) → (g'.Kept guid ↔ g.Kept guid) := by
    intro he
    have := he guid
    unfold Game.Kept
    cases hg : g.vessel guid with
    | none =>
      rw [hg, Option.map_none, Option.map_eq_none_iff] at this
      rw [this]
    | some v =>
      rw [hg] at this
      obtain ⟨w, h1, h2⟩ := Option.map_eq_some_iff.1 this
      rw [h1]
      constructor
      · rintro ⟨u, e, hu⟩
        cases e
        exact ⟨v, rfl, h2 ▸ hu⟩
      · rintro ⟨u, e, hu⟩
        cases e
        exact ⟨w, rfl, h2 ▸ hu⟩
  have same : g'.vessel = g.vessel → (g'.Kept guid ↔ g.Kept guid) := fun e => key fun b => by rw [e]
  cases c with
  | insertOrKeepVessel guid' name parent loaded =>
    rw [Game.call] at h
    by_cases hp : parent ∈ g.celestials
    · rw [if_pos hp] at h
      cases h
      by_cases hg : guid = guid'
      · subst hg
        refine ⟨fun _ => Or.inr ⟨name, parent, loaded, rfl⟩, fun _ => ?_⟩
        refine ⟨_, update_eq _ _ _, ?_⟩
        cases g.vessel guid <;> rfl
      · have : (∃ name' parent' loaded', (Call.insertOrKeepVessel guid' name parent loaded : Call δ) = .insertOrKeepVessel guid name' parent' loaded') ↔ False := by
          constructor
          · rintro ⟨_, _, _, e⟩
            cases e
            exact hg rfl
          · exact False.elim
        rw [this, or_false]
        unfold Game.Kept
        simp only [update_ne _ _ hg]
    · rw [if_neg hp] at h
      cases h
  | insertUnloadedPart id name guid' motion =>
    rw [Game.call] at h
    by_cases hp : (g.vessel guid').isSome ∧ (g.part id).isNone
    · rw [if_pos hp] at h
      cases h
      simpa using same rfl
    · rw [if_neg hp] at h
      cases h
  | insertOrKeepLoadedPart id name properties guid' motion =>
    rw [Game.call] at h
    by_cases hp : ∃ v, g.vessel guid' = some v ∧ v.loaded
    · rw [if_pos hp] at h
      cases h
      simpa using same rfl
    · rw [if_neg hp] at h
      cases h
  | applyForce id =>
    rw [Game.call] at h
    by_cases hp : g.PartIn id fun _ v => v.loaded
    · rw [if_pos hp] at h
      cases h
      simpa using same rfl
    · rw [if_neg hp] at h
      cases h
  | prepareToReportCollisions =>
    rw [Game.call] at h
    cases h
    simpa using same rfl
  | reportGroundCollision id =>
    rw [Game.call] at h
    by_cases hp : g.prepared id
    · rw [if_pos hp] at h
      cases h
      simpa using same rfl
    · rw [if_neg hp] at h
      cases h
  | reportPartCollision id₁ id₂ =>
    rw [Game.call] at h
    by_cases hp : (g.prepared id₁ ∧ g.PartIn id₁ fun x v => v.kept ∧ x.kept) ∧ (g.prepared id₂ ∧ g.PartIn id₂ fun x v => v.kept ∧ x.kept)
    · rw [if_pos hp] at h
      cases h
      simpa using same rfl
    · rw [if_neg hp] at h
      cases h
  | freeVesselsAndParts Δt => exact absurd trivial hc
  | advanceTime t =>
    rw [Game.call] at h
    by_cases hp : g.time < t
    · rw [if_pos hp] at h
      cases h
      have := key (by
        intro b
        simp only [Option.map_map]
        rfl)
      simpa using this
    · rw [if_neg hp] at h
      cases h
  | setPrediction guid' parameters =>
    rw [Game.call] at h
    obtain ⟨v, hv, e⟩ := Option.map_eq_some_iff.1 h
    subst e
    have := key (by
      intro b
      simp only [Option.map_map]
      congr 1
      funext w
      simp only [Function.comp_apply]
      by_cases h1 : b = guid'
      · rw [if_pos h1]
      · rw [if_neg h1]
        by_cases h2 : g.target = some b
        · rw [if_pos h2]
        · rw [if_neg h2])
    simpa using this
  | createFlightPlan guid' =>
    rw [Game.call] at h
    obtain ⟨v, hv, e⟩ := Option.bind_eq_some_iff.1 h
    by_cases hp : v.start.isSome
    · rw [if_pos hp] at e
      cases e
      have := key (by
        intro b
        simp only
        by_cases hb : b = guid'
        · subst hb
          rw [update_eq, hv]
          rfl
        · rw [update_ne _ _ hb])
      simpa using this
    · rw [if_neg hp] at e
      cases e
  | setTargetVessel guid' celestial =>
    rw [Game.call] at h
    by_cases hp : celestial ∈ g.celestials ∧ (g.vessel guid').isSome
    · rw [if_pos hp] at h
      cases h
      simpa using same rfl
    · rw [if_neg hp] at h
      cases h
  | clearTargetVessel =>
    rw [Game.call] at h
    cases h
    simpa using same rfl

theorem run_kept {g g' : Game δ} {calls : List (Call δ)} (hc : ∀ c ∈ calls, ¬c.IsFree) (h : g.run untruthful defaultParameters calls = some g') (guid : String) :
    g'.Kept guid ↔ g.Kept guid ∨ ∃ name parent loaded, .insertOrKeepVessel guid name parent loaded ∈ calls := by
  unfold Game.run at h
  induction calls generalizing g with
  | nil =>
    cases h
    simp
  | cons c calls ih =>
    rw [List.foldlM_cons] at h
    obtain ⟨g₁, h1, h2⟩ := Option.bind_eq_some_iff.1 h
    rw [ih (fun c' hc' => hc c' (List.mem_cons_of_mem _ hc')) h2, call_kept (hc c List.mem_cons_self) h1, or_assoc]
    refine or_congr_right ?_
    constructor
    · rintro (⟨n, p, l, rfl⟩ | ⟨n, p, l, h⟩)
      · exact ⟨n, p, l, List.mem_cons_self⟩
      · exact ⟨n, p, l, List.mem_cons_of_mem _ h⟩
    · rintro ⟨n, p, l, h⟩
      rcases List.mem_cons.1 h with h | h
      · exact Or.inl ⟨n, p, l, h.symm⟩
      · exact Or.inr ⟨n, p, l, h⟩

theorem free_kept (g : Game δ) (Δt : ℚ) (guid : String) : ¬(g.free Δt).Kept guid := by
  rintro ⟨v, h1, h2⟩
  unfold Game.free at h1
  simp only at h1
  by_cases hr : g.Remains guid
  · rw [if_pos hr] at h1
    obtain ⟨w, -, rfl⟩ := Option.map_eq_some_iff.1 h1
    cases h2
  · rw [if_neg hr] at h1
    cases h1

/-- After a cleanup, the vessels are those for which the game called `InsertOrKeepVessel` since the previous cleanup, except for the ones that are joined to the ground. -/
theorem C77_vessels (t : ℚ) (celestials : List ℕ) (before between : List (Call δ)) (Δt₀ Δt : ℚ) (hb : ∀ c ∈ between, ¬c.IsFree) (p p' : Plugin δ)
    (h : (Plugin.initial t celestials).run untruthful defaultParameters (before ++ .freeVesselsAndParts Δt₀ :: between) = some p) (h' : p.freeVesselsAndParts Δt = some p') (guid : String) :
    p'.hasVessel guid = true ↔ (∃ name parent loaded, .insertOrKeepVessel guid name parent loaded ∈ between) ∧ ¬p.view.Grounded guid := by
  rw [((C77_cleanup t celestials _ p h Δt).2 p' h').1 guid]
  refine and_congr_left fun _ => ?_
  have hr := C77_refinement (untruthful := untruthful) (defaultParameters := defaultParameters) t celestials (before ++ .freeVesselsAndParts Δt₀ :: between)
  rw [h, Option.map_some] at hr
  unfold Game.run at hr
  rw [List.foldlM_append] at hr
  obtain ⟨g₁, h1, h2⟩ := Option.bind_eq_some_iff.1 hr.symm
  rw [List.foldlM_cons] at h2
  obtain ⟨g₂, h3, h4⟩ := Option.bind_eq_some_iff.1 h2
  rw [Game.call] at h3
  by_cases hm : g₁.MayFree
  · rw [if_pos hm] at h3
    cases h3
    have := run_kept hb h4 guid
    unfold Game.Kept at this
    rw [this]
    refine ⟨fun hh => hh.resolve_left ?_, Or.inr⟩
    exact free_kept g₁ Δt₀ guid
  · rw [if_neg hm] at h3
    cases h3

/-- A vessel that is destroyed and inserted again keeps its prediction parameters. -/
theorem C77_zombie (t : ℚ) (celestials : List ℕ) (calls : List (Call δ)) (p p' p'' : Plugin δ) (h : (Plugin.initial t celestials).run untruthful defaultParameters calls = some p) (Δt : ℚ)
    (h' : p.freeVesselsAndParts Δt = some p') (guid name : String) (parent : ℕ) (loaded inserted : Bool) (v : VesselState) (hv : p.view.vessel guid = some v) (hn : p'.hasVessel guid = false) (parameters : Parameters)
    (h'' : p'.insertOrKeepVessel parameters guid name parent loaded = some (p'', inserted)) :
    inserted = true ∧ p''.view.vessel guid = some ⟨name, parent, v.prediction, none, 0, true, loaded⟩ := by
  have hz := ((C77_cleanup t celestials calls p h Δt).2 p' h').2.2 guid v hv hn
  have hc' : Consistent p' := (free_spec (untruthful := untruthful) (defaultParameters := defaultParameters) (run_consistent h) Δt).1 p' h'
  obtain ⟨h1, h2⟩ := insertOrKeepVessel_spec (untruthful := untruthful) (defaultParameters := parameters) hc' guid name parent loaded
  have hvn : p'.view.vessel guid = none := by
    by_contra hc
    obtain ⟨w, hw⟩ := Option.ne_none_iff_exists'.1 hc
    rw [(hasVessel_iff hc' guid).2 ⟨w, hw⟩] at hn
    cases hn
  have h3 := h2 _ h''
  rw [hvn] at h3
  refine ⟨h3, ?_⟩
  have h4 := h1.2
  rw [h'', Option.map_some, Option.map_some, Game.call] at h4
  by_cases hp : parent ∈ p'.view.celestials
  · rw [if_pos hp, hvn] at h4
    have h5 := Option.some.inj h4
    rw [h5]
    simp only [update_eq]
    rw [show p'.view.zombie guid = some v.prediction from hz]
    rfl
  · rw [if_neg hp] at h4
    cases h4

/-- `PartIsTruthful` never crashes. -/
theorem C77_truthful (t : ℚ) (celestials : List ℕ) (calls : List (Call δ)) (p : Plugin δ) (h : (Plugin.initial t celestials).run untruthful defaultParameters calls = some p) (id : ℕ) :
    p.partIsTruthful id = some ((p.view.part id).elim false PartState.truthful) := by
  have hc := run_consistent h
  unfold Plugin.partIsTruthful
  cases hp : p.partIdToVessel id with
  | none => rw [hc.part_none.2 hp]; rfl
  | some q =>
    obtain ⟨v, x, h1, h2⟩ := hc.partAlive id q hp
    rw [hc.part_eq h1 h2]
    simp only
    rw [show p.vesselAt q = some v from h1, Option.bind_some, h2]
    rfl

/-! ## Examples -/

/-- The parameters used by the examples. -/
def exampleParameters : Parameters := ⟨0, 1000, 1, 1⟩

/-- Two vessels with one part each, the second one of which touches the ground. -/
def exampleCalls : List (Call ℕ) :=
  [.insertOrKeepVessel "a" "A" 0 true, .insertOrKeepVessel "b" "B" 0 true, .insertOrKeepLoadedPart 1 "x" 10 "a" 5, .insertOrKeepLoadedPart 2 "y" 20 "b" 6, .prepareToReportCollisions,
    .reportGroundCollision 2]

/-- The state that they lead to. -/
def exampleGame : Game ℕ where
  time := 0
  celestials := [0]
  vessel := update (update (fun _ => none) "a" (some ⟨"A", 0, exampleParameters, none, 0, true, true⟩)) "b" (some ⟨"B", 0, exampleParameters, none, 0, true, true⟩)
  part := update (update (fun _ => none) 1 (some ⟨"x", true, 10, 5, "a", true⟩)) 2 (some ⟨"y", true, 20, 6, "b", true⟩)
  zombie := fun _ => none
  target := none
  prepared := fun id => id = 1 ∨ id = 2
  contacts := []
  ground := [2]

theorem example_run : (Game.initial 0 [0]).run 0 exampleParameters exampleCalls = some exampleGame := by
  have hu : ∀ (f : String → Option Parameters), f = (fun _ => none) → ∀ a, update f a none = fun _ => none := by
    rintro f rfl a
    funext b
    unfold update
    split <;> rfl
  simp only [exampleCalls, Game.run, List.foldlM_cons, List.foldlM_nil, Game.call, Game.initial]
  simp [update, exampleGame]
  refine ⟨?_, ?_⟩
  · funext b
    simp [update]
  · funext b
    simp [update]
    grind

theorem example_survives (id : ℕ) : exampleGame.Survives id ↔ id = 1 ∨ id = 2 := by
  unfold Game.Survives Game.PartIn
  constructor
  · rintro ⟨x, v, h, -⟩
    simp only [exampleGame, update] at h
    grind
  · rintro (rfl | rfl)
    · exact ⟨⟨"x", true, 10, 5, "a", true⟩, ⟨"A", 0, exampleParameters, none, 0, true, true⟩, rfl, rfl, rfl, fun _ => rfl⟩
    · exact ⟨⟨"y", true, 20, 6, "b", true⟩, ⟨"B", 0, exampleParameters, none, 0, true, true⟩, rfl, rfl, rfl, fun _ => rfl⟩

theorem example_mayFree : exampleGame.MayFree := by
  refine ⟨?_, fun id h => (example_survives id).1 h, fun c h => by cases h⟩
  intro guid v hv hk
  simp only [example_survives]
  by_cases h2 : guid = "b"
  · exact ⟨2, Or.inr rfl, by rw [h2]; rfl⟩
  · by_cases h1 : guid = "a"
    · exact ⟨1, Or.inl rfl, by rw [h1]; rfl⟩
    · simp [exampleGame, update, h1, h2] at hv

theorem example_joined {a b : ℕ} (h : exampleGame.Joined a b) : a = 1 ↔ b = 1 := by
  unfold Game.Joined at h
  induction h with
  | rel a b h =>
    rcases h with h | ⟨h1, h2, h3⟩
    · cases h
    · rcases (example_survives a).1 h1 with rfl | rfl <;> rcases (example_survives b).1 h2 with rfl | rfl
      · rfl
      · simp [exampleGame, update] at h3
      · simp [exampleGame, update] at h3
      · rfl
  | refl a => rfl
  | symm a b _ ih => exact ih.symm
  | trans a b c _ _ ih1 ih2 => exact ih1.trans ih2

theorem example_grounded_a : ¬exampleGame.Grounded "a" := by
  rintro ⟨id, h1, h2, b, h3, h4⟩
  have hb : b = 2 := by simpa [exampleGame] using h3
  subst hb
  have : id ≠ 1 := fun e => absurd ((example_joined h4).1 e) (by decide)
  have : id = 2 := ((example_survives id).1 h1).resolve_left this
  subst this
  simp [exampleGame, update] at h2

theorem example_grounded_b : exampleGame.Grounded "b" := ⟨2, (example_survives 2).2 (Or.inr rfl), rfl, 2, List.mem_singleton.2 rfl, Relation.EqvGen.refl _⟩

/-- Two vessels are inserted and the second one touches the ground: the cleanup succeeds, and only the first one remains. -/
example : ∃ p p' : Plugin ℕ, (Plugin.initial 0 [0]).run 0 exampleParameters exampleCalls = some p ∧ p.freeVesselsAndParts 1 = some p' ∧ p'.hasVessel "a" = true ∧ p'.hasVessel "b" = false ∧
    p'.zombies "b" = some exampleParameters ∧ (p'.partIdToVessel 1).isSome ∧ ¬(p'.partIdToVessel 2).isSome := by
  have h := C77_refinement (untruthful := 0) (defaultParameters := exampleParameters) 0 [0] exampleCalls
  rw [example_run] at h
  obtain ⟨p, hp, hv⟩ := Option.map_eq_some_iff.1 h
  obtain ⟨h1, h2⟩ := C77_cleanup 0 [0] exampleCalls p hp 1
  rw [hv] at h1 h2
  obtain ⟨p', hp'⟩ := Option.isSome_iff_exists.1 (h1.2 example_mayFree)
  obtain ⟨a, b, c⟩ := h2 p' hp'
  have hb : p'.hasVessel "b" = false := by
    rw [Bool.eq_false_iff]
    exact fun e => ((a "b").1 e).2 example_grounded_b
  refine ⟨p, p', hp, hp', (a "a").2 ⟨⟨_, rfl, rfl⟩, example_grounded_a⟩, hb, c "b" _ rfl hb, (b 1).2 ⟨_, _, rfl, rfl, rfl, fun _ => rfl, example_grounded_a⟩, ?_⟩
  intro e
  obtain ⟨x, v, hx, -, -, -, hg⟩ := (b 2).1 e
  have : x = ⟨"y", true, 20, 6, "b", true⟩ := by
    have h3 : exampleGame.part 2 = some ⟨"y", true, 20, 6, "b", true⟩ := rfl
    rw [h3] at hx
    exact (Option.some.inj hx).symm
  subst this
  exact hg example_grounded_b

/-- If the only part of a vessel moves to another vessel, as happens when two vessels dock, but the game still declares the first vessel, the cleanup crashes. -/
theorem C77_emptied_vessel_counterexample : ∃ p : Plugin ℕ, (Plugin.initial 0 [0]).run 0 exampleParameters (exampleCalls ++ [.insertOrKeepLoadedPart 1 "x" 10 "b" 5]) = some p ∧
    p.freeVesselsAndParts 1 = none := by
  have h := C77_refinement (untruthful := 0) (defaultParameters := exampleParameters) 0 [0] (exampleCalls ++ [.insertOrKeepLoadedPart 1 "x" 10 "b" 5])
  have hr : (Game.initial 0 [0]).run 0 exampleParameters (exampleCalls ++ [.insertOrKeepLoadedPart 1 "x" 10 "b" 5]) =
      some { exampleGame with part := update exampleGame.part 1 (some ⟨"x", true, 10, 5, "b", true⟩) } := by
    have h1 := example_run
    unfold Game.run at h1 ⊢
    rw [List.foldlM_append, h1]
    show (Game.call 0 exampleParameters exampleGame (.insertOrKeepLoadedPart 1 "x" 10 "b" 5)).bind _ = _
    rw [Game.call, if_pos ⟨_, rfl, rfl⟩]
    rfl
  rw [hr] at h
  obtain ⟨p, hp, hv⟩ := Option.map_eq_some_iff.1 h
  refine ⟨p, hp, ?_⟩
  obtain ⟨h1, -⟩ := C77_cleanup 0 [0] _ p hp 1
  rw [hv] at h1
  rw [← Option.not_isSome_iff_eq_none, h1]
  rintro ⟨h2, -⟩
  obtain ⟨id, -, h3⟩ := h2 "a" _ rfl rfl
  simp only [exampleGame, update] at h3
  by_cases e1 : id = 1
  · simp [e1] at h3
  · by_cases e2 : id = 2
    · simp [e2] at h3
    · simp [e1, e2] at h3

/-- An unloaded part cannot be inserted if it is known, even in another vessel. -/
theorem C77_known_unloaded_part (t : ℚ) (celestials : List ℕ) (calls : List (Call δ)) (p : Plugin δ) (h : (Plugin.initial t celestials).run untruthful defaultParameters calls = some p)
    (id : ℕ) (name guid : String) (motion : δ) : (p.insertUnloadedPart untruthful id name guid motion).isSome ↔ p.hasVessel guid = true ∧ ¬(p.partIdToVessel id).isSome := by
  have hc := run_consistent h
  have hs := (insertUnloadedPart_spec (untruthful := untruthful) (defaultParameters := defaultParameters) hc id name guid motion).2
  rw [Game.call] at hs
  have h1 : p.hasVessel guid = true ↔ (p.view.vessel guid).isSome := by rw [hasVessel_iff hc, Option.isSome_iff_exists]
  have h2 : ¬(p.partIdToVessel id).isSome ↔ (p.view.part id).isNone := by rw [Option.not_isSome_iff_eq_none, Option.isNone_iff_eq_none, hc.part_none]
  rw [h1, h2]
  by_cases hp : (p.view.vessel guid).isSome ∧ (p.view.part id).isNone
  · rw [if_pos hp] at hs
    obtain ⟨p', e, -⟩ := Option.map_eq_some_iff.1 hs
    simp [e, hp]
  · rw [if_neg hp, Option.map_eq_none_iff] at hs
    exact ⟨fun e => (by rw [hs] at e; cases e), fun e => absurd e hp⟩

theorem free_mayFree (g : Game δ) (Δt : ℚ) : (g.free Δt).MayFree := by
  refine ⟨fun guid v hv hk => absurd ⟨v, hv, hk⟩ (free_kept g Δt guid), ?_, fun c hc => by cases hc⟩
  rintro id ⟨x, v, -, hv, hk, -⟩
  exact absurd ⟨v, hv, hk⟩ (free_kept g Δt x.vessel)

/-- If the game declares no vessels between two cleanups, the second cleanup succeeds, and destroys all the vessels and all the parts. -/
theorem C77_nothing_kept (t : ℚ) (celestials : List ℕ) (calls : List (Call δ)) (Δt₀ Δt : ℚ) (p : Plugin δ)
    (h : (Plugin.initial t celestials).run untruthful defaultParameters (calls ++ [.freeVesselsAndParts Δt₀]) = some p) :
    ∃ p', p.freeVesselsAndParts Δt = some p' ∧ (∀ guid, p'.hasVessel guid = false) ∧ ∀ id, p'.partIdToVessel id = none := by
  have hr := C77_refinement (untruthful := untruthful) (defaultParameters := defaultParameters) t celestials (calls ++ [.freeVesselsAndParts Δt₀])
  rw [h, Option.map_some] at hr
  unfold Game.run at hr
  rw [List.foldlM_append] at hr
  obtain ⟨g₁, h1, h2⟩ := Option.bind_eq_some_iff.1 hr.symm
  rw [List.foldlM_cons] at h2
  obtain ⟨g₂, h3, h4⟩ := Option.bind_eq_some_iff.1 h2
  cases h4
  rw [Game.call] at h3
  by_cases hm : g₁.MayFree
  · rw [if_pos hm] at h3
    have e : p.view = g₁.free Δt₀ := (Option.some.inj h3).symm
    obtain ⟨h5, h6⟩ := C77_cleanup t celestials _ p h Δt
    obtain ⟨p', hp'⟩ := Option.isSome_iff_exists.1 (h5.2 (e ▸ free_mayFree g₁ Δt₀))
    obtain ⟨a, b, -⟩ := h6 p' hp'
    refine ⟨p', hp', fun guid => ?_, fun id => ?_⟩
    · rw [Bool.eq_false_iff]
      intro hv
      have := ((a guid).1 hv).1
      rw [e] at this
      exact free_kept g₁ Δt₀ guid this
    · rw [← Option.not_isSome_iff_eq_none]
      intro hi
      obtain ⟨x, v, -, hv, hk, -⟩ := (b id).1 hi
      rw [e] at hv
      exact free_kept g₁ Δt₀ x.vessel ⟨v, hv, hk⟩
  · rw [if_neg hm] at h3
    cases h3

/-- The hypotheses of the theorems above are met: after the cleanup of the example, the vessel that touched the ground may be inserted again, and a second cleanup succeeds. -/
example : ∃ p p' p'' q : Plugin ℕ, (Plugin.initial 0 [0]).run 0 exampleParameters exampleCalls = some p ∧ p.freeVesselsAndParts 1 = some p' ∧
    (Plugin.initial 0 [0]).run 0 exampleParameters (exampleCalls ++ [.freeVesselsAndParts 1]) = some p' ∧
      p'.insertOrKeepVessel ⟨5, 5, 5, 5⟩ "b" "B again" 0 false = some (p'', true) ∧ p''.view.vessel "b" = some ⟨"B again", 0, exampleParameters, none, 0, true, false⟩ ∧
        p'.freeVesselsAndParts 2 = some q ∧ q.hasVessel "a" = false := by
  have h := C77_refinement (untruthful := 0) (defaultParameters := exampleParameters) 0 [0] exampleCalls
  rw [example_run] at h
  obtain ⟨p, hp, hv⟩ := Option.map_eq_some_iff.1 h
  obtain ⟨h1, h2⟩ := C77_cleanup 0 [0] exampleCalls p hp 1
  rw [hv] at h1 h2
  obtain ⟨p', hp'⟩ := Option.isSome_iff_exists.1 (h1.2 example_mayFree)
  obtain ⟨a, b, c⟩ := h2 p' hp'
  have hb : p'.hasVessel "b" = false := by
    rw [Bool.eq_false_iff]
    exact fun e => ((a "b").1 e).2 example_grounded_b
  have hrun : (Plugin.initial 0 [0]).run 0 exampleParameters (exampleCalls ++ [.freeVesselsAndParts 1]) = some p' := by
    have h1 := hp
    unfold Plugin.run at h1 ⊢
    rw [List.foldlM_append, h1]
    show (p.freeVesselsAndParts 1).bind _ = _
    rw [hp']
    rfl
  obtain ⟨q, hq, hq1, -⟩ := C77_nothing_kept 0 [0] exampleCalls 1 2 p' hrun
  have hpar : 0 ∈ p'.celestials := by
    have := C77_refinement (untruthful := 0) (defaultParameters := exampleParameters) 0 [0] (exampleCalls ++ [.freeVesselsAndParts 1])
    rw [hrun] at this
    have h3 : (Game.initial 0 [0]).run 0 exampleParameters (exampleCalls ++ [.freeVesselsAndParts 1]) = some (exampleGame.free 1) := by
      have h1 := example_run
      unfold Game.run at h1 ⊢
      rw [List.foldlM_append, h1]
      show (Game.call 0 exampleParameters exampleGame (.freeVesselsAndParts 1)).bind _ = _
      rw [Game.call, if_pos example_mayFree]
      rfl
    rw [h3] at this
    have h4 : p'.celestials = [0] := congrArg Game.celestials (Option.some.inj this)
    rw [h4]
    exact List.mem_singleton.2 rfl
  have hc' : Consistent p' := run_consistent hrun
  obtain ⟨h5, h6⟩ := insertOrKeepVessel_spec (untruthful := 0) (defaultParameters := ⟨5, 5, 5, 5⟩) hc' "b" "B again" 0 false
  have h7 := h5.2
  rw [Game.call, if_pos (show 0 ∈ p'.view.celestials from hpar)] at h7
  obtain ⟨x, hx, -⟩ := Option.map_eq_some_iff.1 h7
  obtain ⟨⟨p'', inserted⟩, hi, -⟩ := Option.map_eq_some_iff.1 hx
  obtain ⟨rfl, h8⟩ := C77_zombie 0 [0] exampleCalls p p' p'' hp 1 hp' "b" "B again" 0 false inserted ⟨"B", 0, exampleParameters, none, 0, true, true⟩ (by rw [hv]; rfl) hb _ hi
  exact ⟨p, p', p'', q, hp, hp', hrun, hi, h8, hq, hq1 "a"⟩

end Principia.Ksp.Lifecycle
