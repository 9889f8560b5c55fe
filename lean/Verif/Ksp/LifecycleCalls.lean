import Verif.Ksp.LifecycleRefine

/-!
The calls other than the cleanup.
-/

set_option linter.unusedSimpArgs false
set_option linter.unusedVariables false
set_option linter.unusedSectionVars false

namespace Principia.Ksp.Lifecycle

variable {δ : Type} {untruthful : δ} {defaultParameters : Parameters}

/-- The data of a vessel other than its parts. -/
def Vessel.scalars (v : Vessel δ) : Vessel δ := { v with parts := [], keptParts := [] }

theorem scalars_guid {v w : Vessel δ} (h : v.scalars = w.scalars) : v.guid = w.guid := show v.scalars.guid = w.scalars.guid by rw [h]

/-- A change that only affects the parts. -/
theorem same_vessels {p p' : Plugin δ} (h : Consistent p) (hv : p'.vessels = p.vessels) (hn : p'.next = p.next) (hk : p'.kept = p.kept) (hl : p'.loaded = p.loaded)
    (ht : p'.target = p.target) (hh : ∀ q, (p'.heap q).map Vessel.scalars = (p.heap q).map Vessel.scalars)
    (partAlive : ∀ i q, p'.partIdToVessel i = some q → ∃ v x, p'.heap q = some v ∧ v.parts.find i = some x)
    (partOwned : ∀ q v i x, p'.heap q = some v → v.parts.find i = some x → p'.partIdToVessel i = some q)
    (ok : ∀ q v, p'.heap q = some v → VesselOk v) (prepared : ∀ i ∈ p'.subsets.prepared, (p'.partIdToVessel i).isSome) :
    Consistent p' ∧ p'.view.vessel = p.view.vessel ∧ p'.view.target = p.view.target := by
  have hs : ∀ q, (p'.heap q).isSome = (p.heap q).isSome := by
    intro q
    have := congrArg Option.isSome (hh q)
    rwa [Option.isSome_map, Option.isSome_map] at this
  have h1 : ∀ q v, p.heap q = some v → ∃ v', p'.heap q = some v' ∧ v'.scalars = v.scalars := by
    intro q v e
    have := hh q
    rw [e] at this
    cases e' : p'.heap q with
    | none => rw [e'] at this; cases this
    | some v' =>
      rw [e', Option.map_some, Option.map_some] at this
      exact ⟨v', rfl, Option.some.inj this⟩
  have h2 : ∀ q v', p'.heap q = some v' → ∃ v, p.heap q = some v ∧ v'.scalars = v.scalars := by
    intro q v' e
    have := hh q
    rw [e] at this
    cases e' : p.heap q with
    | none => rw [e'] at this; cases this
    | some v =>
      rw [e', Option.map_some, Option.map_some] at this
      exact ⟨v, rfl, Option.some.inj this⟩
  refine ⟨⟨hv ▸ h.keys, ?_, ?_, ?_, partAlive, partOwned, ok, ?_, ?_, hl ▸ h.loadedNodup, ?_, prepared⟩, ?_, ?_⟩
  · intro guid q e
    rw [hv] at e
    obtain ⟨v, a, b⟩ := h.alive guid q e
    obtain ⟨v', c, d⟩ := h1 q v a
    exact ⟨v', c, (scalars_guid d).trans b⟩
  · intro q v' e
    obtain ⟨v, a, b⟩ := h2 q v' e
    rw [hv, scalars_guid b]
    exact h.owned q v a
  · intro q v' e
    obtain ⟨v, a, b⟩ := h2 q v' e
    rw [hn]
    exact h.fresh q v a
  · intro q e; rw [hs]; exact h.kept q (hk ▸ e)
  · intro q e; rw [hs]; exact h.loaded q (hl ▸ e)
  · intro q e; rw [hs]; exact h.target q (ht ▸ e)
  · funext guid
    rw [view_vessel, view_vessel, hv]
    congr 1
    funext q
    have := hh q
    cases e : p.heap q with
    | none => rw [e] at this; rw [Option.map_none] at this ⊢; rw [Option.map_eq_none_iff] at this; rw [this]; rfl
    | some v =>
      obtain ⟨v', c, d⟩ := h1 q v e
      rw [c, Option.map_some, Option.map_some]
      have d' : ∀ {α : Type} (f : Vessel δ → α), f v'.scalars = f v.scalars := fun f => by rw [d]
      have e1 : v'.name = v.name := d' Vessel.name
      have e2 : v'.parent = v.parent := d' Vessel.parent
      have e3 : v'.prediction = v.prediction := d' Vessel.prediction
      have e4 : v'.start = v.start := d' Vessel.start
      have e5 : v'.flightPlans = v.flightPlans := d' Vessel.flightPlans
      unfold Vessel.state
      rw [e1, e2, e3, e4, e5, hk, hl]
  · change p'.target.bind _ = p.target.bind _
    rw [ht]
    congr 1
    funext q
    cases e : p.heap q with
    | none =>
      have := hh q
      rw [e, Option.map_none, Option.map_eq_none_iff] at this
      rw [this]
    | some v =>
      obtain ⟨v', c, d⟩ := h1 q v e
      rw [c, Option.map_some, Option.map_some, scalars_guid d]

theorem mapM_some {α β : Type} {f : α → Option β} : ∀ {l : List α}, (∀ x ∈ l, (f x).isSome) → l.mapM f = some (l.filterMap f)
  | [], _ => rfl
  | a :: l, h => by
    obtain ⟨b, hb⟩ := Option.isSome_iff_exists.1 (h a List.mem_cons_self)
    rw [List.mapM_cons, hb, mapM_some fun x hx => h x (List.mem_cons_of_mem _ hx), List.filterMap_cons_some hb]
    rfl

/-- A change of the sets of the vessels that are kept or loaded. -/
theorem flags_spec {p : Plugin δ} (h : Consistent p) {kept loaded : List ℕ} (hk : ∀ q ∈ kept, (p.heap q).isSome) (hl : ∀ q ∈ loaded, (p.heap q).isSome) (hn : loaded.Nodup) :
    Consistent { p with kept := kept, loaded := loaded } :=
  ⟨h.keys, h.alive, h.owned, h.fresh, h.partAlive, h.partOwned, h.ok, hk, hl, hn, h.target, h.prepared⟩

/-- The vessel exists. -/
theorem keepVessel_spec {p : Plugin δ} (h : Consistent p) {q : ℕ} {v : Vessel δ} (hq : p.heap q = some v) (name : String) (parent : ℕ) (loaded : Bool) :
    Refines (some { p.setVessel q { v with name := name, parent := parent } with kept := insertSet q p.kept, loaded := if loaded then insertSet q p.loaded else p.loaded })
      (some { p.view with vessel := update p.view.vessel v.guid (some ⟨name, parent, v.prediction, v.start, v.flightPlans, true, decide (q ∈ p.loaded) || loaded⟩) }) := by
  obtain ⟨h1, h2⟩ := setVessel_spec (w := { v with name := name, parent := parent }) h hq rfl rfl rfl
  set p1 := p.setVessel q { v with name := name, parent := parent } with hp1
  have hq1 : p1.heap q = some { v with name := name, parent := parent } := update_eq _ _ _
  refine refines_some (flags_spec h1 ?_ ?_ ?_) ?_
  · intro q' hq'
    rcases mem_insertSet.1 hq' with rfl | hq'
    · rw [hq1]; rfl
    · exact h1.kept q' hq'
  · intro q' hq'
    cases loaded with
    | false => exact h1.loaded q' hq'
    | true =>
      rcases mem_insertSet.1 hq' with rfl | hq'
      · rw [hq1]; rfl
      · exact h1.loaded q' hq'
  · cases loaded with
    | false => exact h1.loadedNodup
    | true => exact nodup_insertSet h1.loadedNodup
  · have hv : ∀ guid, ({ p1 with kept := insertSet q p.kept, loaded := if loaded then insertSet q p.loaded else p.loaded } : Plugin δ).view.vessel guid =
        update p.view.vessel v.guid (some ⟨name, parent, v.prediction, v.start, v.flightPlans, true, decide (q ∈ p.loaded) || loaded⟩) guid := by
      intro guid
      by_cases hc : guid = v.guid
      · subst hc
        rw [update_eq, view_vessel]
        have := h1.owned q _ hq1
        change (p1.vessels.find v.guid).bind _ = _
        rw [this, Option.bind_some]
        change (p1.heap q).map _ = _
        rw [hq1, Option.map_some]
        unfold Vessel.state
        congr 2
        · simp [mem_insertSet]
        · cases loaded <;> simp [mem_insertSet]
      · rw [update_ne _ _ hc]
        have e := congrArg (fun g => g.vessel guid) h2
        beta_reduce at e
        change _ = update p.view.vessel v.guid _ guid at e
        rw [update_ne _ _ hc] at e
        rw [← e, view_vessel, view_vessel]
        change (p1.vessels.find guid).bind _ = _
        cases hf : p1.vessels.find guid with
        | none => rfl
        | some q' =>
          obtain ⟨v', a, b⟩ := h1.alive guid q' hf
          have hcq : q' ≠ q := by
            rintro rfl
            rw [hq1] at a
            cases a
            exact hc b.symm
          rw [Option.bind_some, Option.bind_some]
          change (p1.heap q').map _ = _
          rw [a, Option.map_some, Option.map_some]
          unfold Vessel.state
          congr 2
          · simp [mem_insertSet, hcq]
            rfl
          · cases loaded <;> simp [mem_insertSet, hcq] <;> rfl
    have e : ({ p1 with kept := insertSet q p.kept, loaded := if loaded then insertSet q p.loaded else p.loaded } : Plugin δ).view =
      { p1.view with vessel := ({ p1 with kept := insertSet q p.kept, loaded := if loaded then insertSet q p.loaded else p.loaded } : Plugin δ).view.vessel } := rfl
    rw [e, funext hv, h2]

/-- The vessel doesn't exist. -/
theorem newVessel_spec {p : Plugin δ} (h : Consistent p) {guid : String} (hg : p.vessels.find guid = none) (name : String) (parent : ℕ) (prediction : Parameters)
    (zombies : String → Option Parameters) :
    let p' : Plugin δ := { p with zombies := zombies
                                  heap := update p.heap p.next (some ⟨guid, name, parent, prediction, none, 0, [], []⟩)
                                  next := p.next + 1
                                  vessels := p.vessels.emplace guid p.next };
    Consistent p' ∧ p'.view = { p.view with vessel := update p.view.vessel guid (some ⟨name, parent, prediction, none, 0, false, false⟩), zombie := zombies } := by
  intro p'
  have he : p'.heap p.next = some ⟨guid, name, parent, prediction, none, 0, [], []⟩ := update_eq _ _ _
  have hn : ∀ q, q ≠ p.next → p'.heap q = p.heap q := fun q hc => update_ne _ _ hc
  have hold : ∀ q v, p.heap q = some v → q ≠ p.next := fun q v e => (h.fresh q v e).ne
  have holds : ∀ q, (p.heap q).isSome → (p'.heap q).isSome := by
    intro q e
    obtain ⟨v, hv⟩ := Option.isSome_iff_exists.1 e
    rw [hn q (hold q v hv)]
    exact e
  have hh : ∀ q v, p'.heap q = some v → (q = p.next ∧ v = ⟨guid, name, parent, prediction, none, 0, [], []⟩) ∨ p.heap q = some v := by
    intro q v e
    by_cases hc : q = p.next
    · rw [hc, he] at e
      exact Or.inl ⟨hc, (Option.some.inj e).symm⟩
    · rw [hn q hc] at e
      exact Or.inr e
  have hf : ∀ x, p'.vessels.find x = if x = guid then some p.next else p.vessels.find x := fun x => Map.find_emplace hg p.next x
  have hp' : Consistent p' := by
    refine ⟨Map.keys_emplace h.keys hg _, ?_, ?_, ?_, ?_, ?_, ?_, fun q e => holds q (h.kept q e), fun q e => holds q (h.loaded q e), h.loadedNodup, fun q e => holds q (h.target q e),
      h.prepared⟩
    · intro x q e
      rw [hf] at e
      by_cases hx : x = guid
      · rw [if_pos hx] at e
        cases e
        exact ⟨_, he, hx.symm⟩
      · rw [if_neg hx] at e
        obtain ⟨v, a, b⟩ := h.alive x q e
        exact ⟨v, (hn q (hold q v a)).trans a, b⟩
    · intro q v e
      rw [hf]
      rcases hh q v e with ⟨rfl, rfl⟩ | e
      · exact if_pos rfl
      · rw [if_neg]
        · exact h.owned q v e
        · intro hc
          have := h.owned q v e
          rw [hc, hg] at this
          cases this
    · intro q v e
      rcases hh q v e with ⟨rfl, rfl⟩ | e
      · exact Nat.lt_succ_self _
      · exact (h.fresh q v e).trans (Nat.lt_succ_self _)
    · intro i q e
      obtain ⟨v, x, a, b⟩ := h.partAlive i q e
      exact ⟨v, x, (hn q (hold q v a)).trans a, b⟩
    · intro q v i x e hx
      rcases hh q v e with ⟨rfl, rfl⟩ | e
      · cases hx
      · exact h.partOwned q v i x e hx
    · intro q v e
      rcases hh q v e with ⟨rfl, rfl⟩ | e
      · exact ⟨by simp, by simp, by simp, by simp⟩
      · exact h.ok q v e
  refine ⟨hp', ?_⟩
  have hv : ∀ x, p'.view.vessel x = update p.view.vessel guid (some ⟨name, parent, prediction, none, 0, false, false⟩) x := by
    intro x
    rw [view_vessel, hf]
    by_cases hx : x = guid
    · subst hx
      rw [update_eq, if_pos rfl, Option.bind_some, he, Option.map_some]
      have hk : p.next ∉ p.kept := fun hc => by
        obtain ⟨v, hv⟩ := Option.isSome_iff_exists.1 (h.kept _ hc)
        exact hold _ v hv rfl
      have hl : p.next ∉ p.loaded := fun hc => by
        obtain ⟨v, hv⟩ := Option.isSome_iff_exists.1 (h.loaded _ hc)
        exact hold _ v hv rfl
      unfold Vessel.state
      congr 2
      · exact decide_eq_false hk
      · exact decide_eq_false hl
    · rw [update_ne _ _ hx, if_neg hx, view_vessel]
      cases hf' : p.vessels.find x with
      | none => rfl
      | some q =>
        obtain ⟨v, a, -⟩ := h.alive x q hf'
        rw [Option.bind_some, Option.bind_some, hn q (hold q v a)]
        rfl
  have hpt : ∀ i, p'.view.part i = p.view.part i := by
    intro i
    rw [view_part, view_part]
    change (p.partIdToVessel i).bind _ = _
    cases hf' : p.partIdToVessel i with
    | none => rfl
    | some q =>
      obtain ⟨v, x, a, -⟩ := h.partAlive i q hf'
      rw [Option.bind_some, Option.bind_some, hn q (hold q v a)]
  have ht : p'.view.target = p.view.target := by
    change p.target.bind _ = p.target.bind _
    cases hf' : p.target with
    | none => rfl
    | some q =>
      obtain ⟨v, a⟩ := Option.isSome_iff_exists.1 (h.target q hf')
      rw [Option.bind_some, Option.bind_some, hn q (hold q v a)]
  have e : p'.view = { p.view with vessel := p'.view.vessel, part := p'.view.part, target := p'.view.target, zombie := zombies } := rfl
  rw [e, ht, funext hv, funext hpt]

theorem update_update {α β : Type} [DecidableEq α] (f : α → β) (a : α) (b c : β) : update (update f a b) a c = update f a c := by
  funext x
  by_cases h : x = a
  · subst h; rw [update_eq, update_eq]
  · rw [update_ne _ _ h, update_ne _ _ h, update_ne _ _ h]

theorem insertOrKeepVessel_spec {p : Plugin δ} (h : Consistent p) (guid name : String) (parent : ℕ) (loaded : Bool) :
    Refines ((p.insertOrKeepVessel defaultParameters guid name parent loaded).map Prod.fst) (p.view.call untruthful defaultParameters (.insertOrKeepVessel guid name parent loaded)) ∧
      ∀ r, p.insertOrKeepVessel defaultParameters guid name parent loaded = some r → r.2 = (p.view.vessel guid).isNone := by
  unfold Plugin.insertOrKeepVessel
  rw [Game.call]
  by_cases hpar : parent ∈ p.celestials
  · have hnorm : ∀ v : Vessel δ, (let v := if v.name ≠ name then { v with name := name } else v; if v.parent ≠ parent then { v with parent := parent } else v) =
        { v with name := name, parent := parent } := by
      rintro ⟨g, n, pa, a, b, c, d, e⟩
      by_cases h1 : n = name <;> by_cases h2 : pa = parent <;> simp [h1, h2]
    beta_reduce
    rw [if_pos hpar, if_pos (show parent ∈ p.view.celestials from hpar)]
    cases hf : p.vessels.find guid with
    | none =>
      have hvn := h.vessel_none.2 hf
      set z := (if (p.zombies guid).isSome then update p.zombies guid none else p.zombies) with hz
      have hz' : z = update p.zombies guid none := by
        rw [hz]
        by_cases hc : (p.zombies guid).isSome
        · rw [if_pos hc]
        · rw [if_neg hc]
          funext x
          by_cases hx : x = guid
          · subst hx
            rw [update_eq]
            exact Option.not_isSome_iff_eq_none.1 hc
          · rw [update_ne _ _ hx]
      obtain ⟨h1, h2⟩ := newVessel_spec h hf name parent ((p.zombies guid).getD defaultParameters) z
      set p' : Plugin δ := { p with zombies := z
                                    heap := update p.heap p.next (some ⟨guid, name, parent, (p.zombies guid).getD defaultParameters, none, 0, [], []⟩)
                                    next := p.next + 1
                                    vessels := p.vessels.emplace guid p.next } with hp'
      have he : p'.heap p.next = some ⟨guid, name, parent, (p.zombies guid).getD defaultParameters, none, 0, [], []⟩ := update_eq _ _ _
      have key := keepVessel_spec h1 he name parent loaded
      have hl : p.next ∉ p'.loaded := fun hc => by
        obtain ⟨v, hv⟩ := Option.isSome_iff_exists.1 (h.loaded _ hc)
        exact (h.fresh _ v hv).ne rfl
      have hl' : (decide (p.next ∈ p'.loaded) || loaded) = loaded := by rw [decide_eq_false hl]; rfl
      rw [h2] at key
      simp only [update_update, hl'] at key
      have hat : p'.vesselAt p.next = some ⟨guid, name, parent, (p.zombies guid).getD defaultParameters, none, 0, [], []⟩ := he
      constructor
      · have : (p.view.vessel guid).isNone = true := by rw [hvn]; rfl
        simp only [hvn, Option.isNone_none, if_true]
        rw [← hp', hat]
        simp only [Option.map_some, ne_eq, not_true_eq_false, if_false]
        rw [hz'] at key
        exact key
      · intro r hr
        rw [hvn]
        simp only at hr
        rw [← hp', hat] at hr
        cases hr
        rfl
    | some q =>
      obtain ⟨v, hv, hvg⟩ := h.alive guid q hf
      subst hvg
      have hve := h.vessel_eq hv
      have key := keepVessel_spec h hv name parent loaded
      have hat : p.vesselAt q = some v := hv
      constructor
      · simp only [hve, hat, Option.map_some, Option.isNone_some]
        have := hnorm v
        simp only at this
        rw [this]
        exact key
      · intro r hr
        simp only [hat, Option.map_some] at hr
        cases hr
        rw [hve]
        rfl
  · rw [if_neg hpar, if_neg (show parent ∉ p.view.celestials from hpar)]
    exact ⟨refines_none, fun r hr => by cases hr⟩

/-- A new part. -/
theorem addPart_spec {p : Plugin δ} (h : Consistent p) {q : ℕ} {v : Vessel δ} (hq : p.heap q = some v) (part : Part δ) (hp : p.partIdToVessel part.id = none) :
    ∃ p', p.addPart q part = some p' ∧ Consistent p' ∧ p'.heap q = some { v with parts := v.parts.emplace part.id part } ∧ p'.loaded = p.loaded ∧
      p'.view = { p.view with part := update p.view.part part.id (some ⟨part.name, part.truthful, part.properties, part.motion, v.guid, false⟩) } := by
  have hf : v.parts.find part.id = none := by
    by_contra hc
    obtain ⟨x, hx⟩ := Option.ne_none_iff_exists'.1 hc
    rw [h.partOwned q v _ x hq hx] at hp
    cases hp
  set w : Vessel δ := { v with parts := v.parts.emplace part.id part } with hw
  set p' : Plugin δ := { p.setVessel q w with partIdToVessel := update p.partIdToVessel part.id (some q) } with hp'
  have e : p.addPart q part = some p' := by
    unfold Plugin.addPart
    rw [if_neg (by rw [hp]; simp), show p.vesselAt q = some v from hq, Option.bind_some]
    unfold Vessel.addPart
    rw [if_neg (by rw [hf]; simp)]
    rfl
  have he : p'.heap q = some w := update_eq _ _ _
  have hn : ∀ q', q' ≠ q → p'.heap q' = p.heap q' := fun q' hc => update_ne _ _ hc
  have hwf : ∀ i, w.parts.find i = if i = part.id then some part else v.parts.find i := fun i => Map.find_emplace hf part i
  have hpe : p'.partIdToVessel part.id = some q := update_eq _ _ _
  have hpn : ∀ i, i ≠ part.id → p'.partIdToVessel i = p.partIdToVessel i := fun i hc => update_ne _ _ hc
  have hsv : Consistent (p') ∧ (p').view.vessel = p.view.vessel ∧ (p').view.target = p.view.target := by
    refine same_vessels h rfl rfl rfl rfl rfl ?_ ?_ ?_ ?_ ?_
    · intro q'
      by_cases hcq : q' = q
      · subst hcq; rw [he, hq]; rfl
      · rw [hn q' hcq]
    · intro i q' e
      by_cases hi : i = part.id
      · subst hi
        rw [hpe] at e
        cases e
        exact ⟨w, part, he, (hwf _).trans (if_pos rfl)⟩
      · rw [hpn i hi] at e
        obtain ⟨v', x, a, b⟩ := h.partAlive i q' e
        by_cases hcq : q' = q
        · subst hcq
          rw [hq] at a
          cases a
          exact ⟨w, x, he, by rw [hwf, if_neg hi]; exact b⟩
        · exact ⟨v', x, (hn q' hcq).trans a, b⟩
    · intro q' v' i x e hx
      by_cases hcq : q' = q
      · subst hcq
        rw [he] at e
        cases e
        by_cases hi : i = part.id
        · subst hi; exact hpe
        · rw [hwf, if_neg hi] at hx
          rw [hpn i hi]
          exact h.partOwned _ v i x hq hx
      · rw [hn q' hcq] at e
        have := h.partOwned q' v' i x e hx
        by_cases hi : i = part.id
        · subst hi; rw [hp] at this; cases this
        · rw [hpn i hi]; exact this
    · intro q' v' e
      by_cases hcq : q' = q
      · subst hcq
        rw [he] at e
        cases e
        have := h.ok _ v hq
        refine ⟨Map.keys_emplace this.keys hf part, ?_, this.keptNodup, ?_⟩
        · intro y hy
          have : w.parts = v.parts ++ [(part.id, part)] := by
            rw [hw]
            unfold Map.emplace
            rw [if_neg (by rw [hf]; simp)]
          rw [this, List.mem_append] at hy
          rcases hy with hy | hy
          · exact (h.ok _ v hq).ids y hy
          · simp at hy
            rw [hy]
        · intro i hi
          rw [hwf]
          by_cases hc : i = part.id
          · rw [if_pos hc]; rfl
          · rw [if_neg hc]; exact this.kept i hi
      · rw [hn q' hcq] at e
        exact h.ok q' v' e
    · intro i hi
      by_cases hc : i = part.id
      · subst hc; rw [hpe]; rfl
      · rw [hpn i hc]; exact h.prepared i hi
  obtain ⟨hc, h1, h2⟩ := hsv
  refine ⟨p', e, hc, he, rfl, ?_⟩
  have hpt : ∀ i, p'.view.part i = update p.view.part part.id (some ⟨part.name, part.truthful, part.properties, part.motion, v.guid, false⟩) i := by
    intro i
    by_cases hi : i = part.id
    · subst hi
      rw [update_eq, hc.part_eq he ((hwf _).trans (if_pos rfl))]
      unfold Part.state
      have : part.id ∉ w.keptParts := fun hk => by
        have := (h.ok q v hq).kept _ hk
        rw [hf] at this
        cases this
      rw [decide_eq_false this]
    · rw [update_ne _ _ hi, view_part, view_part, hpn i hi]
      cases hf' : p.partIdToVessel i with
      | none => rfl
      | some q' =>
        rw [Option.bind_some, Option.bind_some]
        by_cases hcq : q' = q
        · subst hcq
          rw [he, hq, Option.bind_some, Option.bind_some, hwf, if_neg hi]
          rfl
        · rw [hn q' hcq]
  have ev : p'.view = { p.view with vessel := p'.view.vessel, part := p'.view.part, target := p'.view.target } := rfl
  rw [ev, h1, h2, funext hpt]

theorem insertUnloadedPart_spec {p : Plugin δ} (h : Consistent p) (id : ℕ) (name guid : String) (motion : δ) :
    Refines (p.insertUnloadedPart untruthful id name guid motion) (p.view.call untruthful defaultParameters (.insertUnloadedPart id name guid motion)) := by
  unfold Plugin.insertUnloadedPart
  rw [Game.call]
  cases hf : p.vessels.find guid with
  | none =>
    rw [if_neg (by rw [h.vessel_none.2 hf]; simp)]
    exact refines_none
  | some q =>
    obtain ⟨v, hv, hg⟩ := h.alive guid q hf
    have hve := h.vessel_eq hv
    rw [hg] at hve
    rw [Option.bind_some]
    cases hp : p.partIdToVessel id with
    | none =>
      obtain ⟨p', e1, e2, -, -, e3⟩ := addPart_spec h hv ⟨id, name, false, untruthful, motion⟩ hp
      have hc : (p.view.vessel guid).isSome ∧ (p.view.part id).isNone := by rw [hve, h.part_none.2 hp]; exact ⟨rfl, rfl⟩
      rw [e1, if_pos hc]
      refine refines_some e2 ?_
      rw [e3, hg]
    | some q' =>
      have hc : ¬((p.view.vessel guid).isSome ∧ (p.view.part id).isNone) := by
        rintro ⟨-, hc⟩
        rw [Option.isNone_iff_eq_none, h.part_none, hp] at hc
        cases hc
      rw [if_neg hc]
      unfold Plugin.addPart
      rw [if_pos (by rw [hp]; rfl)]
      exact refines_none

/-- A part that is moved to another vessel. -/
theorem movePart_spec {p : Plugin δ} (h : Consistent p) {q q' : ℕ} {v v' : Vessel δ} (hne : q ≠ q') (hq : p.heap q = some v) (hq' : p.heap q' = some v') {id : ℕ} {x : Part δ}
    (hx : v'.parts.find id = some x) :
    let p' : Plugin δ := { p with partIdToVessel := update p.partIdToVessel id (some q)
                                  heap := update (update p.heap q' (some { v' with parts := v'.parts.erase id, keptParts := v'.keptParts.erase id })) q
                                    (some { v with parts := v.parts.emplace id x }) };
    Consistent p' ∧ p'.heap q = some { v with parts := v.parts.emplace id x } ∧ v.parts.find id = none ∧
      p'.view = { p.view with part := update p.view.part id (some ⟨x.name, x.truthful, x.properties, x.motion, v.guid, false⟩) } := by
  intro p'
  have hown := h.partOwned q' v' id x hq' hx
  have hf : v.parts.find id = none := by
    by_contra hc
    obtain ⟨y, hy⟩ := Option.ne_none_iff_exists'.1 hc
    have := h.partOwned q v _ y hq hy
    rw [hown] at this
    exact hne (Option.some.inj this).symm
  set w : Vessel δ := { v with parts := v.parts.emplace id x } with hw
  set w' : Vessel δ := { v' with parts := v'.parts.erase id, keptParts := v'.keptParts.erase id } with hw'
  have he : p'.heap q = some w := update_eq _ _ _
  have he' : p'.heap q' = some w' := (update_ne _ _ (Ne.symm hne)).trans (update_eq _ _ _)
  have hn : ∀ q'', q'' ≠ q → q'' ≠ q' → p'.heap q'' = p.heap q'' := fun q'' hc hc' => (update_ne _ _ hc).trans (update_ne _ _ hc')
  have hwf : ∀ i, w.parts.find i = if i = id then some x else v.parts.find i := fun i => Map.find_emplace hf x i
  have hwf' : ∀ i, w'.parts.find i = if i = id then none else v'.parts.find i := fun i => Map.find_erase _ _ _
  have hpe : p'.partIdToVessel id = some q := update_eq _ _ _
  have hpn : ∀ i, i ≠ id → p'.partIdToVessel i = p.partIdToVessel i := fun i hc => update_ne _ _ hc
  have hxid := h.part_id hq' hx
  have hsv : Consistent (p') ∧ (p').view.vessel = p.view.vessel ∧ (p').view.target = p.view.target := by
    refine same_vessels h rfl rfl rfl rfl rfl ?_ ?_ ?_ ?_ ?_
    · intro q''
      by_cases hcq : q'' = q
      · subst hcq; rw [he, hq]; rfl
      · by_cases hcq' : q'' = q'
        · subst hcq'; rw [he', hq']; rfl
        · rw [hn q'' hcq hcq']
    · intro i q'' e
      by_cases hi : i = id
      · subst hi
        rw [hpe] at e
        cases e
        exact ⟨w, x, he, (hwf _).trans (if_pos rfl)⟩
      · rw [hpn i hi] at e
        obtain ⟨v'', y, a, b⟩ := h.partAlive i q'' e
        by_cases hcq : q'' = q
        · subst hcq
          rw [hq] at a
          cases a
          exact ⟨w, y, he, by rw [hwf, if_neg hi]; exact b⟩
        · by_cases hcq' : q'' = q'
          · subst hcq'
            rw [hq'] at a
            cases a
            exact ⟨w', y, he', by rw [hwf', if_neg hi]; exact b⟩
          · exact ⟨v'', y, (hn q'' hcq hcq').trans a, b⟩
    · intro q'' v'' i y e hy
      by_cases hcq : q'' = q
      · subst hcq
        rw [he] at e
        cases e
        by_cases hi : i = id
        · subst hi; exact hpe
        · rw [hwf, if_neg hi] at hy
          rw [hpn i hi]
          exact h.partOwned _ v i y hq hy
      · by_cases hcq' : q'' = q'
        · subst hcq'
          rw [he'] at e
          cases e
          rw [hwf'] at hy
          by_cases hi : i = id
          · rw [if_pos hi] at hy; cases hy
          · rw [if_neg hi] at hy
            rw [hpn i hi]
            exact h.partOwned _ v' i y hq' hy
        · rw [hn q'' hcq hcq'] at e
          have := h.partOwned q'' v'' i y e hy
          by_cases hi : i = id
          · subst hi
            rw [hown] at this
            exact absurd (Option.some.inj this).symm hcq'
          · rw [hpn i hi]; exact this
    · intro q'' v'' e
      by_cases hcq : q'' = q
      · subst hcq
        rw [he] at e
        cases e
        have := h.ok _ v hq
        refine ⟨Map.keys_emplace this.keys hf x, ?_, this.keptNodup, ?_⟩
        · intro y hy
          have : w.parts = v.parts ++ [(id, x)] := by
            rw [hw]
            unfold Map.emplace
            rw [if_neg (by rw [hf]; simp)]
          rw [this, List.mem_append] at hy
          rcases hy with hy | hy
          · exact (h.ok _ v hq).ids y hy
          · simp at hy
            rw [hy]
            exact hxid
        · intro i hi
          rw [hwf]
          by_cases hc : i = id
          · rw [if_pos hc]; rfl
          · rw [if_neg hc]; exact this.kept i hi
      · by_cases hcq' : q'' = q'
        · subst hcq'
          rw [he'] at e
          cases e
          have := h.ok _ v' hq'
          refine ⟨Map.keys_filter this.keys _, ?_, this.keptNodup.erase _, ?_⟩
          · intro y hy
            exact this.ids y (Map.mem_erase.1 hy).1
          · intro i hi
            have hi' := (List.Nodup.mem_erase_iff this.keptNodup).1 hi
            rw [hwf', if_neg hi'.1]
            exact this.kept i hi'.2
        · rw [hn q'' hcq hcq'] at e
          exact h.ok q'' v'' e
    · intro i hi
      by_cases hc : i = id
      · subst hc; rw [hpe]; rfl
      · rw [hpn i hc]; exact h.prepared i hi
  obtain ⟨hc, h1, h2⟩ := hsv
  refine ⟨hc, he, hf, ?_⟩
  have hpt : ∀ i, p'.view.part i = update p.view.part id (some ⟨x.name, x.truthful, x.properties, x.motion, v.guid, false⟩) i := by
    intro i
    by_cases hi : i = id
    · subst hi
      rw [update_eq, hc.part_eq he ((hwf _).trans (if_pos rfl))]
      unfold Part.state
      have : i ∉ w.keptParts := fun hk => by
        have := (h.ok q v hq).kept _ hk
        rw [hf] at this
        cases this
      rw [decide_eq_false this]
    · rw [update_ne _ _ hi, view_part, view_part, hpn i hi]
      cases hf' : p.partIdToVessel i with
      | none => rfl
      | some q'' =>
        rw [Option.bind_some, Option.bind_some]
        by_cases hcq : q'' = q
        · subst hcq
          rw [he, hq, Option.bind_some, Option.bind_some, hwf, if_neg hi]
          rfl
        · by_cases hcq' : q'' = q'
          · subst hcq'
            rw [he', hq', Option.bind_some, Option.bind_some, hwf', if_neg hi]
            congr 1
            funext y
            unfold Part.state
            congr 2
            exact propext (List.mem_erase_of_ne hi)
          · rw [hn q'' hcq hcq']
  have ev : p'.view = { p.view with vessel := p'.view.vessel, part := p'.view.part, target := p'.view.target } := rfl
  rw [ev, h1, h2, funext hpt]

/-- A part that is kept and updated. -/
theorem keepPart_spec {p : Plugin δ} (h : Consistent p) {q : ℕ} {v : Vessel δ} (hq : p.heap q = some v) {id : ℕ} {x : Part δ} (hx : v.parts.find id = some x) (properties : δ) :
    Refines ((p.vesselAt q).bind fun v => (v.keepPart id).bind fun v => (v.updatePart id properties).map fun v => p.setVessel q v)
      (some { p.view with part := update p.view.part id (some ⟨x.name, true, properties, x.motion, v.guid, true⟩) }) := by
  have hok := h.ok q v hq
  set y : Part δ := { x with truthful := true, properties := properties } with hy
  set w : Vessel δ := { v with keptParts := insertSet id v.keptParts, parts := v.parts.map fun z => (z.1, if z.1 = id then y else z.2) } with hw
  have e : ((p.vesselAt q).bind fun v => (v.keepPart id).bind fun v => (v.updatePart id properties).map fun v => p.setVessel q v) = some (p.setVessel q w) := by
    have hc : v.keptParts.length ≤ v.parts.length ∧ (v.parts.find id).isSome := ⟨hok.length, by rw [hx]; rfl⟩
    rw [show p.vesselAt q = some v from hq, Option.bind_some]
    unfold Vessel.keepPart
    rw [if_pos hc, Option.bind_some]
    unfold Vessel.updatePart
    simp only [hx, Option.map_some]
    congr 2
    rw [hw]
    congr 1
    refine List.map_congr_left fun z _ => ?_
    by_cases hz : z.1 = id
    · rw [if_pos hz, if_pos hz]
    · rw [if_neg hz, if_neg hz]
  rw [e]
  have hwf : ∀ i, w.parts.find i = (v.parts.find i).map fun z => if i = id then y else z := fun i => Map.find_map v.parts (fun k z => if k = id then y else z) i
  have hws : ∀ i, (w.parts.find i).isSome = (v.parts.find i).isSome := fun i => by rw [hwf, Option.isSome_map]
  have he : (p.setVessel q w).heap q = some w := update_eq _ _ _
  have hn : ∀ q', q' ≠ q → (p.setVessel q w).heap q' = p.heap q' := fun q' hc => update_ne _ _ hc
  have hsv : Consistent (p.setVessel q w) ∧ (p.setVessel q w).view.vessel = p.view.vessel ∧ (p.setVessel q w).view.target = p.view.target := by
    refine same_vessels h rfl rfl rfl rfl rfl ?_ ?_ ?_ ?_ h.prepared
    · intro q'
      by_cases hcq : q' = q
      · subst hcq; rw [he, hq]; rfl
      · rw [hn q' hcq]
    · intro i q' e
      obtain ⟨v', z, a, b⟩ := h.partAlive i q' e
      by_cases hcq : q' = q
      · subst hcq
        rw [hq] at a
        cases a
        exact ⟨w, _, he, by rw [hwf, b, Option.map_some]⟩
      · exact ⟨v', z, (hn q' hcq).trans a, b⟩
    · intro q' v' i z e hz
      by_cases hcq : q' = q
      · subst hcq
        rw [he] at e
        cases e
        have : (v.parts.find i).isSome := by rw [← hws, hz]; rfl
        obtain ⟨z', hz'⟩ := Option.isSome_iff_exists.1 this
        exact h.partOwned _ v i z' hq hz'
      · rw [hn q' hcq] at e
        exact h.partOwned q' v' i z e hz
    · intro q' v' e
      by_cases hcq : q' = q
      · subst hcq
        rw [he] at e
        cases e
        refine ⟨?_, ?_, nodup_insertSet hok.keptNodup, ?_⟩
        · have : w.parts.map Prod.fst = v.parts.map Prod.fst := by
            change (v.parts.map _).map Prod.fst = _
            rw [List.map_map]
            rfl
          rw [this]
          exact hok.keys
        · intro z hz
          obtain ⟨u, hu, rfl⟩ := List.mem_map.1 hz
          by_cases hc : u.1 = id
          · simp only [if_pos hc]
            rw [hc]
            exact (show x.id = id from h.part_id hq hx)
          · simp only [if_neg hc]
            exact hok.ids u hu
        · intro i hi
          rw [hws]
          rcases mem_insertSet.1 hi with rfl | hi
          · rw [hx]; rfl
          · exact hok.kept i hi
      · rw [hn q' hcq] at e
        exact h.ok q' v' e
  obtain ⟨hc, h1, h2⟩ := hsv
  refine refines_some hc ?_
  have hpt : ∀ i, (p.setVessel q w).view.part i = update p.view.part id (some ⟨x.name, true, properties, x.motion, v.guid, true⟩) i := by
    intro i
    by_cases hi : i = id
    · subst hi
      rw [update_eq, hc.part_eq he ((hwf _).trans (by rw [hx, Option.map_some, if_pos rfl]))]
      unfold Part.state
      have : i ∈ w.keptParts := mem_insertSet.2 (Or.inl rfl)
      rw [decide_eq_true this]
    · rw [update_ne _ _ hi, view_part, view_part]
      change (p.partIdToVessel i).bind _ = _
      cases hf' : p.partIdToVessel i with
      | none => rfl
      | some q' =>
        rw [Option.bind_some, Option.bind_some]
        by_cases hcq : q' = q
        · subst hcq
          rw [he, hq, Option.bind_some, Option.bind_some, hwf, Option.map_map]
          congr 1
          funext z
          simp only [Function.comp_apply, if_neg hi]
          unfold Part.state
          congr 2
          refine propext ⟨fun hh => ?_, fun hh => mem_insertSet.2 (Or.inr hh)⟩
          exact (mem_insertSet.1 hh).resolve_left hi
        · rw [hn q' hcq]
  have ev : (p.setVessel q w).view = { p.view with vessel := (p.setVessel q w).view.vessel, part := (p.setVessel q w).view.part, target := (p.setVessel q w).view.target } := rfl
  rw [ev, h1, h2, funext hpt]

theorem mem_loaded {p : Plugin δ} (h : Consistent p) {q : ℕ} {v : Vessel δ} (hq : p.heap q = some v) : (∃ w, p.view.vessel v.guid = some w ∧ w.loaded) ↔ q ∈ p.loaded := by
  rw [h.vessel_eq hq]
  constructor
  · rintro ⟨w, e, hw⟩
    cases e
    exact of_decide_eq_true hw
  · intro hl
    exact ⟨_, rfl, decide_eq_true hl⟩

theorem insertOrKeepLoadedPart_spec {p : Plugin δ} (h : Consistent p) (id : ℕ) (name : String) (properties : δ) (guid : String) (motion : δ) :
    Refines (p.insertOrKeepLoadedPart id name properties guid motion) (p.view.call untruthful defaultParameters (.insertOrKeepLoadedPart id name properties guid motion)) := by
  unfold Plugin.insertOrKeepLoadedPart
  rw [Game.call]
  cases hf : p.vessels.find guid with
  | none =>
    rw [if_neg (by rw [h.vessel_none.2 hf]; rintro ⟨v, e, -⟩; cases e)]
    exact refines_none
  | some q =>
    obtain ⟨v, hv, rfl⟩ := h.alive guid q hf
    rw [Option.bind_some]
    by_cases hl : q ∈ p.loaded
    · rw [if_pos hl, if_pos ((mem_loaded h hv).2 hl)]
      cases hp : p.partIdToVessel id with
      | none =>
        rw [h.part_none.2 hp]
        obtain ⟨p', e1, e2, e3, -, e4⟩ := addPart_spec h hv ⟨id, name, true, properties, motion⟩ hp
        have hx : (v.parts.emplace id ⟨id, name, true, properties, motion⟩).find id = some ⟨id, name, true, properties, motion⟩ := by
          have hn : v.parts.find id = none := by
            by_contra hc
            obtain ⟨x, hx⟩ := Option.ne_none_iff_exists'.1 hc
            rw [h.partOwned q v _ x hv hx] at hp
            cases hp
          rw [Map.find_emplace hn, if_pos rfl]
        have key := keepPart_spec e2 e3 hx properties
        simp only [e1, Option.bind_some]
        rw [e4] at key
        simp only [update_update] at key
        exact key
      | some q' =>
        obtain ⟨v', x, hv', hx⟩ := h.partAlive id q' hp
        rw [h.part_eq hv' hx]
        by_cases hc : q = q'
        · subst hc
          rw [hv] at hv'
          cases hv'
          simp only [if_true, Option.bind_some]
          exact keepPart_spec h hv hx properties
        · obtain ⟨e2, e3, e5, e4⟩ := movePart_spec h hc hv hv' hx
          have hxid := h.part_id hv' hx
          have hx' : (v.parts.emplace id x).find id = some x := by rw [Map.find_emplace e5, if_pos rfl]
          have key := keepPart_spec e2 e3 hx' properties
          rw [e4] at key
          simp only [update_update] at key
          have e6 : v'.extractPart id = some ({ v' with parts := v'.parts.erase id, keptParts := v'.keptParts.erase id }, x) := by
            unfold Vessel.extractPart
            rw [if_pos (h.ok q' v' hv').length, hx]
            rfl
          have e7 : v.addPart x = some { v with parts := v.parts.emplace id x } := by
            unfold Vessel.addPart
            rw [hxid, if_neg (by rw [e5]; simp)]
          have e8 : ∀ (P : ℕ → Option ℕ), ({ p with partIdToVessel := P } : Plugin δ).vesselAt q' = some v' := fun _ => hv'
          have e9 : ∀ (P : ℕ → Option ℕ) (u : Vessel δ), (({ p with partIdToVessel := P } : Plugin δ).setVessel q' u).vesselAt q = some v :=
            fun _ _ => (update_ne _ _ hc).trans hv
          simp only [if_neg hc, e8, Option.bind_some, e6, e9, e7, Option.map_some]
          exact key
    · rw [if_neg hl, if_neg (fun hc => hl ((mem_loaded h hv).1 hc))]
      exact refines_none

theorem applyForce_spec {p : Plugin δ} (h : Consistent p) (id : ℕ) : Refines (p.applyForce id) (p.view.call untruthful defaultParameters (.applyForce id)) := by
  unfold Plugin.applyForce
  rw [Game.call]
  cases hp : p.partIdToVessel id with
  | none =>
    rw [if_neg]
    · exact refines_none
    · rintro ⟨x, v, e, -⟩
      rw [h.part_none.2 hp] at e
      cases e
  | some q =>
    obtain ⟨v, x, hv, hx⟩ := h.partAlive id q hp
    have e := h.part_eq hv hx
    rw [Option.bind_some]
    by_cases hl : q ∈ p.loaded
    · rw [if_pos hl, if_pos ⟨_, _, e, h.vessel_eq hv, decide_eq_true hl⟩, show p.vesselAt q = some v from hv, Option.bind_some, hx]
      exact refines_some h rfl
    · rw [if_neg hl, if_neg]
      · exact refines_none
      · rintro ⟨y, w, e1, e2, e3⟩
        rw [e] at e1
        cases e1
        have := h.vessel_eq hv
        rw [show (x.state v id).vessel = v.guid from rfl, this] at e2
        cases e2
        exact hl (of_decide_eq_true e3)

theorem subsets_spec {p : Plugin δ} (h : Consistent p) {s : Subsets} (hs : ∀ i ∈ s.prepared, (p.partIdToVessel i).isSome) : Consistent { p with subsets := s } :=
  ⟨h.keys, h.alive, h.owned, h.fresh, h.partAlive, h.partOwned, h.ok, h.kept, h.loaded, h.loadedNodup, h.target, hs⟩

theorem prepare_spec {p : Plugin δ} (h : Consistent p) : Refines p.prepareToReportCollisions (p.view.call untruthful defaultParameters .prepareToReportCollisions) := by
  unfold Plugin.prepareToReportCollisions
  rw [Game.call]
  have hs : ∀ x ∈ p.vessels, (p.vesselAt x.2).isSome := by
    intro x hx
    obtain ⟨v, hv, -⟩ := h.alive x.1 x.2 (Map.find_of_mem h.keys hx)
    exact Option.isSome_iff_exists.2 ⟨v, hv⟩
  rw [mapM_some hs, Option.map_some]
  have key : ∀ i, i ∈ ((p.vessels.filterMap fun x => p.vesselAt x.2).flatMap fun v => v.parts.map fun x => x.2.id) ↔ (p.view.part i).isSome := by
    intro i
    rw [List.mem_flatMap]
    constructor
    · rintro ⟨v, hv, hi⟩
      obtain ⟨z, -, hz⟩ := List.mem_filterMap.1 hv
      obtain ⟨y, hy, rfl⟩ := List.mem_map.1 hi
      have := Map.find_of_mem (h.ok z.2 v hz).keys (show (y.1, y.2) ∈ v.parts from hy)
      rw [(h.ok z.2 v hz).ids y hy, h.part_eq hz this]
      rfl
    · intro hi
      obtain ⟨y, hy⟩ := Option.isSome_iff_exists.1 hi
      obtain ⟨q, v, x, h1, h2, h3, -⟩ := h.part_some hy
      refine ⟨v, List.mem_filterMap.2 ⟨(v.guid, q), Map.mem_of_find (h.owned q v h2), h2⟩, List.mem_map.2 ⟨(i, x), Map.mem_of_find h3, h.part_id h2 h3⟩⟩
  refine refines_some (subsets_spec h ?_) ?_
  · intro i hi
    obtain ⟨y, hy⟩ := Option.isSome_iff_exists.1 ((key i).1 hi)
    obtain ⟨q, v, x, h1, -⟩ := h.part_some hy
    rw [h1]
    rfl
  · have e : ({ p with subsets := ⟨(p.vessels.filterMap fun x => p.vesselAt x.2).flatMap fun v => v.parts.map fun x => x.2.id, [], []⟩ } : Plugin δ).view =
      { p.view with prepared := fun i => i ∈ ((p.vessels.filterMap fun x => p.vesselAt x.2).flatMap fun v => v.parts.map fun x => x.2.id), contacts := [], ground := [] } := rfl
    rw [e]
    dsimp only
    congr 1
    funext i
    exact propext (key i)

theorem reportGround_spec {p : Plugin δ} (h : Consistent p) (id : ℕ) :
    Refines (p.reportGroundCollision id) (p.view.call untruthful defaultParameters (.reportGroundCollision id)) := by
  unfold Plugin.reportGroundCollision
  rw [Game.call]
  by_cases hi : id ∈ p.subsets.prepared
  · obtain ⟨q, hq⟩ := Option.isSome_iff_exists.1 (h.prepared id hi)
    obtain ⟨v, x, hv, hx⟩ := h.partAlive id q hq
    rw [hq, Option.bind_some, show p.vesselAt q = some v from hv, Option.bind_some, hx, Option.bind_some, if_pos hi, if_pos (show p.view.prepared id from hi)]
    exact refines_some (subsets_spec h h.prepared) rfl
  · rw [if_neg (show ¬p.view.prepared id from hi)]
    cases hq : p.partIdToVessel id with
    | none => exact refines_none
    | some q =>
      obtain ⟨v, x, hv, hx⟩ := h.partAlive id q hq
      rw [Option.bind_some, show p.vesselAt q = some v from hv, Option.bind_some, hx, Option.bind_some, if_neg hi]
      exact refines_none

theorem partIn_kept {p : Plugin δ} (h : Consistent p) {id q : ℕ} {v : Vessel δ} {x : Part δ} (hv : p.heap q = some v) (hx : v.parts.find id = some x) :
    (p.view.PartIn id fun x v => v.kept ∧ x.kept) ↔ q ∈ p.kept ∧ id ∈ v.keptParts := by
  constructor
  · rintro ⟨y, w, e1, e2, e3, e4⟩
    rw [h.part_eq hv hx] at e1
    cases e1
    rw [show (x.state v id).vessel = v.guid from rfl, h.vessel_eq hv] at e2
    cases e2
    exact ⟨of_decide_eq_true e3, of_decide_eq_true e4⟩
  · rintro ⟨e3, e4⟩
    exact ⟨_, _, h.part_eq hv hx, h.vessel_eq hv, decide_eq_true e3, decide_eq_true e4⟩

theorem partIn_known {p : Plugin δ} (h : Consistent p) {id : ℕ} {P : PartState δ → VesselState → Prop} (hp : p.view.PartIn id P) : p.partIdToVessel id ≠ none := by
  rintro hn
  obtain ⟨y, w, e1, -⟩ := hp
  rw [h.part_none.2 hn] at e1
  cases e1

theorem reportPart_spec {p : Plugin δ} (h : Consistent p) (id₁ id₂ : ℕ) :
    Refines (p.reportPartCollision id₁ id₂) (p.view.call untruthful defaultParameters (.reportPartCollision id₁ id₂)) := by
  unfold Plugin.reportPartCollision
  rw [Game.call]
  cases hq₁ : p.partIdToVessel id₁ with
  | none =>
    rw [if_neg]
    · exact refines_none
    · rintro ⟨⟨-, hc⟩, -⟩
      exact partIn_known h hc hq₁
  | some q₁ =>
    cases hq₂ : p.partIdToVessel id₂ with
    | none =>
      rw [if_neg]
      · exact refines_none
      · rintro ⟨-, -, hc⟩
        exact partIn_known h hc hq₂
    | some q₂ =>
      obtain ⟨v₁, x₁, hv₁, hx₁⟩ := h.partAlive id₁ q₁ hq₁
      obtain ⟨v₂, x₂, hv₂, hx₂⟩ := h.partAlive id₂ q₂ hq₂
      rw [Option.bind_some, Option.bind_some, show p.vesselAt q₁ = some v₁ from hv₁, Option.bind_some, show p.vesselAt q₂ = some v₂ from hv₂, Option.bind_some, hx₁, Option.bind_some, hx₂,
        Option.bind_some, partIn_kept h hv₁ hx₁, partIn_kept h hv₂ hx₂]
      by_cases hc : q₁ ∈ p.kept ∧ q₂ ∈ p.kept ∧ id₁ ∈ v₁.keptParts ∧ id₂ ∈ v₂.keptParts ∧ id₁ ∈ p.subsets.prepared ∧ id₂ ∈ p.subsets.prepared
      · obtain ⟨a, b, c, d, e, f⟩ := hc
        rw [if_pos ⟨a, b, c, d, e, f⟩, if_pos ⟨⟨e, a, c⟩, f, b, d⟩]
        exact refines_some (subsets_spec h h.prepared) rfl
      · rw [if_neg hc, if_neg]
        · exact refines_none
        · rintro ⟨⟨e, a, c⟩, f, b, d⟩
          exact hc ⟨a, b, c, d, e, f⟩

theorem advanceTime_spec {p : Plugin δ} (h : Consistent p) (t : ℚ) : Refines (p.advanceTime t) (p.view.call untruthful defaultParameters (.advanceTime t)) := by
  unfold Plugin.advanceTime
  rw [Game.call]
  by_cases ht : p.currentTime < t
  · rw [if_pos ht, if_pos (show p.view.time < t from ht), mapM_some (f := p.vesselAt) (fun q hq => h.loaded q hq), Option.map_some]
    refine refines_some (p := { p with currentTime := t, loaded := [] }) ⟨h.keys, h.alive, h.owned, h.fresh, h.partAlive, h.partOwned, h.ok, h.kept, by simp, by simp, h.target, h.prepared⟩ ?_
    have e : ({ p with currentTime := t, loaded := [] } : Plugin δ).view = { p.view with time := t, vessel := ({ p with currentTime := t, loaded := [] } : Plugin δ).view.vessel } := rfl
    rw [e]
    dsimp only
    congr 1
    funext guid
    rw [view_vessel, view_vessel]
    cases hf : p.vessels.find guid with
    | none => rfl
    | some q =>
      rw [Option.bind_some, Option.bind_some, Option.map_map]
      change (p.heap q).map _ = _
      congr 1
  · rw [if_neg ht, if_neg (show ¬p.view.time < t from ht)]
    exact refines_none

theorem view_target {p : Plugin δ} (h : Consistent p) {q : ℕ} {v : Vessel δ} (hq : p.heap q = some v) : p.view.target = some v.guid ↔ p.target = some q := by
  change (p.target.bind fun q => (p.heap q).map Vessel.guid) = _ ↔ _
  constructor
  · intro e
    cases ht : p.target with
    | none => rw [ht] at e; cases e
    | some q' =>
      obtain ⟨v', hv'⟩ := Option.isSome_iff_exists.1 (h.target q' ht)
      rw [ht, Option.bind_some, hv', Option.map_some] at e
      rw [h.inj hv' hq (Option.some.inj e)]
  · intro e
    rw [e, Option.bind_some, hq]
    rfl

theorem setPrediction_spec {p : Plugin δ} (h : Consistent p) (guid : String) (parameters : Parameters) :
    Refines (p.setPrediction guid parameters) (p.view.call untruthful defaultParameters (.setPrediction guid parameters)) := by
  unfold Plugin.setPrediction
  rw [Game.call]
  cases hf : p.vessels.find guid with
  | none =>
    rw [h.vessel_none.2 hf]
    exact refines_none
  | some q =>
    obtain ⟨v, hv, rfl⟩ := h.alive guid q hf
    rw [h.vessel_eq hv, Option.bind_some, show p.vesselAt q = some v from hv, Option.bind_some, Option.map_some]
    cases ht : p.target with
    | none =>
      simp only [Option.bind_some]
      rw [show p.vesselAt q = some v from hv, Option.map_some]
      obtain ⟨h1, h2⟩ := setVessel_spec (w := { v with prediction := parameters }) h hv rfl rfl rfl
      refine refines_some h1 ?_
      rw [h2]
      dsimp only
      congr 1
      funext other
      by_cases ho : other = v.guid
      · subst ho
        rw [update_eq, h.vessel_eq hv, Option.map_some, if_pos rfl]
        rfl
      · rw [update_ne _ _ ho]
        have : p.view.target ≠ some other := by
          change (p.target.bind _) ≠ _
          rw [ht]
          simp
        simp only [if_neg ho, if_neg this]
        simp
    | some q' =>
      obtain ⟨v', hv'⟩ := Option.isSome_iff_exists.1 (h.target q' ht)
      simp only [Option.bind_some]
      rw [show p.vesselAt q' = some v' from hv', Option.map_some, Option.bind_some]
      set w' : Vessel δ := { v' with prediction := if 0 < v.flightPlans then { parameters with maxSteps := max v'.prediction.maxSteps parameters.maxSteps } else parameters } with hw'
      obtain ⟨h1, h2⟩ := setVessel_spec (w := w') h hv' rfl rfl rfl
      set p1 := p.setVessel q' w' with hp1
      have htg := (view_target h hv').2 ht
      by_cases hc : q = q'
      · subst hc
        rw [hv] at hv'
        cases hv'
        have hv1 : p1.heap q = some w' := update_eq _ _ _
        rw [show p1.vesselAt q = some w' from hv1, Option.map_some]
        obtain ⟨h3, h4⟩ := setVessel_spec (w := { w' with prediction := parameters }) h1 hv1 rfl rfl rfl
        refine refines_some h3 ?_
        rw [h4, h2]
        simp only [show w'.guid = v.guid from rfl, update_update]
        congr 1
        funext other
        by_cases ho : other = v.guid
        · subst ho
          rw [update_eq, h.vessel_eq hv, Option.map_some, if_pos rfl]
          rfl
        · rw [update_ne _ _ ho]
          have : p.view.target ≠ some other := by
            rw [htg]
            intro hc
            exact ho (Option.some.inj hc).symm
          simp only [if_neg ho, if_neg this]
          simp
      · have hv1 : p1.heap q = some v := (update_ne _ _ hc).trans hv
        rw [show p1.vesselAt q = some v from hv1, Option.map_some]
        obtain ⟨h3, h4⟩ := setVessel_spec (w := { v with prediction := parameters }) h1 hv1 rfl rfl rfl
        refine refines_some h3 ?_
        rw [h4, h2]
        dsimp only
        congr 1
        funext other
        by_cases ho : other = v.guid
        · subst ho
          rw [update_eq, h.vessel_eq hv, Option.map_some, if_pos rfl]
          rfl
        · rw [update_ne _ _ ho]
          change update p.view.vessel v'.guid _ other = _
          by_cases ho' : other = v'.guid
          · subst ho'
            rw [update_eq, h.vessel_eq hv', Option.map_some, if_neg ho, if_pos htg]
            rfl
          · rw [update_ne _ _ ho']
            have : p.view.target ≠ some other := by
              rw [htg]
              intro hc
              exact ho' (Option.some.inj hc).symm
            simp only [if_neg ho, if_neg this]
            simp

theorem createFlightPlan_spec {p : Plugin δ} (h : Consistent p) (guid : String) :
    Refines (p.createFlightPlan guid) (p.view.call untruthful defaultParameters (.createFlightPlan guid)) := by
  unfold Plugin.createFlightPlan
  rw [Game.call]
  cases hf : p.vessels.find guid with
  | none =>
    rw [h.vessel_none.2 hf]
    exact refines_none
  | some q =>
    obtain ⟨v, hv, rfl⟩ := h.alive guid q hf
    rw [h.vessel_eq hv, Option.bind_some, show p.vesselAt q = some v from hv, Option.bind_some, Option.bind_some]
    by_cases hs : v.start.isSome
    · rw [if_pos (show (v.state p q).start.isSome from hs)]
      obtain ⟨h1, h2⟩ := setVessel_spec (w := { v with flightPlans := v.flightPlans + 1 }) h hv rfl rfl rfl
      have : (v.start.map fun _ => p.setVessel q { v with flightPlans := v.flightPlans + 1 }) = some (p.setVessel q { v with flightPlans := v.flightPlans + 1 }) := by
        obtain ⟨t, ht⟩ := Option.isSome_iff_exists.1 hs
        rw [ht]
        rfl
      rw [this]
      exact refines_some h1 h2
    · rw [if_neg (show ¬(v.state p q).start.isSome from hs), Option.not_isSome_iff_eq_none.1 hs]
      exact refines_none

theorem setTarget_spec {p : Plugin δ} (h : Consistent p) (guid : String) (celestial : ℕ) :
    Refines (p.setTargetVessel guid celestial) (p.view.call untruthful defaultParameters (.setTargetVessel guid celestial)) := by
  unfold Plugin.setTargetVessel
  rw [Game.call]
  by_cases hc : celestial ∈ p.celestials
  · rw [if_pos hc]
    cases hf : p.vessels.find guid with
    | none =>
      rw [if_neg (by rw [h.vessel_none.2 hf]; simp)]
      exact refines_none
    | some q =>
      obtain ⟨v, hv, rfl⟩ := h.alive guid q hf
      rw [if_pos ⟨hc, by rw [h.vessel_eq hv]; rfl⟩, Option.map_some]
      refine refines_some ⟨h.keys, h.alive, h.owned, h.fresh, h.partAlive, h.partOwned, h.ok, h.kept, h.loaded, h.loadedNodup, ?_, h.prepared⟩ ?_
      · intro q' e
        cases e
        exact Option.isSome_iff_exists.2 ⟨v, hv⟩
      · have e : ({ p with target := some q } : Plugin δ).view = { p.view with target := (p.heap q).map Vessel.guid } := rfl
        rw [e, hv]
        rfl
  · rw [if_neg hc, if_neg (fun hc' => hc hc'.1)]
    exact refines_none

theorem clearTarget_spec {p : Plugin δ} (h : Consistent p) : Refines (some p.clearTargetVessel) (p.view.call untruthful defaultParameters .clearTargetVessel) := by
  rw [Game.call]
  refine refines_some ⟨h.keys, h.alive, h.owned, h.fresh, h.partAlive, h.partOwned, h.ok, h.kept, h.loaded, h.loadedNodup, ?_, h.prepared⟩ rfl
  intro q e
  cases e

end Principia.Ksp.Lifecycle
