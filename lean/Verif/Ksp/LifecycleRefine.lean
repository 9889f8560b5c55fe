import Verif.Ksp.LifecycleSpec
import Mathlib.Data.List.Nodup
import Mathlib.Data.List.Perm.Subperm
import Mathlib.Tactic.ByContra

/-!
The data of the plugin is always consistent, and its calls have the effect that the game expects.
-/

set_option linter.unusedSimpArgs false
set_option linter.unusedVariables false
set_option linter.unusedSectionVars false

namespace Principia.Ksp.Lifecycle

variable {δ : Type}

theorem update_eq {α β : Type} [DecidableEq α] (f : α → β) (a : α) (b : β) : update f a b a = b := if_pos rfl

theorem update_ne {α β : Type} [DecidableEq α] (f : α → β) {a x : α} (b : β) (h : x ≠ a) : update f a b x = f x := if_neg h

namespace Map

variable {K V : Type} [DecidableEq K]

theorem find_nil (k : K) : find ([] : Map K V) k = none := rfl

theorem find_cons (x : K × V) (m : Map K V) (k : K) : find (x :: m : List (K × V)) k = if x.1 = k then some x.2 else find m k := by
  unfold find
  by_cases h : x.1 = k
  · rw [if_pos h, List.find?_cons_of_pos (by simpa using h)]; rfl
  · rw [if_neg h, List.find?_cons_of_neg (by simpa using h)]

theorem find_isSome (m : Map K V) (k : K) : (find m k).isSome ↔ k ∈ m.map Prod.fst := by
  induction m with
  | nil => simp [find_nil]
  | cons x m ih =>
    rw [find_cons, List.map_cons, List.mem_cons]
    by_cases h : x.1 = k
    · simp [h]
    · rw [if_neg h, ih]
      constructor
      · exact Or.inr
      · rintro (h' | h')
        · exact absurd h'.symm h
        · exact h'

theorem find_none (m : Map K V) (k : K) : find m k = none ↔ k ∉ m.map Prod.fst := by
  rw [← find_isSome, Option.not_isSome_iff_eq_none]

theorem mem_of_find {m : Map K V} {k : K} {v : V} (h : find m k = some v) : (k, v) ∈ m := by
  induction m with
  | nil => cases h
  | cons x m ih =>
    rw [find_cons] at h
    by_cases hx : x.1 = k
    · rw [if_pos hx] at h
      cases h
      subst hx
      exact List.mem_cons_self
    · rw [if_neg hx] at h
      exact List.mem_cons_of_mem _ (ih h)

theorem find_of_mem {m : Map K V} (hm : (m.map Prod.fst).Nodup) {k : K} {v : V} (h : (k, v) ∈ m) : find m k = some v := by
  induction m with
  | nil => cases h
  | cons x m ih =>
    rw [List.map_cons, List.nodup_cons] at hm
    rw [find_cons]
    rcases List.mem_cons.1 h with h | h
    · subst h
      exact if_pos rfl
    · have hx : x.1 ≠ k := by
        intro hx
        exact hm.1 (hx ▸ List.mem_map_of_mem (f := Prod.fst) h)
      rw [if_neg hx]
      exact ih hm.2 h

theorem find_append_single (m : Map K V) (k : K) (v : V) (x : K) (h : find m k = none) : find (m ++ [(k, v)]) x = if x = k then some v else find m x := by
  induction m with
  | nil =>
    rw [List.nil_append, find_cons, find_nil]
    by_cases hx : k = x
    · rw [if_pos hx, if_pos hx.symm]
    · rw [if_neg hx, if_neg (Ne.symm hx)]
  | cons y m ih =>
    rw [find_cons] at h
    by_cases hy : y.1 = k
    · rw [if_pos hy] at h; cases h
    · rw [if_neg hy] at h
      rw [List.cons_append, find_cons, find_cons, ih h]
      by_cases hx : y.1 = x
      · rw [if_pos hx, if_pos hx, if_neg (fun e => hy (hx.trans e))]
      · rw [if_neg hx, if_neg hx]

theorem find_emplace {m : Map K V} {k : K} (h : find m k = none) (v : V) (x : K) : find (emplace m k v) x = if x = k then some v else find m x := by
  unfold emplace
  rw [if_neg (by rw [h]; simp)]
  exact find_append_single m k v x h

theorem keys_emplace {m : Map K V} (hm : (m.map Prod.fst).Nodup) {k : K} (h : find m k = none) (v : V) : ((emplace m k v).map Prod.fst).Nodup := by
  unfold emplace
  rw [if_neg (by rw [h]; simp), List.map_append, List.nodup_append]
  refine ⟨hm, by simp, ?_⟩
  intro a ha b hb
  simp at hb
  subst hb
  rintro rfl
  exact (find_none _ _).1 h ha

theorem find_filter (P : K → Bool) (m : Map K V) (x : K) : find (m.filter fun y => P y.1) x = if P x then find m x else none := by
  induction m with
  | nil => simp [find_nil]
  | cons y m ih =>
    by_cases hy : P y.1 = true
    · rw [List.filter_cons_of_pos (by simpa using hy), find_cons, find_cons, ih]
      by_cases hx : y.1 = x
      · rw [if_pos hx, if_pos hx, if_pos (hx ▸ hy)]
      · rw [if_neg hx, if_neg hx]
    · rw [List.filter_cons_of_neg (by simpa using hy), ih, find_cons]
      by_cases hx : y.1 = x
      · rw [if_neg (hx ▸ hy), if_neg (hx ▸ hy)]
      · rw [if_neg hx]

theorem find_erase (m : Map K V) (k x : K) : find (erase m k) x = if x = k then none else find m x := by
  unfold erase
  refine (find_filter (fun z : K => decide (z ≠ k)) m x).trans ?_
  by_cases h : x = k <;> simp [h]

theorem keys_filter {m : Map K V} (hm : (m.map Prod.fst).Nodup) (P : K × V → Bool) : ((m.filter P).map Prod.fst).Nodup :=
  hm.sublist (List.Sublist.map _ List.filter_sublist)

theorem mem_erase {m : Map K V} {k : K} {x : K × V} : x ∈ erase m k ↔ x ∈ m ∧ x.1 ≠ k := by
  unfold erase
  simp

theorem find_map (m : Map K V) (f : K → V → V) (x : K) : find (m.map fun y => (y.1, f y.1 y.2)) x = (find m x).map (f x) := by
  induction m with
  | nil => rfl
  | cons y m ih =>
    rw [List.map_cons, find_cons, find_cons, ih]
    by_cases hx : y.1 = x
    · rw [if_pos hx, if_pos hx]; subst hx; rfl
    · rw [if_neg hx, if_neg hx]

end Map

theorem mem_insertSet {α : Type} [DecidableEq α] {a x : α} {s : List α} : x ∈ insertSet a s ↔ x = a ∨ x ∈ s := by
  unfold insertSet
  by_cases h : a ∈ s
  · rw [if_pos h]
    constructor
    · exact Or.inr
    · rintro (rfl | h')
      · exact h
      · exact h'
  · rw [if_neg h]
    simp [or_comm]

theorem nodup_insertSet {α : Type} [DecidableEq α] {a : α} {s : List α} (h : s.Nodup) : (insertSet a s).Nodup := by
  unfold insertSet
  by_cases ha : a ∈ s
  · rw [if_pos ha]; exact h
  · rw [if_neg ha, List.nodup_append]
    refine ⟨h, by simp, ?_⟩
    intro x hx b hb
    simp at hb
    subst hb
    rintro rfl
    exact ha hx

/-- What is consistent about one vessel. -/
structure VesselOk (v : Vessel δ) : Prop where
  keys : (v.parts.map Prod.fst).Nodup
  ids : ∀ y ∈ v.parts, y.2.id = y.1
  keptNodup : v.keptParts.Nodup
  kept : ∀ i ∈ v.keptParts, (v.parts.find i).isSome

/-- The data of the plugin is consistent: there are no dangling pointers, and the map from the parts to the vessels is correct. -/
structure Consistent (p : Plugin δ) : Prop where
  keys : (p.vessels.map Prod.fst).Nodup
  alive : ∀ guid q, p.vessels.find guid = some q → ∃ v, p.heap q = some v ∧ v.guid = guid
  owned : ∀ q v, p.heap q = some v → p.vessels.find v.guid = some q
  fresh : ∀ q v, p.heap q = some v → q < p.next
  partAlive : ∀ i q, p.partIdToVessel i = some q → ∃ v x, p.heap q = some v ∧ v.parts.find i = some x
  partOwned : ∀ q v i x, p.heap q = some v → v.parts.find i = some x → p.partIdToVessel i = some q
  ok : ∀ q v, p.heap q = some v → VesselOk v
  kept : ∀ q ∈ p.kept, (p.heap q).isSome
  loaded : ∀ q ∈ p.loaded, (p.heap q).isSome
  loadedNodup : p.loaded.Nodup
  target : ∀ q, p.target = some q → (p.heap q).isSome
  prepared : ∀ i ∈ p.subsets.prepared, (p.partIdToVessel i).isSome

/-- The number of the parts that are kept is not greater than that of the parts. -/
theorem VesselOk.length {v : Vessel δ} (h : VesselOk v) : v.keptParts.length ≤ v.parts.length := by
  have : v.keptParts ⊆ v.parts.map Prod.fst := fun i hi => (Map.find_isSome _ _).1 (h.kept i hi)
  have := (List.subperm_of_subset h.keptNodup this).length_le
  rwa [List.length_map] at this

/-- A vessel, as seen by the game. -/
def Vessel.state (p : Plugin δ) (q : ℕ) (v : Vessel δ) : VesselState := ⟨v.name, v.parent, v.prediction, v.start, v.flightPlans, q ∈ p.kept, q ∈ p.loaded⟩

/-- A part, as seen by the game. -/
def Part.state (v : Vessel δ) (x : Part δ) (id : ℕ) : PartState δ := ⟨x.name, x.truthful, x.properties, x.motion, v.guid, id ∈ v.keptParts⟩

theorem view_vessel (p : Plugin δ) (guid : String) : p.view.vessel guid = (p.vessels.find guid).bind fun q => (p.heap q).map (Vessel.state p q) := rfl

theorem view_part (p : Plugin δ) (id : ℕ) : p.view.part id = (p.partIdToVessel id).bind fun q => (p.heap q).bind fun v => (v.parts.find id).map fun x => Part.state v x id := rfl

namespace Consistent

variable {p : Plugin δ} (h : Consistent p)
include h

theorem inj {q q' : ℕ} {v v' : Vessel δ} (h1 : p.heap q = some v) (h2 : p.heap q' = some v') (e : v.guid = v'.guid) : q = q' := by
  have a := h.owned q v h1
  have b := h.owned q' v' h2
  rw [e, b] at a
  exact (Option.some.inj a).symm

theorem vessel_eq {q : ℕ} {v : Vessel δ} (hq : p.heap q = some v) : p.view.vessel v.guid = some (v.state p q) := by
  rw [view_vessel, h.owned q v hq, Option.bind_some, hq]
  rfl

theorem vessel_none {guid : String} : p.view.vessel guid = none ↔ p.vessels.find guid = none := by
  rw [view_vessel]
  constructor
  · intro hn
    by_contra hc
    obtain ⟨q, hq⟩ := Option.ne_none_iff_exists'.1 hc
    obtain ⟨v, hv, -⟩ := h.alive guid q hq
    rw [hq, Option.bind_some, hv] at hn
    cases hn
  · intro hn
    rw [hn]
    rfl

theorem vessel_some {guid : String} {w : VesselState} (hw : p.view.vessel guid = some w) : ∃ q v, p.vessels.find guid = some q ∧ p.heap q = some v ∧ v.guid = guid ∧ w = v.state p q := by
  have : p.vessels.find guid ≠ none := fun hn => by
    rw [h.vessel_none.2 hn] at hw; cases hw
  obtain ⟨q, hq⟩ := Option.ne_none_iff_exists'.1 this
  obtain ⟨v, hv, e⟩ := h.alive guid q hq
  refine ⟨q, v, hq, hv, e, ?_⟩
  have := h.vessel_eq hv
  rw [e, hw] at this
  exact Option.some.inj this

theorem part_eq {q : ℕ} {v : Vessel δ} {i : ℕ} {x : Part δ} (hq : p.heap q = some v) (hx : v.parts.find i = some x) : p.view.part i = some (x.state v i) := by
  rw [view_part, h.partOwned q v i x hq hx, Option.bind_some, hq, Option.bind_some, hx]
  rfl

theorem part_none {i : ℕ} : p.view.part i = none ↔ p.partIdToVessel i = none := by
  rw [view_part]
  constructor
  · intro hn
    by_contra hc
    obtain ⟨q, hq⟩ := Option.ne_none_iff_exists'.1 hc
    obtain ⟨v, x, hv, hx⟩ := h.partAlive i q hq
    rw [hq, Option.bind_some, hv, Option.bind_some, hx] at hn
    cases hn
  · intro hn
    rw [hn]
    rfl

theorem part_some {i : ℕ} {y : PartState δ} (hy : p.view.part i = some y) :
    ∃ q v x, p.partIdToVessel i = some q ∧ p.heap q = some v ∧ v.parts.find i = some x ∧ y = x.state v i := by
  have : p.partIdToVessel i ≠ none := fun hn => by
    rw [h.part_none.2 hn] at hy; cases hy
  obtain ⟨q, hq⟩ := Option.ne_none_iff_exists'.1 this
  obtain ⟨v, x, hv, hx⟩ := h.partAlive i q hq
  refine ⟨q, v, x, hq, hv, hx, ?_⟩
  rw [h.part_eq hv hx] at hy
  exact (Option.some.inj hy).symm

theorem part_id {q : ℕ} {v : Vessel δ} {i : ℕ} {x : Part δ} (hq : p.heap q = some v) (hx : v.parts.find i = some x) : x.id = i :=
  (h.ok q v hq).ids _ (Map.mem_of_find hx)

end Consistent

/-- The result of a call on the data of the plugin corresponds to the result seen by the game. -/
def Refines (r : Option (Plugin δ)) (s : Option (Game δ)) : Prop := (∀ p, r = some p → Consistent p) ∧ r.map Plugin.view = s

theorem refines_none : Refines (none : Option (Plugin δ)) none := ⟨fun _ h => (by cases h), rfl⟩

theorem refines_some {p : Plugin δ} {g : Game δ} (h : Consistent p) (e : p.view = g) : Refines (some p) (some g) :=
  ⟨fun _ h' => (by cases h'; exact h), by rw [Option.map_some, e]⟩

theorem Refines.bind {r : Option (Plugin δ)} {s : Option (Game δ)} (h : Refines r s) {f : Plugin δ → Option (Plugin δ)} {f' : Game δ → Option (Game δ)}
    (hf : ∀ p, Consistent p → Refines (f p) (f' p.view)) : Refines (r.bind f) (s.bind f') := by
  cases r with
  | none =>
    obtain ⟨-, h2⟩ := h
    rw [← h2]
    exact refines_none
  | some p =>
    obtain ⟨h1, h2⟩ := h
    rw [← h2]
    exact hf p (h1 p rfl)

/-- A change of the data of a vessel that affects neither its GUID nor its parts. -/
theorem setVessel_spec {p : Plugin δ} (h : Consistent p) {q : ℕ} {v w : Vessel δ} (hq : p.heap q = some v) (hg : w.guid = v.guid) (hp : w.parts = v.parts) (hk : w.keptParts = v.keptParts) :
    Consistent (p.setVessel q w) ∧ (p.setVessel q w).view = { p.view with vessel := update p.view.vessel v.guid (some (w.state p q)) } := by
  have hh : ∀ q' v', (p.setVessel q w).heap q' = some v' → (q' = q ∧ v' = w) ∨ (q' ≠ q ∧ p.heap q' = some v') := by
    intro q' v' e
    by_cases hc : q' = q
    · subst hc
      have : (p.setVessel q' w).heap q' = some w := update_eq _ _ _
      rw [this] at e
      exact Or.inl ⟨rfl, (Option.some.inj e).symm⟩
    · have : (p.setVessel q w).heap q' = p.heap q' := update_ne _ _ hc
      rw [this] at e
      exact Or.inr ⟨hc, e⟩
  have hs : ∀ q', ((p.setVessel q w).heap q').isSome = (p.heap q').isSome := by
    intro q'
    by_cases hc : q' = q
    · subst hc
      have : (p.setVessel q' w).heap q' = some w := update_eq _ _ _
      rw [this, hq]; rfl
    · have : (p.setVessel q w).heap q' = p.heap q' := update_ne _ _ hc
      rw [this]
  have he : (p.setVessel q w).heap q = some w := update_eq _ _ _
  have hn : ∀ q', q' ≠ q → (p.setVessel q w).heap q' = p.heap q' := fun q' hc => update_ne _ _ hc
  constructor
  · refine ⟨h.keys, ?_, ?_, ?_, ?_, ?_, ?_, ?_, ?_, h.loadedNodup, ?_, h.prepared⟩
    · intro guid q' e
      obtain ⟨v', h1, h2⟩ := h.alive guid q' e
      by_cases hc : q' = q
      · subst hc
        rw [hq] at h1
        cases h1
        exact ⟨w, he, hg.trans h2⟩
      · exact ⟨v', (hn q' hc).trans h1, h2⟩
    · intro q' v' e
      rcases hh q' v' e with ⟨rfl, rfl⟩ | ⟨-, e⟩
      · rw [hg]; exact h.owned _ v hq
      · exact h.owned q' v' e
    · intro q' v' e
      rcases hh q' v' e with ⟨rfl, rfl⟩ | ⟨-, e⟩
      · exact h.fresh _ v hq
      · exact h.fresh q' v' e
    · intro i q' e
      obtain ⟨v', x, h1, h2⟩ := h.partAlive i q' e
      by_cases hc : q' = q
      · subst hc
        rw [hq] at h1
        cases h1
        exact ⟨w, x, he, by rw [hp]; exact h2⟩
      · exact ⟨v', x, (hn q' hc).trans h1, h2⟩
    · intro q' v' i x e hx
      rcases hh q' v' e with ⟨rfl, rfl⟩ | ⟨-, e⟩
      · rw [hp] at hx; exact h.partOwned _ v i x hq hx
      · exact h.partOwned q' v' i x e hx
    · intro q' v' e
      rcases hh q' v' e with ⟨rfl, rfl⟩ | ⟨-, e⟩
      · have := h.ok _ v hq
        exact ⟨by rw [hp]; exact this.keys, by rw [hp]; exact this.ids, by rw [hk]; exact this.keptNodup, by rw [hk, hp]; exact this.kept⟩
      · exact h.ok q' v' e
    · intro q' e; rw [hs]; exact h.kept q' e
    · intro q' e; rw [hs]; exact h.loaded q' e
    · intro q' e; rw [hs]; exact h.target q' e
  · have hv : ∀ guid, (p.setVessel q w).view.vessel guid = update p.view.vessel v.guid (some (w.state p q)) guid := by
      intro guid
      rw [view_vessel]
      by_cases hc : guid = v.guid
      · subst hc
        rw [update_eq, show (p.setVessel q w).vessels = p.vessels from rfl, h.owned q v hq, Option.bind_some, he]
        rfl
      · rw [update_ne _ _ hc, view_vessel]
        rw [show (p.setVessel q w).vessels = p.vessels from rfl]
        cases hf : p.vessels.find guid with
        | none => rfl
        | some q' =>
          obtain ⟨v', h1, h2⟩ := h.alive guid q' hf
          have hcq : q' ≠ q := by
            rintro rfl
            rw [hq] at h1
            cases h1
            exact hc h2.symm
          rw [Option.bind_some, Option.bind_some, hn q' hcq]
          rfl
    have hpt : ∀ i, (p.setVessel q w).view.part i = p.view.part i := by
      intro i
      rw [view_part, view_part, show (p.setVessel q w).partIdToVessel = p.partIdToVessel from rfl]
      cases hf : p.partIdToVessel i with
      | none => rfl
      | some q' =>
        rw [Option.bind_some, Option.bind_some]
        by_cases hc : q' = q
        · subst hc
          rw [he, hq, Option.bind_some, Option.bind_some, hp]
          unfold Part.state
          rw [hg, hk]
        · rw [hn q' hc]
    have ht : (p.setVessel q w).view.target = p.view.target := by
      change p.target.bind _ = p.target.bind _
      cases hf : p.target with
      | none => rfl
      | some q' =>
        rw [Option.bind_some, Option.bind_some]
        by_cases hc : q' = q
        · subst hc
          rw [he, hq, Option.map_some, Option.map_some, hg]
        · rw [hn q' hc]
    have e : (p.setVessel q w).view = { p.view with vessel := (p.setVessel q w).view.vessel, part := (p.setVessel q w).view.part, target := (p.setVessel q w).view.target } := rfl
    rw [e, ht, show (p.setVessel q w).view.vessel = _ from funext hv, show (p.setVessel q w).view.part = _ from funext hpt]

end Principia.Ksp.Lifecycle
