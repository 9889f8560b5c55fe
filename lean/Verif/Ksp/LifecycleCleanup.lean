import Verif.Ksp.LifecycleFree

/-!
The cleanup of the vessels and parts has the effect that the game expects.
-/

set_option linter.unusedSimpArgs false
set_option linter.unusedVariables false
set_option linter.unusedSectionVars false

namespace Principia.Ksp.Lifecycle

variable {δ : Type} {untruthful : δ} {defaultParameters : Parameters}

/-- Each part is in a vessel that exists. -/
theorem Consistent.wf {p : Plugin δ} (h : Consistent p) {i : ℕ} {x : PartState δ} (hx : p.view.part i = some x) : ∃ v, p.view.vessel x.vessel = some v := by
  obtain ⟨q, v, y, -, h2, -, rfl⟩ := h.part_some hx
  exact ⟨_, h.vessel_eq h2⟩

theorem mem_vessels {p : Plugin δ} (h : Consistent p) (b : String) : b ∈ p.vessels.map Prod.fst ↔ ∃ v, p.view.vessel b = some v := by
  rw [← Map.find_isSome, Option.isSome_iff_exists]
  constructor
  · rintro ⟨q, hq⟩
    obtain ⟨v, hv, rfl⟩ := h.alive b q hq
    exact ⟨_, h.vessel_eq hv⟩
  · rintro ⟨v, hv⟩
    obtain ⟨q, -, h1, -⟩ := h.vessel_some hv
    exact ⟨q, h1⟩

theorem kept_nil {p : Plugin δ} (h : Consistent p) (hk : ∀ b, ¬p.view.Kept b) : p.kept = [] := by
  by_contra hc
  obtain ⟨q, hq⟩ := List.exists_mem_of_ne_nil _ hc
  obtain ⟨v, hv⟩ := Option.isSome_iff_exists.1 (h.kept q hq)
  exact hk _ ((kept_iff h hv).2 hq)

theorem hasGuid {p : Plugin δ} (h : Consistent p) {a : String × ℕ} (ha : a ∈ p.vessels) : HasGuid p a.2 a.1 := h.alive a.1 a.2 (Map.find_of_mem h.keys ha)

theorem sameVessel_iff {p : Plugin δ} (h : Consistent p) (a b : ℕ) :
    p.sameVessel a b ↔ ∃ x y, p.view.part a = some x ∧ p.view.part b = some y ∧ x.vessel = y.vessel := by
  constructor
  · rintro ⟨z, -, v, hv, ha, hb⟩
    obtain ⟨x, hx⟩ := Option.isSome_iff_exists.1 ha
    obtain ⟨y, hy⟩ := Option.isSome_iff_exists.1 hb
    exact ⟨_, _, h.part_eq hv hx, h.part_eq hv hy, rfl⟩
  · rintro ⟨x, y, hx, hy, e⟩
    obtain ⟨q, v, x', h1, h2, h3, rfl⟩ := h.part_some hx
    obtain ⟨q', v', y', h4, h5, h6, rfl⟩ := h.part_some hy
    have := h.inj h2 h5 e
    subst this
    rw [h2] at h5
    cases h5
    exact ⟨(v.guid, q), Map.mem_of_find (h.owned q v h2), v, h2, by rw [h3]; rfl, by rw [h6]; rfl⟩

section Composition

variable (g : Game δ) (Δt : ℚ)

/-- The states after the first and second loop. -/
noncomputable def Game.stage₁ : Game δ := g.keepG Δt fun b => ∃ v, g.vessel b = some v

@[inherit_doc Game.stage₁]
noncomputable def Game.stage₂ : Game δ := (g.stage₁ Δt).freeG fun b => ∃ v, (g.stage₁ Δt).vessel b = some v ∧ v.loaded

variable {g} {Δt}

/-- The state of a vessel that is kept. -/
def VesselState.cleaned (g : Game δ) (Δt : ℚ) (v : VesselState) : VesselState :=
  { v with kept := false, start := v.start.or (some (if v.loaded then g.time - Δt else g.time)) }

theorem stage₁_vessel_kept {b : String} {v : VesselState} (hv : g.vessel b = some v) (hk : v.kept) : (g.stage₁ Δt).vessel b = some (v.cleaned g Δt) := by
  change pick (∃ v, g.vessel b = some v) ((g.vessel b).bind _) _ = _
  rw [pick_pos ⟨v, hv⟩, hv, Option.bind_some, pick_pos hk]
  rfl

theorem stage₁_vessel_none {b : String} (hk : ¬g.Kept b) : (g.stage₁ Δt).vessel b = none := by
  change pick (∃ v, g.vessel b = some v) ((g.vessel b).bind _) (g.vessel b) = _
  cases hv : g.vessel b with
  | none => rw [pick_neg]; rintro ⟨v, e⟩; cases e
  | some v =>
    rw [pick_pos ⟨v, rfl⟩, Option.bind_some, pick_neg]
    intro hc
    exact hk ⟨v, hv, hc⟩

theorem stage₁_vessel_some {b : String} {w : VesselState} (hw : (g.stage₁ Δt).vessel b = some w) : ∃ v, g.vessel b = some v ∧ v.kept ∧ w = v.cleaned g Δt := by
  by_cases hk : g.Kept b
  · obtain ⟨v, h1, h2⟩ := hk
    rw [stage₁_vessel_kept h1 h2] at hw
    exact ⟨v, h1, h2, (Option.some.inj hw).symm⟩
  · rw [stage₁_vessel_none hk] at hw
    cases hw

theorem stage₁_not_kept (b : String) : ¬(g.stage₁ Δt).Kept b := by
  rintro ⟨w, h1, h2⟩
  obtain ⟨v, -, -, rfl⟩ := stage₁_vessel_some h1
  cases h2

theorem stage₁_part_kept {i : ℕ} {x : PartState δ} (hx : g.part i = some x) (hk : g.Kept x.vessel) : (g.stage₁ Δt).part i = some x := by
  change (g.part i).bind _ = _
  rw [hx, Option.bind_some, pick_neg (fun hc => hc.2 hk)]

theorem stage₁_part_none {i : ℕ} (hx : g.part i = none) : (g.stage₁ Δt).part i = none := by
  change (g.part i).bind _ = _
  rw [hx]
  rfl

theorem stage₁_part_removed {i : ℕ} {x : PartState δ} (hx : g.part i = some x) (hv : ∃ v, g.vessel x.vessel = some v) (hk : ¬g.Kept x.vessel) : (g.stage₁ Δt).part i = none := by
  change (g.part i).bind _ = _
  rw [hx, Option.bind_some, pick_pos ⟨hv, hk⟩]

theorem stage₂_part_survives {i : ℕ} {x : PartState δ} {v : VesselState} (hx : g.part i = some x) (hv : g.vessel x.vessel = some v) (hk : v.kept) (hl : v.loaded → x.kept) :
    (g.stage₂ Δt).part i = some { x with kept := if v.loaded then false else x.kept } := by
  change ((g.stage₁ Δt).part i).bind _ = _
  rw [stage₁_part_kept hx ⟨v, hv, hk⟩, Option.bind_some]
  have hv1 := stage₁_vessel_kept (Δt := Δt) hv hk
  by_cases hc : v.loaded
  · rw [pick_pos ⟨_, hv1, hc⟩, pick_pos (hl hc), if_pos hc]
  · rw [pick_neg, if_neg hc]
    rintro ⟨w, h1, h2⟩
    rw [hv1] at h1
    cases h1
    exact hc h2

theorem stage₂_part_none (wf : ∀ i x, g.part i = some x → ∃ v, g.vessel x.vessel = some v) {i : ℕ} (hs : ¬g.Survives i) : (g.stage₂ Δt).part i = none := by
  change ((g.stage₁ Δt).part i).bind _ = _
  cases hx : g.part i with
  | none => rw [stage₁_part_none hx]; rfl
  | some x =>
    obtain ⟨v, hv⟩ := wf i x hx
    by_cases hk : v.kept
    · have hc : ¬(v.loaded → x.kept) := fun hc => hs ⟨x, v, hx, hv, hk, hc⟩
      obtain ⟨h1, h2⟩ := Classical.not_imp.1 hc
      rw [stage₁_part_kept hx ⟨v, hv, hk⟩, Option.bind_some, pick_pos ⟨_, stage₁_vessel_kept hv hk, h1⟩, pick_neg h2]
    · have : ¬g.Kept x.vessel := by
        rintro ⟨w, h1, h2⟩
        rw [hv] at h1
        cases h1
        exact hk h2
      rw [stage₁_part_removed hx ⟨v, hv⟩ this]
      rfl

theorem stage₂_part_some (wf : ∀ i x, g.part i = some x → ∃ v, g.vessel x.vessel = some v) {i : ℕ} {y : PartState δ} (hy : (g.stage₂ Δt).part i = some y) :
    ∃ x v, g.part i = some x ∧ g.vessel x.vessel = some v ∧ v.kept ∧ (v.loaded → x.kept) ∧ y = { x with kept := if v.loaded then false else x.kept } := by
  by_cases hs : g.Survives i
  · obtain ⟨x, v, h1, h2, h3, h4⟩ := hs
    rw [stage₂_part_survives h1 h2 h3 h4] at hy
    exact ⟨x, v, h1, h2, h3, h4, (Option.some.inj hy).symm⟩
  · rw [stage₂_part_none wf hs] at hy
    cases hy

theorem stage₂_in (wf : ∀ i x, g.part i = some x → ∃ v, g.vessel x.vessel = some v) (i : ℕ) (b : String) :
    (∃ y, (g.stage₂ Δt).part i = some y ∧ y.vessel = b) ↔ g.Survives i ∧ (g.part i).map PartState.vessel = some b := by
  constructor
  · rintro ⟨y, hy, rfl⟩
    obtain ⟨x, v, h1, h2, h3, h4, rfl⟩ := stage₂_part_some wf hy
    refine ⟨⟨x, v, h1, h2, h3, h4⟩, ?_⟩
    rw [h1]
    rfl
  · rintro ⟨⟨x, v, h1, h2, h3, h4⟩, e⟩
    rw [h1] at e
    exact ⟨_, stage₂_part_survives h1 h2 h3 h4, Option.some.inj e⟩

theorem stage₂_prepared {i : ℕ} (hs : g.Survives i) : (g.stage₂ Δt).prepared i ↔ g.prepared i := by
  obtain ⟨x, v, h1, h2, h3, h4⟩ := hs
  change ((g.prepared i ∧ ∀ x, g.part i = some x → ¬((∃ v, g.vessel x.vessel = some v) ∧ ¬g.Kept x.vessel)) ∧
    ∀ x, (g.stage₁ Δt).part i = some x → (∃ v, (g.stage₁ Δt).vessel x.vessel = some v ∧ v.loaded) → x.kept) ↔ g.prepared i
  constructor
  · exact fun hh => hh.1.1
  · intro hp
    refine ⟨⟨hp, ?_⟩, ?_⟩
    · rintro y hy ⟨-, hc⟩
      rw [h1] at hy
      cases hy
      exact hc ⟨v, h2, h3⟩
    · rintro y hy ⟨w, h5, h6⟩
      rw [stage₁_part_kept h1 ⟨v, h2, h3⟩] at hy
      cases hy
      rw [stage₁_vessel_kept h2 h3] at h5
      cases h5
      exact h4 h6

end Composition

theorem joined_iff {p : Plugin δ} {g : Game δ} {Δt : ℚ} (h : Consistent p) (e : p.view = g.stage₂ Δt) (wf : ∀ i x, g.part i = some x → ∃ v, g.vessel x.vessel = some v) (a b : ℕ) :
    p.joined a b ↔ g.Joined a b := by
  have hc : p.subsets.contacts = g.contacts := congrArg Game.contacts e
  have key : (fun a b => (a, b) ∈ p.subsets.contacts ∨ p.sameVessel a b) =
      fun a b => (a, b) ∈ g.contacts ∨ (g.Survives a ∧ g.Survives b ∧ (g.part a).map PartState.vessel = (g.part b).map PartState.vessel) := by
    funext a b
    rw [hc, sameVessel_iff h, e]
    congr 1
    refine propext ?_
    constructor
    · rintro ⟨x, y, hx, hy, he⟩
      obtain ⟨h1, h2⟩ := (stage₂_in wf a _).1 ⟨x, hx, rfl⟩
      obtain ⟨h3, h4⟩ := (stage₂_in wf b _).1 ⟨y, hy, rfl⟩
      exact ⟨h1, h3, by rw [h2, h4, he]⟩
    · rintro ⟨h1, h2, h3⟩
      obtain ⟨x, v, hx, h4⟩ := id h1
      rw [hx] at h3
      obtain ⟨y, hy, ey⟩ := (stage₂_in (Δt := Δt) wf a x.vessel).2 ⟨h1, by rw [hx]; rfl⟩
      obtain ⟨z, hz, ez⟩ := (stage₂_in (Δt := Δt) wf b x.vessel).2 ⟨h2, h3.symm⟩
      exact ⟨y, z, hy, hz, ey.trans ez.symm⟩
  unfold Plugin.joined Game.Joined
  rw [key]

theorem grounded_iff {p : Plugin δ} {g : Game δ} {Δt : ℚ} (h : Consistent p) (e : p.view = g.stage₂ Δt) (wf : ∀ i x, g.part i = some x → ∃ v, g.vessel x.vessel = some v) {q : ℕ} {v : Vessel δ}
    (hq : p.heap q = some v) : p.isGrounded v ↔ g.Grounded v.guid := by
  have hg : p.subsets.ground = g.ground := congrArg Game.ground e
  unfold Plugin.isGrounded Game.Grounded
  rw [hg]
  constructor
  · rintro ⟨y, hy, b, hb, hj⟩
    have h1 := (part_vessel h hq).2 ((mem_ids h hq y.2.id).1 (List.mem_map.2 ⟨y, hy, rfl⟩))
    rw [e] at h1
    obtain ⟨h2, h3⟩ := (stage₂_in wf _ _).1 h1
    exact ⟨y.2.id, h2, h3, b, hb, (joined_iff h e wf _ _).1 hj⟩
  · rintro ⟨i, h2, h3, b, hb, hj⟩
    have h1 := (stage₂_in (Δt := Δt) wf i v.guid).2 ⟨h2, h3⟩
    rw [← e] at h1
    obtain ⟨y, hy, ey⟩ := List.mem_map.1 ((mem_ids h hq i).2 ((part_vessel h hq).1 h1))
    refine ⟨y, hy, b, hb, ?_⟩
    rw [ey]
    exact (joined_iff h e wf _ _).2 hj

theorem mayBind_iff {p : Plugin δ} {g : Game δ} {Δt : ℚ} (h : Consistent p) (e : p.view = g.stage₂ Δt) (wf : ∀ i x, g.part i = some x → ∃ v, g.vessel x.vessel = some v) :
    p.mayBind ↔ g.MayFree := by
  have hc : p.subsets.contacts = g.contacts := congrArg Game.contacts e
  have hsurv : ∀ i, (p.partIdToVessel i).isSome ↔ g.Survives i := by
    intro i
    constructor
    · intro hi
      have : p.view.part i ≠ none := fun hn => by
        rw [h.part_none.1 hn] at hi; cases hi
      obtain ⟨y, hy⟩ := Option.ne_none_iff_exists'.1 this
      rw [e] at hy
      exact ((stage₂_in wf i _).1 ⟨y, hy, rfl⟩).1
    · rintro ⟨x, v, h1, h2, h3, h4⟩
      have := stage₂_part_survives (Δt := Δt) h1 h2 h3 h4
      rw [← e] at this
      obtain ⟨q, -, -, hq, -⟩ := h.part_some this
      rw [hq]
      rfl
  have hprep : ∀ i, g.Survives i → (i ∈ p.subsets.prepared ↔ g.prepared i) := by
    intro i hi
    rw [← stage₂_prepared (Δt := Δt) hi, ← e]
    rfl
  unfold Plugin.mayBind Game.MayFree
  rw [hc]
  constructor
  · rintro ⟨h1, h2⟩
    have h3 : ∀ q v, p.heap q = some v → v.parts ≠ [] ∧ ∀ y ∈ v.parts, y.2.id ∈ p.subsets.prepared := by
      intro q v hq
      obtain ⟨v', h3, h4⟩ := h1 _ (Map.mem_of_find (h.owned q v hq))
      rw [hq] at h3
      cases h3
      exact h4
    refine ⟨?_, ?_, ?_⟩
    · intro b v hv hk
      have := stage₁_vessel_kept (Δt := Δt) hv hk
      have : p.view.vessel b = some (v.cleaned g Δt) := by rw [e]; exact this
      obtain ⟨q, w, -, hq, rfl, -⟩ := h.vessel_some this
      obtain ⟨i, hi⟩ := (parts_ne_nil h hq).2 (h3 q w hq).1
      rw [e] at hi
      exact ⟨i, (stage₂_in wf i _).1 hi⟩
    · intro i hi
      obtain ⟨q, hq⟩ := Option.isSome_iff_exists.1 ((hsurv i).2 hi)
      obtain ⟨v, x, hv, hx⟩ := h.partAlive i q hq
      have := (h3 q v hv).2 _ (Map.mem_of_find hx)
      simp only at this
      rw [h.part_id hv hx] at this
      exact (hprep i hi).1 this
    · intro c hcc
      rw [← hsurv, ← hsurv]
      exact h2 c hcc
  · rintro ⟨h1, h2, h3⟩
    refine ⟨?_, ?_⟩
    · intro a ha
      obtain ⟨v, hq, hg⟩ := hasGuid h ha
      refine ⟨v, hq, ?_, ?_⟩
      · have hv := h.vessel_eq hq
        rw [e] at hv
        change (g.stage₁ Δt).vessel _ = _ at hv
        obtain ⟨w, hw, hk, -⟩ := stage₁_vessel_some hv
        obtain ⟨i, hi⟩ := h1 _ w hw hk
        have := (stage₂_in (Δt := Δt) wf i v.guid).2 hi
        rw [← e] at this
        exact (parts_ne_nil h hq).1 ⟨i, this⟩
      · intro y hy
        have hi := (mem_ids h hq y.2.id).1 (List.mem_map.2 ⟨y, hy, rfl⟩)
        have hs := (hsurv y.2.id).1 (by rw [hi]; rfl)
        exact (hprep _ hs).2 (h2 _ hs)
    · intro c hcc
      rw [hsurv, hsurv]
      exact h3 c hcc

open Classical in
theorem remains_iff {g : Game δ} {Δt : ℚ} (b : String) (w : VesselState) (hw : (g.stage₂ Δt).vessel b = some w) : g.Remains b ↔ ¬g.Grounded b := by
  obtain ⟨v, h1, h2, -⟩ := stage₁_vessel_some (show (g.stage₁ Δt).vessel b = some w from hw)
  exact ⟨And.right, fun h => ⟨⟨v, h1, h2⟩, h⟩⟩

theorem remove_eq {p : Plugin δ} {g : Game δ} {Δt : ℚ} (wf : ∀ i x, g.part i = some x → ∃ v, g.vessel x.vessel = some v) (wft : ∀ b, g.target = some b → ∃ v, g.vessel b = some v)
    {S : String → Prop} (hS : ∀ b, S b ↔ (∃ w, (g.stage₂ Δt).vessel b = some w) ∧ g.Grounded b) :
    { (g.stage₂ Δt).removeG S with prepared := fun _ => False, contacts := [], ground := [] } = g.free Δt := by
  have hv : ∀ b, (g.stage₂ Δt).vessel b = (g.stage₁ Δt).vessel b := fun _ => rfl
  have hS' : ∀ b, g.Kept b → (S b ↔ ¬g.Remains b) := by
    rintro b ⟨v, h1, h2⟩
    rw [hS]
    constructor
    · rintro ⟨-, hg⟩ hr
      exact hr.2 hg
    · intro hr
      refine ⟨⟨_, stage₁_vessel_kept h1 h2⟩, ?_⟩
      by_contra hc
      exact hr ⟨⟨v, h1, h2⟩, hc⟩
  have hSn : ∀ b, ¬g.Kept b → ¬S b := by
    intro b hk hs
    obtain ⟨⟨w, hw⟩, -⟩ := (hS b).1 hs
    rw [hv, stage₁_vessel_none hk] at hw
    cases hw
  have hrk : ∀ b, g.Remains b → g.Kept b := fun b hr => hr.1
  refine Game.ext rfl rfl ?_ ?_ ?_ ?_ rfl rfl rfl
  · funext b
    change pick (S b) none ((g.stage₁ Δt).vessel b) = _
    unfold Game.free
    simp only
    by_cases hr : g.Remains b
    · obtain ⟨v, h1, h2⟩ := hrk b hr
      rw [if_pos hr, pick_neg (fun hs => (hS' b (hrk b hr)).1 hs hr), stage₁_vessel_kept h1 h2, h1]
      rfl
    · rw [if_neg hr]
      by_cases hk : g.Kept b
      · rw [pick_pos ((hS' b hk).2 hr)]
      · rw [pick_neg (hSn b hk), stage₁_vessel_none hk]
  · funext i
    change ((g.stage₂ Δt).part i).bind _ = _
    unfold Game.free
    simp only
    by_cases hs : g.Survives i
    · obtain ⟨x, v, h1, h2, h3, h4⟩ := id hs
      rw [if_pos hs, stage₂_part_survives h1 h2 h3 h4, Option.bind_some, h1, Option.bind_some]
      simp only
      by_cases hr : g.Remains x.vessel
      · rw [if_pos hr, pick_neg (fun hs => (hS' _ (hrk _ hr)).1 hs hr), h2]
        rfl
      · rw [if_neg hr, pick_pos ((hS' _ ⟨v, h2, h3⟩).2 hr)]
    · rw [if_neg hs, stage₂_part_none wf hs]
      rfl
  · funext b
    change pick (S b) (match (g.stage₁ Δt).vessel b with | some v => some v.prediction | none => (g.stage₁ Δt).zombie b) ((g.stage₁ Δt).zombie b) = _
    unfold Game.free
    simp only
    have hz : (g.stage₁ Δt).zombie b = pick (∃ v, g.vessel b = some v) (match g.vessel b with | some v => pick v.kept (g.zombie b) (some v.prediction) | none => g.zombie b) (g.zombie b) := rfl
    by_cases hk : g.Kept b
    · obtain ⟨v, h1, h2⟩ := id hk
      have hz' : (g.stage₁ Δt).zombie b = g.zombie b := by
        rw [hz, pick_pos ⟨v, h1⟩, h1]
        exact pick_pos h2
      by_cases hr : g.Remains b
      · rw [if_pos hr, pick_neg (fun hs => (hS' b hk).1 hs hr), hz']
      · rw [if_neg hr, pick_pos ((hS' b hk).2 hr), stage₁_vessel_kept h1 h2, h1]
        rfl
    · rw [if_neg (fun hr => hk (hrk b hr)), pick_neg (hSn b hk), hz]
      cases h1 : g.vessel b with
      | none => rw [pick_neg]; rintro ⟨v, e⟩; cases e
      | some v =>
        rw [pick_pos ⟨v, rfl⟩]
        exact pick_neg (fun h2 => hk ⟨v, h1, h2⟩)
  · change (g.target.bind fun b => pick ((∃ v, g.vessel b = some v) ∧ ¬g.Kept b) none (some b)).bind _ = _
    unfold Game.free
    simp only
    cases ht : g.target with
    | none => rfl
    | some b =>
      rw [Option.bind_some, Option.bind_some]
      by_cases hk : g.Kept b
      · rw [pick_neg (fun hc => hc.2 hk), Option.bind_some]
        by_cases hr : g.Remains b
        · rw [if_pos hr, pick_neg (fun hs => (hS' b hk).1 hs hr)]
        · rw [if_neg hr, pick_pos ((hS' b hk).2 hr)]
      · rw [pick_pos ⟨wft b ht, hk⟩, if_neg (fun hr => hk (hrk b hr))]
        rfl

theorem Consistent.wft {p : Plugin δ} (h : Consistent p) {b : String} (hb : p.view.target = some b) : ∃ v, p.view.vessel b = some v := by
  obtain ⟨q, h1, h2⟩ := Option.bind_eq_some_iff.1 (show (p.target.bind fun q => (p.heap q).map Vessel.guid) = some b from hb)
  obtain ⟨v, h3, rfl⟩ := Option.map_eq_some_iff.1 h2
  exact ⟨_, h.vessel_eq h3⟩

theorem mem_filter_prop {α : Type} {l : List α} {P : α → Prop} (inst : ∀ a, Decidable (P a)) {a : α} : a ∈ l.filter (fun x => @decide (P x) (inst x)) ↔ a ∈ l ∧ P a := by
  rw [List.mem_filter, decide_eq_true_iff]

open Classical in
theorem free_spec {p : Plugin δ} (h : Consistent p) (Δt : ℚ) : Refines (p.freeVesselsAndParts Δt) (p.view.call untruthful defaultParameters (.freeVesselsAndParts Δt)) := by
  rw [Game.call]
  unfold Plugin.freeVesselsAndParts
  have wf : ∀ i x, p.view.part i = some x → ∃ v, p.view.vessel x.vessel = some v := fun i x => h.wf
  obtain ⟨s1, s2⟩ := fold_spec (key := Prod.fst) (step := Plugin.keepOrRemove Δt) (C := fun g b => g.Kept b → ∃ i x, g.part i = some x ∧ x.vessel = b) (F := Game.keepG Δt)
    (Inv := fun p a => HasGuid p a.2 a.1) (keepOrRemove_pos Δt) (keepOrRemove_neg Δt) keepG_C keepG_false keepG_step p.vessels p h h.keys (fun a ha => hasGuid h ha)
  by_cases hA : ∀ a ∈ p.vessels, p.view.Kept a.1 → ∃ i x, p.view.part i = some x ∧ x.vessel = a.1
  · obtain ⟨p1, e1, h1, v1⟩ := s1 hA
    have v1' : p1.view = p.view.stage₁ Δt := by
      rw [v1]
      unfold Game.stage₁
      congr 1
      funext b
      exact propext (mem_vessels h b)
    rw [e1, Option.bind_some, if_pos (kept_nil h1 (by rw [v1']; exact stage₁_not_kept))]
    set key : ℕ → String := fun q => ((p1.heap q).map Vessel.guid).getD "" with hkey
    have hk1 : ∀ q v, p1.heap q = some v → key q = v.guid := by
      intro q v hq
      rw [hkey]
      simp only [hq]
      rfl
    have hnd : (p1.loaded.map key).Nodup := by
      refine List.Nodup.map_on ?_ h1.loadedNodup
      intro q hq q' hq' he
      obtain ⟨v, hv⟩ := Option.isSome_iff_exists.1 (h1.loaded q hq)
      obtain ⟨v', hv'⟩ := Option.isSome_iff_exists.1 (h1.loaded q' hq')
      rw [hk1 q v hv, hk1 q' v' hv'] at he
      exact h1.inj hv hv' he
    have hinv : ∀ q ∈ p1.loaded, HasGuid p1 q (key q) := by
      intro q hq
      obtain ⟨v, hv⟩ := Option.isSome_iff_exists.1 (h1.loaded q hq)
      exact ⟨v, hv, (hk1 q v hv).symm⟩
    obtain ⟨t1, t2⟩ := fold_spec (key := key) (step := Plugin.freeParts) (C := fun g b => ∃ i x, g.part i = some x ∧ x.vessel = b ∧ x.kept) (F := Game.freeG)
      (Inv := fun p q => HasGuid p q (key q))
      (by
        rintro p q h ⟨v, hq, hg⟩ hC
        rw [← hg] at hC ⊢
        obtain ⟨p', a1, a2, a3, a4⟩ := freeParts_pos p q h hq hC
        exact ⟨p', a1, a2, a3, fun q' hq' _ => a4 q' _ hq'⟩)
      (by
        rintro p q h ⟨v, hq, hg⟩ hC
        rw [← hg] at hC
        exact freeParts_neg p q h hq hC)
      freeG_C freeG_false freeG_step p1.loaded p1 h1 hnd hinv
    have hload : ∀ b, b ∈ p1.loaded.map key ↔ ∃ w, p1.view.vessel b = some w ∧ w.loaded := by
      intro b
      constructor
      · intro hb
        obtain ⟨q, hq, rfl⟩ := List.mem_map.1 hb
        obtain ⟨v, hv⟩ := Option.isSome_iff_exists.1 (h1.loaded q hq)
        rw [hk1 q v hv]
        exact (mem_loaded h1 hv).2 hq
      · rintro ⟨w, hw, hl⟩
        obtain ⟨q, v, -, hv, rfl, -⟩ := h1.vessel_some hw
        exact List.mem_map.2 ⟨q, (mem_loaded h1 hv).1 ⟨w, hw, hl⟩, hk1 q v hv⟩
    by_cases hB : ∀ q ∈ p1.loaded, ∃ i x, p1.view.part i = some x ∧ x.vessel = key q ∧ x.kept
    · obtain ⟨p2, e2, h2, v2⟩ := t1 hB
      have v2' : p2.view = p.view.stage₂ Δt := by
        rw [v2]
        unfold Game.stage₂
        rw [v1']
        congr 1
        funext b
        rw [hload, v1']
      rw [e2, Option.bind_some]
      by_cases hM : p.view.MayFree
      · rw [if_pos ((mayBind_iff h2 v2' wf).2 hM), if_pos hM]
        set grounded := p2.vessels.filter fun x => decide (∃ v, p2.heap x.2 = some v ∧ p2.isGrounded v) with hgr
        have hk2 : p2.kept = [] := kept_nil h2 (by rw [v2']; exact stage₁_not_kept)
        obtain ⟨u1, -⟩ := fold_spec (key := Prod.fst) (step := fun (p : Plugin δ) (x : String × ℕ) => (p.vesselAt x.2).map fun v => p.removeVessel x.2 v) (C := fun _ _ => True) (F := Game.removeG)
          (Inv := fun p a => HasGuid p a.2 a.1 ∧ p.kept = [])
          (by
            rintro p ⟨b, q⟩ h ⟨⟨v, hq, hg⟩, hk⟩ -
            simp only at hq hg ⊢
            obtain ⟨a1, a2, a3, a4⟩ := removeVessel_spec h hq (by rw [hk]; simp)
            refine ⟨p.removeVessel q v, by rw [show p.vesselAt q = some v from hq]; rfl, a1, by rw [a2, hg], ?_⟩
            rintro ⟨b', q'⟩ ⟨⟨v', c, d⟩, hk'⟩ hb
            simp only at c d hb ⊢
            have hne : q' ≠ q := by
              rintro rfl
              rw [hq] at c
              cases c
              exact hb (d.symm.trans hg)
            exact ⟨⟨v', (a4 q' hne).trans c, d⟩, a3.trans hk⟩)
          (fun _ _ _ _ hn => absurd trivial hn) (fun _ _ _ _ => Iff.rfl) removeG_false removeG_step grounded p2 h2
          (Map.keys_filter h2.keys _) (fun a ha => ⟨hasGuid h2 (List.mem_filter.1 ha).1, hk2⟩)
        obtain ⟨p3, e3, h3, v3⟩ := u1 (fun _ _ => trivial)
        simp only
        rw [e3, Option.map_some]
        refine refines_some (subsets_spec h3 (by simp)) ?_
        rw [← remove_eq (p := p) wf (fun b => h.wft) (S := (· ∈ grounded.map Prod.fst))]
        · rw [← v2', ← v3]
          change _ = ({ p3.view with prepared := fun _ => False, contacts := [], ground := [] } : Game δ)
          refine Game.ext rfl rfl rfl rfl rfl rfl ?_ rfl rfl
          funext i
          change (i ∈ ([] : List ℕ)) = False
          simp
        · intro b
          rw [← v2', List.mem_map]
          constructor
          · rintro ⟨a, ha, rfl⟩
            obtain ⟨ha, v, hv, hg⟩ := (mem_filter_prop _).1 ha
            obtain ⟨v', hv', hg'⟩ := hasGuid h2 ha
            rw [hv] at hv'
            cases hv'
            rw [← hg']
            exact ⟨⟨_, h2.vessel_eq hv⟩, (grounded_iff h2 v2' wf hv).1 hg⟩
          · rintro ⟨⟨w, hw⟩, hg⟩
            obtain ⟨q, v, hf, hv, rfl, -⟩ := h2.vessel_some hw
            refine ⟨(v.guid, q), ?_, rfl⟩
            exact (mem_filter_prop _).2 ⟨Map.mem_of_find hf, v, hv, (grounded_iff h2 v2' wf hv).2 hg⟩
      · rw [if_neg (fun hc => hM ((mayBind_iff h2 v2' wf).1 hc)), if_neg hM]
        exact refines_none
    · rw [t2 hB, if_neg]
      · exact refines_none
      · rintro ⟨hm, -⟩
        refine hB fun q hq => ?_
        obtain ⟨v, hv⟩ := Option.isSome_iff_exists.1 (h1.loaded q hq)
        obtain ⟨w, hw, hl⟩ := (mem_loaded h1 hv).2 hq
        rw [hk1 q v hv]
        rw [v1'] at hw ⊢
        obtain ⟨u, hu, hk, rfl⟩ := stage₁_vessel_some hw
        obtain ⟨i, ⟨x, u', c1, c2, c3, c4⟩, c5⟩ := hm _ u hu hk
        rw [c1] at c5
        have c6 : x.vessel = v.guid := Option.some.inj c5
        rw [c6, hu] at c2
        cases c2
        exact ⟨i, x, stage₁_part_kept c1 (by rw [c6]; exact ⟨u, hu, hk⟩), c6, c4 hl⟩
  · rw [s2 hA, if_neg]
    · exact refines_none
    · rintro ⟨hm, -⟩
      refine hA fun a ha hk => ?_
      obtain ⟨v, hv, hk⟩ := hk
      obtain ⟨i, ⟨x, u, c1, -⟩, c5⟩ := hm _ v hv hk
      rw [c1] at c5
      exact ⟨i, x, c1, Option.some.inj c5⟩

/-- Each call has the effect that the game expects. -/
theorem call_spec {p : Plugin δ} (h : Consistent p) (c : Call δ) : Refines (p.call untruthful defaultParameters c) (p.view.call untruthful defaultParameters c) := by
  cases c with
  | insertOrKeepVessel guid name parent loaded => exact (insertOrKeepVessel_spec h guid name parent loaded).1
  | insertUnloadedPart id name guid motion => exact insertUnloadedPart_spec h id name guid motion
  | insertOrKeepLoadedPart id name properties guid motion => exact insertOrKeepLoadedPart_spec h id name properties guid motion
  | applyForce id => exact applyForce_spec h id
  | prepareToReportCollisions => exact prepare_spec h
  | reportGroundCollision id => exact reportGround_spec h id
  | reportPartCollision id₁ id₂ => exact reportPart_spec h id₁ id₂
  | freeVesselsAndParts Δt => exact free_spec h Δt
  | advanceTime t => exact advanceTime_spec h t
  | setPrediction guid parameters => exact setPrediction_spec h guid parameters
  | createFlightPlan guid => exact createFlightPlan_spec h guid
  | setTargetVessel guid celestial => exact setTarget_spec h guid celestial
  | clearTargetVessel => exact clearTarget_spec h

theorem run_spec {p : Plugin δ} (h : Consistent p) (calls : List (Call δ)) : Refines (p.run untruthful defaultParameters calls) (p.view.run untruthful defaultParameters calls) := by
  unfold Plugin.run Game.run
  induction calls generalizing p with
  | nil => exact refines_some h rfl
  | cons c calls ih =>
    rw [List.foldlM_cons, List.foldlM_cons]
    exact (call_spec h c).bind fun p hp => ih hp

theorem consistent_initial (t : ℚ) (celestials : List ℕ) : Consistent (Plugin.initial t celestials : Plugin δ) :=
  ⟨List.nodup_nil, fun _ _ e => (by cases e), fun _ _ e => (by cases e), fun _ _ e => (by cases e), fun _ _ e => (by cases e), fun _ _ _ _ e => (by cases e), fun _ _ e => (by cases e),
    fun _ e => (by cases e), fun _ e => (by cases e), List.nodup_nil, fun _ e => (by cases e), fun _ e => (by cases e)⟩

theorem view_initial (t : ℚ) (celestials : List ℕ) : (Plugin.initial t celestials : Plugin δ).view = Game.initial t celestials := by
  refine Game.ext rfl rfl rfl rfl rfl rfl ?_ rfl rfl
  funext i
  change (i ∈ ([] : List ℕ)) = False
  simp

end Principia.Ksp.Lifecycle
