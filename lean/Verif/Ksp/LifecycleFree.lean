import Verif.Ksp.LifecycleCalls

/-!
The cleanup of the vessels and parts.
-/

set_option linter.unusedSimpArgs false
set_option linter.unusedVariables false
set_option linter.unusedSectionVars false

namespace Principia.Ksp.Lifecycle

variable {δ : Type} {untruthful : δ} {defaultParameters : Parameters}

/-- The vessel exists, and the game told that it still does. -/
def Game.Kept (g : Game δ) (b : String) : Prop := ∃ v, g.vessel b = some v ∧ v.kept

/-- A choice. -/
noncomputable def pick {α : Type} (P : Prop) (a b : α) : α := open Classical in if P then a else b

theorem pick_pos {α : Type} {P : Prop} {a b : α} (h : P) : pick P a b = a := if_pos h

theorem pick_neg {α : Type} {P : Prop} {a b : α} (h : ¬P) : pick P a b = b := if_neg h

/-- The effect of the first loop on some of the vessels. -/
noncomputable def Game.keepG (Δt : ℚ) (g : Game δ) (S : String → Prop) : Game δ :=
  { g with
    vessel := fun b => pick (S b) ((g.vessel b).bind fun v =>
      pick v.kept (some { v with kept := false, start := v.start.or (some (if v.loaded then g.time - Δt else g.time)) }) none) (g.vessel b)
    part := fun i => (g.part i).bind fun x => pick (S x.vessel ∧ ¬g.Kept x.vessel) none (some x)
    zombie := fun b => pick (S b) (match g.vessel b with | some v => pick v.kept (g.zombie b) (some v.prediction) | none => g.zombie b) (g.zombie b)
    target := g.target.bind fun b => pick (S b ∧ ¬g.Kept b) none (some b)
    prepared := fun i => g.prepared i ∧ ∀ x, g.part i = some x → ¬(S x.vessel ∧ ¬g.Kept x.vessel) }

/-- The effect of the second loop on some of the vessels. -/
noncomputable def Game.freeG (g : Game δ) (S : String → Prop) : Game δ :=
  { g with
    part := fun i => (g.part i).bind fun x => pick (S x.vessel) (pick x.kept (some { x with kept := false }) none) (some x)
    prepared := fun i => g.prepared i ∧ ∀ x, g.part i = some x → S x.vessel → x.kept }

/-- The effect of the removal of some of the vessels. -/
noncomputable def Game.removeG (g : Game δ) (S : String → Prop) : Game δ :=
  { g with
    vessel := fun b => pick (S b) none (g.vessel b)
    part := fun i => (g.part i).bind fun x => pick (S x.vessel) none (some x)
    zombie := fun b => pick (S b) (match g.vessel b with | some v => some v.prediction | none => g.zombie b) (g.zombie b)
    target := g.target.bind fun b => pick (S b) none (some b)
    prepared := fun i => g.prepared i ∧ ∀ x, g.part i = some x → ¬S x.vessel }

theorem fold_spec {α : Type} {key : α → String} {step : Plugin δ → α → Option (Plugin δ)} {C : Game δ → String → Prop} {F : Game δ → (String → Prop) → Game δ} {Inv : Plugin δ → α → Prop}
    (hpos : ∀ p a, Consistent p → Inv p a → C p.view (key a) →
      ∃ p', step p a = some p' ∧ Consistent p' ∧ p'.view = F p.view (· = key a) ∧ ∀ b, Inv p b → key b ≠ key a → Inv p' b)
    (hneg : ∀ p a, Consistent p → Inv p a → ¬C p.view (key a) → step p a = none)
    (hC : ∀ g a b, a ≠ b → (C (F g (· = a)) b ↔ C g b)) (hF0 : ∀ g, F g (fun _ => False) = g)
    (hF : ∀ g a S, ¬S a → F (F g (· = a)) S = F g (fun b => b = a ∨ S b)) :
    ∀ (l : List α) (p : Plugin δ), Consistent p → (l.map key).Nodup → (∀ a ∈ l, Inv p a) →
      ((∀ a ∈ l, C p.view (key a)) → ∃ p', l.foldlM step p = some p' ∧ Consistent p' ∧ p'.view = F p.view (· ∈ l.map key)) ∧
        (¬(∀ a ∈ l, C p.view (key a)) → l.foldlM step p = none)
  | [], p, h, _, _ => by
    refine ⟨fun _ => ⟨p, rfl, h, ?_⟩, fun hn => absurd (fun a ha => by cases ha) hn⟩
    rw [show (fun b => b ∈ List.map key []) = fun _ => False by funext b; simp, hF0]
  | a :: l, p, h, hn, hI => by
    rw [List.map_cons, List.nodup_cons] at hn
    have hne : ∀ b ∈ l, key b ≠ key a := fun b hb e => hn.1 (e ▸ List.mem_map_of_mem (f := key) hb)
    by_cases hc : C p.view (key a)
    · obtain ⟨p', e1, e2, e3, e4⟩ := hpos p a h (hI a List.mem_cons_self) hc
      obtain ⟨i1, i2⟩ := fold_spec hpos hneg hC hF0 hF l p' e2 hn.2 fun b hb => e4 b (hI b (List.mem_cons_of_mem _ hb)) (hne b hb)
      have hiff : (∀ b ∈ l, C p'.view (key b)) ↔ ∀ b ∈ a :: l, C p.view (key b) := by
        constructor
        · intro hh b hb
          rcases List.mem_cons.1 hb with rfl | hb
          · exact hc
          · have := hh b hb
            rw [e3, hC _ _ _ (hne b hb).symm] at this
            exact this
        · intro hh b hb
          rw [e3, hC _ _ _ (hne b hb).symm]
          exact hh b (List.mem_cons_of_mem _ hb)
      rw [List.foldlM_cons, e1]
      constructor
      · intro hh
        obtain ⟨p'', j1, j2, j3⟩ := i1 (hiff.2 hh)
        refine ⟨p'', j1, j2, ?_⟩
        rw [j3, e3, hF _ _ _ hn.1]
        congr 1
        funext b
        rw [List.map_cons, List.mem_cons]
      · intro hh
        exact i2 fun hx => hh (hiff.1 hx)
    · constructor
      · intro hh
        exact absurd (hh a List.mem_cons_self) hc
      · intro _
        rw [List.foldlM_cons, hneg p a h (hI a List.mem_cons_self) hc]
        rfl

/-! ## The algebra of the effects -/

theorem keepG_kept {Δt : ℚ} {g : Game δ} {a b : String} (h : a ≠ b) : (g.keepG Δt (· = a)).Kept b ↔ g.Kept b := by
  unfold Game.Kept
  have : (g.keepG Δt (· = a)).vessel b = g.vessel b := pick_neg (Ne.symm h)
  rw [this]

theorem keepG_C {Δt : ℚ} (g : Game δ) (a b : String) (h : a ≠ b) :
    ((g.keepG Δt (· = a)).Kept b → ∃ i x, (g.keepG Δt (· = a)).part i = some x ∧ x.vessel = b) ↔ (g.Kept b → ∃ i x, g.part i = some x ∧ x.vessel = b) := by
  rw [keepG_kept h]
  have : ∀ i x, ((g.keepG Δt (· = a)).part i = some x ∧ x.vessel = b) ↔ (g.part i = some x ∧ x.vessel = b) := by
    intro i x
    change ((g.part i).bind _ = some x ∧ _) ↔ _
    constructor
    · rintro ⟨e, rfl⟩
      obtain ⟨y, e1, e2⟩ := Option.bind_eq_some_iff.1 e
      by_cases hc : y.vessel = a ∧ ¬g.Kept y.vessel
      · rw [pick_pos hc] at e2; cases e2
      · rw [pick_neg hc] at e2; cases e2; exact ⟨e1, rfl⟩
    · rintro ⟨e, rfl⟩
      rw [e, Option.bind_some, pick_neg (fun hc => h hc.1.symm)]
      exact ⟨rfl, rfl⟩
  constructor <;> intro hh hk <;> obtain ⟨i, x, e⟩ := hh hk
  · exact ⟨i, x, (this i x).1 e⟩
  · exact ⟨i, x, (this i x).2 e⟩

theorem keepG_false {Δt : ℚ} (g : Game δ) : g.keepG Δt (fun _ => False) = g := by
  refine Game.ext rfl rfl ?_ ?_ ?_ ?_ ?_ rfl rfl
  · funext b; exact pick_neg id
  · funext i
    change (g.part i).bind _ = _
    cases g.part i <;> simp [pick]
  · funext b; exact pick_neg id
  · change g.target.bind _ = _
    cases g.target <;> simp [pick]
  · funext i
    change (g.prepared i ∧ _) = _
    simp

theorem keepG_step {Δt : ℚ} (g : Game δ) (a : String) (S : String → Prop) (h : ¬S a) : (g.keepG Δt (· = a)).keepG Δt S = g.keepG Δt (fun b => b = a ∨ S b) := by
  have hv : ∀ b, b ≠ a → (g.keepG Δt (· = a)).vessel b = g.vessel b := fun b hb => pick_neg hb
  have hk : ∀ b, b ≠ a → ((g.keepG Δt (· = a)).Kept b ↔ g.Kept b) := fun b hb => keepG_kept (Ne.symm hb)
  have hS : ∀ b, S b → b ≠ a := fun b hb e => h (e ▸ hb)
  have hcond : ∀ b, (S b ∧ ¬(g.keepG Δt (· = a)).Kept b) ↔ (S b ∧ ¬g.Kept b) := by
    intro b
    constructor <;> rintro ⟨h1, h2⟩
    · exact ⟨h1, fun hc => h2 ((hk b (hS b h1)).2 hc)⟩
    · exact ⟨h1, fun hc => h2 ((hk b (hS b h1)).1 hc)⟩
  have hor : ∀ b, ((b = a ∨ S b) ∧ ¬g.Kept b) ↔ ((b = a ∧ ¬g.Kept b) ∨ (S b ∧ ¬g.Kept b)) := fun b => or_and_right
  refine Game.ext rfl rfl ?_ ?_ ?_ ?_ ?_ rfl rfl
  · funext b
    by_cases hb : b = a
    · subst hb
      change pick (S b) _ (pick (b = b) _ _) = pick (b = b ∨ S b) _ _
      rw [pick_neg h, pick_pos rfl, pick_pos (Or.inl rfl)]
    · by_cases hs : S b
      · change pick (S b) (((g.keepG Δt (· = a)).vessel b).bind _) _ = pick (b = a ∨ S b) _ _
        rw [pick_pos hs, pick_pos (Or.inr hs), hv b hb]
        rfl
      · change pick (S b) _ (pick (b = a) _ _) = pick (b = a ∨ S b) _ _
        rw [pick_neg hs, pick_neg hb, pick_neg (by rintro (hc | hc); exacts [hb hc, hs hc])]
  · funext i
    change ((g.part i).bind _).bind _ = (g.part i).bind _
    cases g.part i with
    | none => rfl
    | some x =>
      simp only [Option.bind_some, hcond, hor]
      by_cases h1 : x.vessel = a ∧ ¬g.Kept x.vessel
      · rw [pick_pos h1, pick_pos (Or.inl h1)]; rfl
      · by_cases h2 : S x.vessel ∧ ¬g.Kept x.vessel
        · rw [pick_neg h1, Option.bind_some, pick_pos h2, pick_pos (Or.inr h2)]
        · rw [pick_neg h1, Option.bind_some, pick_neg h2, pick_neg (by rintro (hc | hc); exacts [h1 hc, h2 hc])]
  · funext b
    by_cases hb : b = a
    · subst hb
      change pick (S b) _ (pick (b = b) _ _) = pick (b = b ∨ S b) _ _
      rw [pick_neg h, pick_pos rfl, pick_pos (Or.inl rfl)]
    · have hz : (g.keepG Δt (· = a)).zombie b = g.zombie b := pick_neg hb
      by_cases hs : S b
      · change pick (S b) (match (g.keepG Δt (· = a)).vessel b with | some v => pick v.kept ((g.keepG Δt (· = a)).zombie b) (some v.prediction) | none => (g.keepG Δt (· = a)).zombie b) _ =
          pick (b = a ∨ S b) _ _
        rw [pick_pos hs, pick_pos (Or.inr hs), hv b hb, hz]
      · change pick (S b) _ ((g.keepG Δt (· = a)).zombie b) = pick (b = a ∨ S b) _ _
        rw [pick_neg hs, hz, pick_neg (by rintro (hc | hc); exacts [hb hc, hs hc])]
  · change (g.target.bind _).bind _ = g.target.bind _
    cases g.target with
    | none => rfl
    | some x =>
      simp only [Option.bind_some, hcond, hor]
      by_cases h1 : x = a ∧ ¬g.Kept x
      · rw [pick_pos h1, pick_pos (Or.inl h1)]; rfl
      · by_cases h2 : S x ∧ ¬g.Kept x
        · rw [pick_neg h1, Option.bind_some, pick_pos h2, pick_pos (Or.inr h2)]
        · rw [pick_neg h1, Option.bind_some, pick_neg h2, pick_neg (by rintro (hc | hc); exacts [h1 hc, h2 hc])]
  · funext i
    change ((g.prepared i ∧ ∀ x, g.part i = some x → ¬(x.vessel = a ∧ ¬g.Kept x.vessel)) ∧
      ∀ x, ((g.part i).bind fun x => pick (x.vessel = a ∧ ¬g.Kept x.vessel) none (some x)) = some x → ¬(S x.vessel ∧ ¬(g.keepG Δt (· = a)).Kept x.vessel)) =
      (g.prepared i ∧ ∀ x, g.part i = some x → ¬((x.vessel = a ∨ S x.vessel) ∧ ¬g.Kept x.vessel))
    simp only [hcond, hor]
    cases hp : g.part i with
    | none => simp
    | some x =>
      by_cases h1 : x.vessel = a ∧ ¬g.Kept x.vessel
      · simp only [Option.some.injEq, forall_eq', Option.bind_some, pick_pos h1]
        refine propext ⟨fun hc => absurd h1 hc.1.2, fun hc => absurd (Or.inl h1) hc.2⟩
      · simp only [Option.some.injEq, forall_eq', Option.bind_some, pick_neg h1]
        rw [and_assoc, not_or]

theorem freeG_C (g : Game δ) (a b : String) (h : a ≠ b) :
    (∃ i x, (g.freeG (· = a)).part i = some x ∧ x.vessel = b ∧ x.kept) ↔ ∃ i x, g.part i = some x ∧ x.vessel = b ∧ x.kept := by
  have : ∀ i x, ((g.freeG (· = a)).part i = some x ∧ x.vessel = b ∧ x.kept) ↔ (g.part i = some x ∧ x.vessel = b ∧ x.kept) := by
    intro i x
    change ((g.part i).bind _ = some x ∧ _) ↔ _
    constructor
    · rintro ⟨e, rfl, hk⟩
      obtain ⟨y, e1, e2⟩ := Option.bind_eq_some_iff.1 e
      by_cases hc : y.vessel = a
      · rw [pick_pos hc] at e2
        by_cases hk' : y.kept
        · rw [pick_pos hk'] at e2
          cases e2
          cases hk
        · rw [pick_neg hk'] at e2; cases e2
      · rw [pick_neg hc] at e2; cases e2; exact ⟨e1, rfl, hk⟩
    · rintro ⟨e, rfl, hk⟩
      rw [e, Option.bind_some, pick_neg (Ne.symm h)]
      exact ⟨rfl, rfl, hk⟩
  constructor <;> rintro ⟨i, x, e⟩
  · exact ⟨i, x, (this i x).1 e⟩
  · exact ⟨i, x, (this i x).2 e⟩

theorem freeG_false (g : Game δ) : g.freeG (fun _ => False) = g := by
  refine Game.ext rfl rfl rfl ?_ rfl rfl ?_ rfl rfl
  · funext i
    change (g.part i).bind _ = _
    cases g.part i <;> simp [pick]
  · funext i
    change (g.prepared i ∧ _) = _
    simp

theorem freeG_step (g : Game δ) (a : String) (S : String → Prop) (h : ¬S a) : (g.freeG (· = a)).freeG S = g.freeG (fun b => b = a ∨ S b) := by
  refine Game.ext rfl rfl rfl ?_ rfl rfl ?_ rfl rfl
  · funext i
    change ((g.part i).bind _).bind _ = (g.part i).bind _
    cases g.part i with
    | none => rfl
    | some x =>
      simp only [Option.bind_some]
      by_cases h1 : x.vessel = a
      · rw [pick_pos h1, pick_pos (Or.inl h1)]
        by_cases hk : x.kept
        · rw [pick_pos hk, Option.bind_some, pick_neg (show ¬S x.vessel from h1 ▸ h)]
        · rw [pick_neg hk]; rfl
      · rw [pick_neg h1, Option.bind_some]
        by_cases h2 : S x.vessel
        · rw [pick_pos h2, pick_pos (Or.inr h2)]
        · rw [pick_neg h2, pick_neg (by rintro (hc | hc); exacts [h1 hc, h2 hc])]
  · funext i
    change ((g.prepared i ∧ ∀ x, g.part i = some x → x.vessel = a → x.kept) ∧
      ∀ x, ((g.part i).bind fun x => pick (x.vessel = a) (pick x.kept (some { x with kept := false }) none) (some x)) = some x → S x.vessel → x.kept) =
      (g.prepared i ∧ ∀ x, g.part i = some x → (x.vessel = a ∨ S x.vessel) → x.kept)
    cases hp : g.part i with
    | none => simp
    | some x =>
      simp only [Option.some.injEq, forall_eq', Option.bind_some]
      by_cases h1 : x.vessel = a
      · have hs : ¬S x.vessel := h1 ▸ h
        by_cases hk : x.kept
        · simp only [pick_pos h1, pick_pos hk, Option.some.injEq, forall_eq']
          refine propext ⟨fun hc => ⟨hc.1.1, fun _ => hk⟩, fun hc => ⟨⟨hc.1, fun _ => hk⟩, fun hx => absurd hx hs⟩⟩
        · simp only [pick_pos h1, pick_neg hk]
          refine propext ⟨fun hc => absurd (hc.1.2 h1) hk, fun hc => absurd (hc.2 (Or.inl h1)) hk⟩
      · simp only [pick_neg h1, Option.some.injEq, forall_eq']
        refine propext ⟨fun hc => ⟨hc.1.1, fun hx => hc.2 (hx.resolve_left h1)⟩, fun hc => ⟨⟨hc.1, fun hx => absurd hx h1⟩, fun hx => hc.2 (Or.inr hx)⟩⟩

theorem removeG_false (g : Game δ) : g.removeG (fun _ => False) = g := by
  refine Game.ext rfl rfl ?_ ?_ ?_ ?_ ?_ rfl rfl
  · funext b; exact pick_neg id
  · funext i
    change (g.part i).bind _ = _
    cases g.part i <;> simp [pick]
  · funext b; exact pick_neg id
  · change g.target.bind _ = _
    cases g.target <;> simp [pick]
  · funext i
    change (g.prepared i ∧ _) = _
    simp

theorem removeG_step (g : Game δ) (a : String) (S : String → Prop) (h : ¬S a) : (g.removeG (· = a)).removeG S = g.removeG (fun b => b = a ∨ S b) := by
  have hv : ∀ b, b ≠ a → (g.removeG (· = a)).vessel b = g.vessel b := fun b hb => pick_neg hb
  refine Game.ext rfl rfl ?_ ?_ ?_ ?_ ?_ rfl rfl
  · funext b
    by_cases hb : b = a
    · subst hb
      change pick (S b) _ (pick (b = b) _ _) = pick (b = b ∨ S b) _ _
      rw [pick_neg h, pick_pos rfl, pick_pos (Or.inl rfl)]
    · by_cases hs : S b
      · change pick (S b) _ _ = pick (b = a ∨ S b) _ _
        rw [pick_pos hs, pick_pos (Or.inr hs)]
      · change pick (S b) _ (pick (b = a) _ _) = pick (b = a ∨ S b) _ _
        rw [pick_neg hs, pick_neg hb, pick_neg (by rintro (hc | hc); exacts [hb hc, hs hc])]
  · funext i
    change ((g.part i).bind _).bind _ = (g.part i).bind _
    cases g.part i with
    | none => rfl
    | some x =>
      simp only [Option.bind_some]
      by_cases h1 : x.vessel = a
      · rw [pick_pos h1, pick_pos (Or.inl h1)]; rfl
      · by_cases h2 : S x.vessel
        · rw [pick_neg h1, Option.bind_some, pick_pos h2, pick_pos (Or.inr h2)]
        · rw [pick_neg h1, Option.bind_some, pick_neg h2, pick_neg (by rintro (hc | hc); exacts [h1 hc, h2 hc])]
  · funext b
    by_cases hb : b = a
    · subst hb
      change pick (S b) _ (pick (b = b) _ _) = pick (b = b ∨ S b) _ _
      rw [pick_neg h, pick_pos rfl, pick_pos (Or.inl rfl)]
    · have hz : (g.removeG (· = a)).zombie b = g.zombie b := pick_neg hb
      by_cases hs : S b
      · change pick (S b) (match (g.removeG (· = a)).vessel b with | some v => some v.prediction | none => (g.removeG (· = a)).zombie b) _ = pick (b = a ∨ S b) _ _
        rw [pick_pos hs, pick_pos (Or.inr hs), hv b hb, hz]
      · change pick (S b) _ ((g.removeG (· = a)).zombie b) = pick (b = a ∨ S b) _ _
        rw [pick_neg hs, hz, pick_neg (by rintro (hc | hc); exacts [hb hc, hs hc])]
  · change (g.target.bind _).bind _ = g.target.bind _
    cases g.target with
    | none => rfl
    | some x =>
      simp only [Option.bind_some]
      by_cases h1 : x = a
      · rw [pick_pos h1, pick_pos (Or.inl h1)]; rfl
      · by_cases h2 : S x
        · rw [pick_neg h1, Option.bind_some, pick_pos h2, pick_pos (Or.inr h2)]
        · rw [pick_neg h1, Option.bind_some, pick_neg h2, pick_neg (by rintro (hc | hc); exacts [h1 hc, h2 hc])]
  · funext i
    change ((g.prepared i ∧ ∀ x, g.part i = some x → ¬x.vessel = a) ∧ ∀ x, ((g.part i).bind fun x => pick (x.vessel = a) none (some x)) = some x → ¬S x.vessel) =
      (g.prepared i ∧ ∀ x, g.part i = some x → ¬(x.vessel = a ∨ S x.vessel))
    cases hp : g.part i with
    | none => simp
    | some x =>
      by_cases h1 : x.vessel = a
      · simp [h1]
      · simp only [Option.some.injEq, forall_eq', Option.bind_some, pick_neg h1]
        rw [and_assoc, not_or]

/-! ## The steps -/

theorem foldl_destroyPart (p : Plugin δ) (ids : List ℕ) :
    ids.foldl Plugin.destroyPart p =
      { p with partIdToVessel := fun i => if i ∈ ids then none else p.partIdToVessel i
               subsets := { p.subsets with prepared := p.subsets.prepared.filter (· ∉ ids) } } := by
  induction ids generalizing p with
  | nil => simp
  | cons a ids ih =>
    rw [List.foldl_cons, ih]
    unfold Plugin.destroyPart
    congr 1
    · funext i
      simp only
      by_cases h1 : i ∈ ids
      · rw [if_pos h1, if_pos (List.mem_cons_of_mem _ h1)]
      · rw [if_neg h1]
        by_cases h2 : i = a
        · subst h2
          rw [update_eq, if_pos List.mem_cons_self]
        · rw [update_ne _ _ h2, if_neg (by rw [List.mem_cons]; rintro (hc | hc); exacts [h2 hc, h1 hc])]
    · simp only
      congr 1
      rw [List.filter_filter]
      congr 1
      funext i
      simp only [List.mem_cons, not_or, decide_not, Bool.decide_and, Bool.and_comm]

/-- The identifiers of the parts of a vessel. -/
theorem mem_ids {p : Plugin δ} (h : Consistent p) {q : ℕ} {v : Vessel δ} (hq : p.heap q = some v) (i : ℕ) : i ∈ (v.parts.map fun x => x.2.id) ↔ p.partIdToVessel i = some q := by
  have hok := h.ok q v hq
  constructor
  · intro hi
    obtain ⟨y, hy, rfl⟩ := List.mem_map.1 hi
    rw [hok.ids y hy]
    exact h.partOwned q v y.1 y.2 hq (Map.find_of_mem hok.keys hy)
  · intro hi
    obtain ⟨v', x, a, b⟩ := h.partAlive i q hi
    rw [hq] at a
    cases a
    exact List.mem_map.2 ⟨(i, x), Map.mem_of_find b, h.part_id hq b⟩

theorem part_vessel {p : Plugin δ} (h : Consistent p) {q : ℕ} {v : Vessel δ} (hq : p.heap q = some v) {i : ℕ} : (∃ x, p.view.part i = some x ∧ x.vessel = v.guid) ↔ p.partIdToVessel i = some q := by
  constructor
  · rintro ⟨x, e, hx⟩
    obtain ⟨q', v', y, h1, h2, h3, rfl⟩ := h.part_some e
    rw [h1, h.inj h2 hq hx]
  · intro e
    obtain ⟨v', x, a, b⟩ := h.partAlive i q e
    rw [hq] at a
    cases a
    exact ⟨_, h.part_eq hq b, rfl⟩

theorem removeVessel_spec {p : Plugin δ} (h : Consistent p) {q : ℕ} {v : Vessel δ} (hq : p.heap q = some v) (hk : q ∉ p.kept) :
    Consistent (p.removeVessel q v) ∧ (p.removeVessel q v).view = p.view.removeG (· = v.guid) ∧ (p.removeVessel q v).kept = p.kept ∧
      ∀ q', q' ≠ q → (p.removeVessel q v).heap q' = p.heap q' := by
  have e : p.removeVessel q v = { p with loaded := p.loaded.filter (· ≠ q)
                                         target := if p.target = some q then none else p.target
                                         zombies := update p.zombies v.guid (some v.prediction)
                                         vessels := p.vessels.erase v.guid
                                         partIdToVessel := fun i => if i ∈ (v.parts.map fun x => x.2.id) then none else p.partIdToVessel i
                                         subsets := { p.subsets with prepared := p.subsets.prepared.filter (· ∉ (v.parts.map fun x => x.2.id)) }
                                         heap := update p.heap q none } := by
    unfold Plugin.removeVessel
    simp only [foldl_destroyPart]
  set p' := p.removeVessel q v with hp'
  have hhe : p'.heap q = none := by rw [e]; exact update_eq _ _ _
  have hhn : ∀ q', q' ≠ q → p'.heap q' = p.heap q' := fun q' hc => by rw [e]; exact update_ne _ _ hc
  have hh : ∀ q' v', p'.heap q' = some v' → q' ≠ q ∧ p.heap q' = some v' := by
    intro q' v' e'
    by_cases hc : q' = q
    · rw [hc, hhe] at e'; cases e'
    · exact ⟨hc, (hhn q' hc) ▸ e'⟩
  have hvf : ∀ b, p'.vessels.find b = if b = v.guid then none else p.vessels.find b := fun b => by rw [e]; exact Map.find_erase _ _ _
  have hpf : ∀ i, p'.partIdToVessel i = if p.partIdToVessel i = some q then none else p.partIdToVessel i := by
    intro i
    rw [e]
    change (if i ∈ (v.parts.map fun x => x.2.id) then none else p.partIdToVessel i) = _
    simp only [mem_ids h hq]
  have hpf' : ∀ i q', p'.partIdToVessel i = some q' ↔ q' ≠ q ∧ p.partIdToVessel i = some q' := by
    intro i q'
    rw [hpf]
    by_cases hc : p.partIdToVessel i = some q
    · rw [if_pos hc, hc]
      constructor
      · intro hx; cases hx
      · rintro ⟨h1, h2⟩; exact absurd (Option.some.inj h2).symm h1
    · rw [if_neg hc]
      constructor
      · intro hx; exact ⟨fun hy => hc (hy ▸ hx), hx⟩
      · exact And.right
  have hfind : ∀ b q', p'.vessels.find b = some q' → q' ≠ q ∧ p.vessels.find b = some q' := by
    intro b q' hb
    rw [hvf] at hb
    by_cases hc : b = v.guid
    · rw [if_pos hc] at hb; cases hb
    · rw [if_neg hc] at hb
      refine ⟨?_, hb⟩
      rintro rfl
      obtain ⟨v', h1, h2⟩ := h.alive b _ hb
      rw [hq] at h1
      cases h1
      exact hc h2.symm
  have hl : p'.loaded = p.loaded.filter (· ≠ q) := by rw [e]
  have ht : p'.target = if p.target = some q then none else p.target := by rw [e]
  have hk' : p'.kept = p.kept := by rw [e]
  have hpr : ∀ i, i ∈ p'.subsets.prepared ↔ i ∈ p.subsets.prepared ∧ p.partIdToVessel i ≠ some q := by
    intro i
    rw [e]
    change i ∈ p.subsets.prepared.filter _ ↔ _
    rw [List.mem_filter, decide_eq_true_iff, mem_ids h hq]
  have hcons : Consistent p' := by
    refine ⟨?_, ?_, ?_, ?_, ?_, ?_, ?_, ?_, ?_, ?_, ?_, ?_⟩
    · rw [e]; exact Map.keys_filter h.keys _
    · intro b q' hb
      obtain ⟨h1, h2⟩ := hfind b q' hb
      obtain ⟨v', h3, h4⟩ := h.alive b q' h2
      exact ⟨v', (hhn q' h1).trans h3, h4⟩
    · intro q' v' hv'
      obtain ⟨h1, h2⟩ := hh q' v' hv'
      rw [hvf, if_neg (fun hc => h1 (h.inj h2 hq hc))]
      exact h.owned q' v' h2
    · intro q' v' hv'
      rw [show p'.next = p.next by rw [e]]
      exact h.fresh q' v' (hh q' v' hv').2
    · intro i q' hi
      obtain ⟨h1, h2⟩ := (hpf' i q').1 hi
      obtain ⟨v', x, h3, h4⟩ := h.partAlive i q' h2
      exact ⟨v', x, (hhn q' h1).trans h3, h4⟩
    · intro q' v' i x hv' hx
      obtain ⟨h1, h2⟩ := hh q' v' hv'
      exact (hpf' i q').2 ⟨h1, h.partOwned q' v' i x h2 hx⟩
    · intro q' v' hv'
      exact h.ok q' v' (hh q' v' hv').2
    · intro q' hq'
      rw [hk'] at hq'
      rw [hhn q' (fun hc => hk (hc ▸ hq'))]
      exact h.kept q' hq'
    · intro q' hq'
      rw [hl, List.mem_filter, decide_eq_true_iff] at hq'
      rw [hhn q' hq'.2]
      exact h.loaded q' hq'.1
    · rw [hl]; exact h.loadedNodup.filter _
    · intro q' hq'
      rw [ht] at hq'
      by_cases hc : p.target = some q
      · rw [if_pos hc] at hq'; cases hq'
      · rw [if_neg hc] at hq'
        rw [hhn q' (fun hx => hc (hx ▸ hq'))]
        exact h.target q' hq'
    · intro i hi
      obtain ⟨h1, h2⟩ := (hpr i).1 hi
      rw [hpf, if_neg h2]
      exact h.prepared i h1
  refine ⟨hcons, ?_, hk', hhn⟩
  refine Game.ext ?_ ?_ ?_ ?_ ?_ ?_ ?_ ?_ ?_
  · change p'.currentTime = p.currentTime; rw [e]
  · change p'.celestials = p.celestials; rw [e]
  · funext b
    change _ = pick (b = v.guid) none (p.view.vessel b)
    rw [view_vessel, hvf]
    by_cases hb : b = v.guid
    · rw [if_pos hb, pick_pos hb]; rfl
    · rw [if_neg hb, pick_neg hb, view_vessel]
      cases hf : p.vessels.find b with
      | none => rfl
      | some q' =>
        have hne : q' ≠ q := (hfind b q' (by rw [hvf, if_neg hb, hf])).1
        rw [Option.bind_some, Option.bind_some, hhn q' hne]
        congr 1
        funext w
        unfold Vessel.state
        rw [hk', hl]
        simp [List.mem_filter, hne]
  · funext i
    change _ = (p.view.part i).bind fun x => pick (x.vessel = v.guid) none (some x)
    rw [view_part, hpf]
    by_cases hc : p.partIdToVessel i = some q
    · rw [if_pos hc]
      obtain ⟨x, h1, h2⟩ := (part_vessel h hq).2 hc
      rw [h1, Option.bind_some, pick_pos h2]
      rfl
    · rw [if_neg hc]
      cases hf : p.partIdToVessel i with
      | none => rw [h.part_none.2 hf]; rfl
      | some q' =>
        obtain ⟨v', x, a, b⟩ := h.partAlive i q' hf
        have hne : q' ≠ q := by rintro rfl; exact hc hf
        have hpe := h.part_eq a b
        rw [Option.bind_some, hhn q' hne, a, Option.bind_some, b, hpe, Option.bind_some, pick_neg (show ¬(x.state v' i).vessel = v.guid from fun hx => hne (h.inj a hq hx))]
        rfl
  · funext b
    change p'.zombies b = pick (b = v.guid) (match p.view.vessel b with | some v => some v.prediction | none => p.zombies b) (p.zombies b)
    rw [show p'.zombies = update p.zombies v.guid (some v.prediction) by rw [e]]
    by_cases hb : b = v.guid
    · subst hb
      rw [update_eq, pick_pos rfl, h.vessel_eq hq]
      rfl
    · rw [update_ne _ _ hb, pick_neg hb]
  · change (p'.target.bind fun q => (p'.heap q).map Vessel.guid) = (p.target.bind fun q => (p.heap q).map Vessel.guid).bind fun b => pick (b = v.guid) none (some b)
    rw [ht]
    cases hf : p.target with
    | none => rfl
    | some q' =>
      obtain ⟨v', a⟩ := Option.isSome_iff_exists.1 (h.target q' hf)
      by_cases hc : q' = q
      · subst hc
        rw [if_pos rfl, Option.bind_some, hq, Option.map_some, Option.bind_some, pick_pos rfl]
        rfl
      · rw [if_neg (fun hx => hc (Option.some.inj hx)), Option.bind_some, Option.bind_some, hhn q' hc, a, Option.map_some, Option.bind_some, pick_neg (fun hx => hc (h.inj a hq hx))]
  · funext i
    change (i ∈ p'.subsets.prepared) = (i ∈ p.subsets.prepared ∧ ∀ x, p.view.part i = some x → ¬x.vessel = v.guid)
    rw [hpr]
    refine propext (and_congr_right fun _ => ?_)
    rw [Ne, ← part_vessel h hq]
    push Not
    rfl
  · change p'.subsets.contacts = p.subsets.contacts; rw [e]
  · change p'.subsets.ground = p.subsets.ground; rw [e]

/-- The vessel pointed to has this GUID. -/
def HasGuid (p : Plugin δ) (q : ℕ) (guid : String) : Prop := ∃ v, p.heap q = some v ∧ v.guid = guid

theorem kept_iff {p : Plugin δ} (h : Consistent p) {q : ℕ} {v : Vessel δ} (hq : p.heap q = some v) : p.view.Kept v.guid ↔ q ∈ p.kept := by
  unfold Game.Kept
  rw [h.vessel_eq hq]
  constructor
  · rintro ⟨w, e, hw⟩
    cases e
    exact of_decide_eq_true hw
  · intro hl
    exact ⟨_, rfl, decide_eq_true hl⟩

theorem parts_ne_nil {p : Plugin δ} (h : Consistent p) {q : ℕ} {v : Vessel δ} (hq : p.heap q = some v) : (∃ i x, p.view.part i = some x ∧ x.vessel = v.guid) ↔ v.parts ≠ [] := by
  constructor
  · rintro ⟨i, hx⟩ hn
    have := (mem_ids h hq i).2 ((part_vessel h hq).1 hx)
    rw [hn] at this
    cases this
  · intro hn
    obtain ⟨y, hy⟩ := List.exists_mem_of_ne_nil _ hn
    exact ⟨y.2.id, (part_vessel h hq).2 ((mem_ids h hq _).1 (List.mem_map.2 ⟨y, hy, rfl⟩))⟩

theorem keepOrRemove_pos (Δt : ℚ) (p : Plugin δ) (a : String × ℕ) (h : Consistent p) (hI : HasGuid p a.2 a.1)
    (hC : p.view.Kept a.1 → ∃ i x, p.view.part i = some x ∧ x.vessel = a.1) :
    ∃ p', p.keepOrRemove Δt a = some p' ∧ Consistent p' ∧ p'.view = p.view.keepG Δt (· = a.1) ∧ ∀ b : String × ℕ, HasGuid p b.2 b.1 → b.1 ≠ a.1 → HasGuid p' b.2 b.1 := by
  obtain ⟨b, q⟩ := a
  obtain ⟨v, hq, rfl⟩ := hI
  simp only at hC ⊢
  unfold Plugin.keepOrRemove
  rw [show p.vesselAt q = some v from hq, Option.bind_some]
  by_cases hk : q ∈ p.kept
  · have hkept := (kept_iff h hq).2 hk
    have hne := (parts_ne_nil h hq).1 (hC hkept)
    simp only [if_pos hk]
    unfold Vessel.createTrajectoryIfNeeded
    rw [if_neg hne, Option.map_some]
    set t : ℚ := if q ∈ p.loaded then p.currentTime - Δt else p.currentTime with ht
    set w : Vessel δ := if v.start.isNone then { v with start := some t } else v with hw
    have hwe : w = { v with start := v.start.or (some t) } := by
      rw [hw]
      obtain ⟨g, n, pa, a, b, c, d, e⟩ := v
      cases b <;> rfl
    rw [hwe]
    obtain ⟨h1, h2⟩ := setVessel_spec (w := { v with start := v.start.or (some t) }) h hq rfl rfl rfl
    have h3 := flags_spec (kept := p.kept.filter (· ≠ q)) (loaded := p.loaded) h1 (fun q' hq' => h1.kept q' (List.mem_filter.1 hq').1) h1.loaded h1.loadedNodup
    set p1 := p.setVessel q { v with start := v.start.or (some t) } with hp1
    refine ⟨_, rfl, h3, ?_, ?_⟩
    · have hp1v : ∀ b, b ≠ v.guid → p1.view.vessel b = p.view.vessel b := by
        intro b hb
        rw [h2]
        exact update_ne _ _ hb
      refine Game.ext rfl rfl ?_ ?_ ?_ ?_ ?_ rfl rfl
      · funext b
        change _ = pick (b = v.guid) ((p.view.vessel b).bind _) (p.view.vessel b)
        have hq1 : p1.heap q = some { v with start := v.start.or (some t) } := update_eq _ _ _
        by_cases hb : b = v.guid
        · subst hb
          rw [pick_pos rfl, h.vessel_eq hq, Option.bind_some, pick_pos (show (v.state p q).kept = true from decide_eq_true hk)]
          rw [view_vessel]
          change (p1.vessels.find v.guid).bind _ = _
          rw [h1.owned q _ hq1, Option.bind_some]
          change (p1.heap q).map _ = _
          rw [hq1, Option.map_some]
          unfold Vessel.state
          simp only [Option.some.injEq, VesselState.mk.injEq, true_and]
          refine ⟨?_, ?_, rfl⟩
          · rw [ht]
            by_cases hl : q ∈ p.loaded
            · simp [hl]; rfl
            · simp [hl]; rfl
          · simp
        · rw [pick_neg hb, ← hp1v b hb, view_vessel, view_vessel]
          change (p1.vessels.find b).bind _ = _
          cases hf : p1.vessels.find b with
          | none => rfl
          | some q' =>
            obtain ⟨v', c, d⟩ := h1.alive b q' hf
            have hne' : q' ≠ q := by
              rintro rfl
              rw [hq1] at c
              cases c
              exact hb d.symm
            rw [Option.bind_some, Option.bind_some]
            change (p1.heap q').map _ = _
            congr 1
            funext u
            unfold Vessel.state
            simp [hne']
            rfl
      · funext i
        change p1.view.part i = (p.view.part i).bind _
        rw [show p1.view.part i = p.view.part i by rw [h2]]
        cases p.view.part i with
        | none => rfl
        | some x =>
          rw [Option.bind_some, pick_neg]
          rintro ⟨h4, h5⟩
          rw [h4] at h5
          exact h5 hkept
      · funext b
        change p.zombies b = pick (b = v.guid) (match p.view.vessel b with | some v => pick v.kept (p.zombies b) (some v.prediction) | none => p.zombies b) (p.zombies b)
        by_cases hb : b = v.guid
        · subst hb
          rw [pick_pos rfl, h.vessel_eq hq]
          exact (pick_pos (show (v.state p q).kept = true from decide_eq_true hk)).symm
        · rw [pick_neg hb]
      · change p1.view.target = p.view.target.bind _
        rw [show p1.view.target = p.view.target by rw [h2]]
        cases p.view.target with
        | none => rfl
        | some x =>
          rw [Option.bind_some, pick_neg]
          rintro ⟨h4, h5⟩
          rw [h4] at h5
          exact h5 hkept
      · funext i
        change p.view.prepared i = (p.view.prepared i ∧ ∀ x, p.view.part i = some x → ¬(x.vessel = v.guid ∧ ¬p.view.Kept x.vessel))
        refine propext ⟨fun hp => ⟨hp, ?_⟩, And.left⟩
        rintro x - ⟨h4, h5⟩
        rw [h4] at h5
        exact h5 hkept
    · rintro ⟨b, q'⟩ ⟨v', c, d⟩ hb
      simp only at c d hb ⊢
      have hne' : q' ≠ q := by
        rintro rfl
        rw [hq] at c
        cases c
        exact hb d.symm
      exact ⟨v', (update_ne _ _ hne').trans c, d⟩
  · have hkept : ¬p.view.Kept v.guid := fun hc => hk ((kept_iff h hq).1 hc)
    simp only [if_neg hk]
    obtain ⟨h1, h2, h3, h4⟩ := removeVessel_spec h hq hk
    refine ⟨_, rfl, h1, ?_, ?_⟩
    · rw [h2]
      refine Game.ext rfl rfl ?_ ?_ ?_ ?_ ?_ rfl rfl
      · funext b
        change pick (b = v.guid) none (p.view.vessel b) = pick (b = v.guid) ((p.view.vessel b).bind _) (p.view.vessel b)
        by_cases hb : b = v.guid
        · subst hb
          rw [pick_pos rfl, pick_pos rfl, h.vessel_eq hq, Option.bind_some, pick_neg]
          intro hc
          exact hk (of_decide_eq_true hc)
        · rw [pick_neg hb, pick_neg hb]
      · funext i
        change (p.view.part i).bind _ = (p.view.part i).bind _
        congr 1
        funext x
        by_cases hx : x.vessel = v.guid
        · rw [pick_pos hx, pick_pos ⟨hx, hx ▸ hkept⟩]
        · rw [pick_neg hx, pick_neg (fun hc => hx hc.1)]
      · funext b
        change pick (b = v.guid) (match p.view.vessel b with | some v => some v.prediction | none => p.zombies b) (p.zombies b) =
          pick (b = v.guid) (match p.view.vessel b with | some v => pick v.kept (p.zombies b) (some v.prediction) | none => p.zombies b) (p.zombies b)
        by_cases hb : b = v.guid
        · subst hb
          rw [pick_pos rfl, pick_pos rfl, h.vessel_eq hq]
          refine (pick_neg ?_).symm
          intro hc
          exact hk (of_decide_eq_true hc)
        · rw [pick_neg hb, pick_neg hb]
      · change p.view.target.bind _ = p.view.target.bind _
        congr 1
        funext x
        by_cases hx : x = v.guid
        · rw [pick_pos hx, pick_pos ⟨hx, hx ▸ hkept⟩]
        · rw [pick_neg hx, pick_neg (fun hc => hx hc.1)]
      · funext i
        change (p.view.prepared i ∧ ∀ x, p.view.part i = some x → ¬x.vessel = v.guid) = (p.view.prepared i ∧ ∀ x, p.view.part i = some x → ¬(x.vessel = v.guid ∧ ¬p.view.Kept x.vessel))
        refine propext (and_congr_right fun _ => forall_congr' fun x => forall_congr' fun _ => ?_)
        constructor
        · exact fun hx hc => hx hc.1
        · intro hx hc
          exact hx ⟨hc, hc ▸ hkept⟩
    · rintro ⟨b, q'⟩ ⟨v', c, d⟩ hb
      simp only at c d hb ⊢
      have hne' : q' ≠ q := by
        rintro rfl
        rw [hq] at c
        cases c
        exact hb d.symm
      exact ⟨v', (h4 q' hne').trans c, d⟩

theorem keepOrRemove_neg (Δt : ℚ) (p : Plugin δ) (a : String × ℕ) (h : Consistent p) (hI : HasGuid p a.2 a.1)
    (hC : ¬(p.view.Kept a.1 → ∃ i x, p.view.part i = some x ∧ x.vessel = a.1)) : p.keepOrRemove Δt a = none := by
  obtain ⟨b, q⟩ := a
  obtain ⟨v, hq, rfl⟩ := hI
  simp only at hC
  obtain ⟨h1, h2⟩ := Classical.not_imp.1 hC
  have hk := (kept_iff h hq).1 h1
  have hn : v.parts = [] := by
    by_contra hc
    exact h2 ((parts_ne_nil h hq).2 hc)
  unfold Plugin.keepOrRemove
  rw [show p.vesselAt q = some v from hq, Option.bind_some]
  simp only [if_pos hk]
  unfold Vessel.createTrajectoryIfNeeded
  rw [if_pos hn]
  rfl

theorem keptParts_iff {p : Plugin δ} (h : Consistent p) {q : ℕ} {v : Vessel δ} (hq : p.heap q = some v) :
    (∃ i x, p.view.part i = some x ∧ x.vessel = v.guid ∧ x.kept) ↔ (v.parts.filter fun x => x.2.id ∈ v.keptParts) ≠ [] := by
  have hok := h.ok q v hq
  constructor
  · rintro ⟨i, x, h1, h2, h3⟩ hn
    have hi := (part_vessel h hq).1 ⟨x, h1, h2⟩
    obtain ⟨v', y, a, b⟩ := h.partAlive i q hi
    rw [hq] at a
    cases a
    rw [h.part_eq hq b] at h1
    cases h1
    have : (i, y) ∈ v.parts.filter fun x => x.2.id ∈ v.keptParts := by
      rw [List.mem_filter, decide_eq_true_iff]
      refine ⟨Map.mem_of_find b, ?_⟩
      simp only
      rw [h.part_id hq b]
      exact of_decide_eq_true h3
    rw [hn] at this
    cases this
  · intro hn
    obtain ⟨y, hy⟩ := List.exists_mem_of_ne_nil _ hn
    rw [List.mem_filter, decide_eq_true_iff] at hy
    have hf := Map.find_of_mem hok.keys (show (y.1, y.2) ∈ v.parts from hy.1)
    refine ⟨y.1, _, h.part_eq hq hf, rfl, decide_eq_true ?_⟩
    rw [← hok.ids y hy.1]
    exact hy.2

theorem freeParts_pos (p : Plugin δ) (q : ℕ) (h : Consistent p) {v : Vessel δ} (hq : p.heap q = some v)
    (hC : ∃ i x, p.view.part i = some x ∧ x.vessel = v.guid ∧ x.kept) :
    ∃ p', p.freeParts q = some p' ∧ Consistent p' ∧ p'.view = p.view.freeG (· = v.guid) ∧ ∀ q' b, HasGuid p q' b → HasGuid p' q' b := by
  have hok := h.ok q v hq
  have hne := (keptParts_iff h hq).1 hC
  set w : Vessel δ := { v with parts := v.parts.filter fun x => x.2.id ∈ v.keptParts, keptParts := [] } with hw
  set ids := (v.parts.filter fun x => x.2.id ∉ v.keptParts).map fun x => x.2.id with hids
  have hmem : ∀ i, i ∈ ids ↔ p.partIdToVessel i = some q ∧ i ∉ v.keptParts := by
    intro i
    rw [hids, ← mem_ids h hq, List.mem_map, List.mem_map]
    constructor
    · rintro ⟨y, hy, rfl⟩
      rw [List.mem_filter, decide_eq_true_iff] at hy
      exact ⟨⟨y, hy.1, rfl⟩, hy.2⟩
    · rintro ⟨⟨y, hy, rfl⟩, hk⟩
      exact ⟨y, List.mem_filter.2 ⟨hy, decide_eq_true hk⟩, rfl⟩
  have e : p.freeParts q = some ((ids.foldl Plugin.destroyPart p).setVessel q w) := by
    unfold Plugin.freeParts
    rw [show p.vesselAt q = some v from hq, Option.bind_some]
    unfold Vessel.freeParts
    rw [if_pos hok.length]
    simp only [if_neg hne, Option.map_some]
    rfl
  rw [foldl_destroyPart] at e
  set p' : Plugin δ := Plugin.setVessel { p with partIdToVessel := fun i => if i ∈ ids then none else p.partIdToVessel i
                                                 subsets := { p.subsets with prepared := p.subsets.prepared.filter (· ∉ ids) } } q w with hp'
  have he : p'.heap q = some w := update_eq _ _ _
  have hn : ∀ q', q' ≠ q → p'.heap q' = p.heap q' := fun q' hc => update_ne _ _ hc
  have hpf : ∀ i, p'.partIdToVessel i = if i ∈ ids then none else p.partIdToVessel i := fun i => rfl
  have hwf : ∀ i, w.parts.find i = if i ∈ v.keptParts then v.parts.find i else none := by
    intro i
    have e1 : w.parts = v.parts.filter fun y => decide (y.1 ∈ v.keptParts) := by
      rw [hw]
      refine List.filter_congr fun y hy => ?_
      rw [hok.ids y hy]
    rw [e1]
    refine (Map.find_filter (fun z : ℕ => decide (z ∈ v.keptParts)) v.parts i).trans ?_
    simp
  have hsv : Consistent p' ∧ p'.view.vessel = p.view.vessel ∧ p'.view.target = p.view.target := by
    refine same_vessels h rfl rfl rfl rfl rfl ?_ ?_ ?_ ?_ ?_
    · intro q'
      by_cases hcq : q' = q
      · subst hcq; rw [he, hq]; rfl
      · rw [hn q' hcq]
    · intro i q' ei
      rw [hpf] at ei
      by_cases hi : i ∈ ids
      · rw [if_pos hi] at ei; cases ei
      · rw [if_neg hi] at ei
        obtain ⟨v', x, a, b⟩ := h.partAlive i q' ei
        by_cases hcq : q' = q
        · subst hcq
          rw [hq] at a
          cases a
          have hk : i ∈ v.keptParts := by
            by_contra hc
            exact hi ((hmem i).2 ⟨ei, hc⟩)
          exact ⟨w, x, he, by rw [hwf, if_pos hk]; exact b⟩
        · exact ⟨v', x, (hn q' hcq).trans a, b⟩
    · intro q' v' i x e' hx
      rw [hpf]
      by_cases hcq : q' = q
      · subst hcq
        rw [he] at e'
        cases e'
        rw [hwf] at hx
        by_cases hk : i ∈ v.keptParts
        · rw [if_pos hk] at hx
          rw [if_neg (fun hi => ((hmem i).1 hi).2 hk)]
          exact h.partOwned _ v i x hq hx
        · rw [if_neg hk] at hx; cases hx
      · rw [hn q' hcq] at e'
        have := h.partOwned q' v' i x e' hx
        rw [if_neg]
        · exact this
        · intro hi
          have := ((hmem i).1 hi).1.symm.trans this
          exact hcq (Option.some.inj this).symm
    · intro q' v' e'
      by_cases hcq : q' = q
      · subst hcq
        rw [he] at e'
        cases e'
        exact ⟨Map.keys_filter hok.keys _, fun y hy => hok.ids y (List.mem_filter.1 hy).1, List.nodup_nil, fun i hi => by cases hi⟩
      · rw [hn q' hcq] at e'
        exact h.ok q' v' e'
    · intro i hi
      change i ∈ p.subsets.prepared.filter _ at hi
      rw [List.mem_filter, decide_eq_true_iff] at hi
      rw [hpf, if_neg hi.2]
      exact h.prepared i hi.1
  obtain ⟨h1, h2, h3⟩ := hsv
  refine ⟨p', e, h1, ?_, ?_⟩
  · refine Game.ext rfl rfl h2 ?_ rfl h3 ?_ rfl rfl
    · funext i
      change _ = (p.view.part i).bind fun x => pick (x.vessel = v.guid) (pick x.kept (some { x with kept := false }) none) (some x)
      rw [view_part, hpf]
      cases hf : p.partIdToVessel i with
      | none =>
        rw [h.part_none.2 hf]
        by_cases hi : i ∈ ids
        · rw [if_pos hi]; rfl
        · rw [if_neg hi]; rfl
      | some q' =>
        obtain ⟨v', x, a, b⟩ := h.partAlive i q' hf
        rw [h.part_eq a b, Option.bind_some]
        by_cases hcq : q' = q
        · subst hcq
          rw [hq] at a
          cases a
          rw [pick_pos (show (x.state v i).vessel = v.guid from rfl)]
          by_cases hk : i ∈ v.keptParts
          · rw [if_neg (fun hi => ((hmem i).1 hi).2 hk), Option.bind_some, he, Option.bind_some, hwf, if_pos hk, b, Option.map_some,
              pick_pos (show (x.state v i).kept = true from decide_eq_true hk)]
            unfold Part.state
            simp [hw]
          · rw [if_pos ((hmem i).2 ⟨hf, hk⟩), pick_neg (show ¬(x.state v i).kept = true from fun hc => hk (of_decide_eq_true hc))]
            rfl
        · have hi : i ∉ ids := fun hi => hcq (Option.some.inj (hf.symm.trans ((hmem i).1 hi).1))
          rw [if_neg hi, Option.bind_some, hn q' hcq, a, Option.bind_some, b, pick_neg (show ¬(x.state v' i).vessel = v.guid from fun hx => hcq (h.inj a hq hx))]
          rfl
    · funext i
      change (i ∈ p.subsets.prepared.filter _) = (i ∈ p.subsets.prepared ∧ ∀ x, p.view.part i = some x → x.vessel = v.guid → x.kept)
      rw [List.mem_filter, decide_eq_true_iff, hmem]
      refine propext (and_congr_right fun _ => ?_)
      constructor
      · intro hh x h4 h5
        have h6 := (part_vessel h hq).1 ⟨x, h4, h5⟩
        obtain ⟨v', y, a, b⟩ := h.partAlive i q h6
        rw [hq] at a
        cases a
        rw [h.part_eq hq b] at h4
        cases h4
        refine decide_eq_true ?_
        by_contra hc
        exact hh ⟨h6, hc⟩
      · rintro hh ⟨h6, hc⟩
        obtain ⟨v', y, a, b⟩ := h.partAlive i q h6
        rw [hq] at a
        cases a
        exact hc (of_decide_eq_true (hh _ (h.part_eq hq b) rfl))
  · rintro q' b ⟨v', c, d⟩
    by_cases hcq : q' = q
    · subst hcq
      rw [hq] at c
      cases c
      exact ⟨w, he, d⟩
    · exact ⟨v', (hn q' hcq).trans c, d⟩

theorem freeParts_neg (p : Plugin δ) (q : ℕ) (h : Consistent p) {v : Vessel δ} (hq : p.heap q = some v)
    (hC : ¬∃ i x, p.view.part i = some x ∧ x.vessel = v.guid ∧ x.kept) : p.freeParts q = none := by
  have hn : (v.parts.filter fun x => x.2.id ∈ v.keptParts) = [] := by
    by_contra hc
    exact hC ((keptParts_iff h hq).2 hc)
  unfold Plugin.freeParts
  rw [show p.vesselAt q = some v from hq, Option.bind_some]
  unfold Vessel.freeParts
  rw [if_pos (h.ok q v hq).length]
  simp only [if_pos hn]
  rfl

end Principia.Ksp.Lifecycle
