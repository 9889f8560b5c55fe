import Verif.Base.DisjointSetsLemmas

/-!
# C07: disjoint sets compute connectivity
-/

set_option linter.unusedSectionVars false

namespace Principia.DisjointSets

variable {α P G : Type} [DecidableEq α]

/-- A call made by a client: a query, or a union of the subsets of two elements (the Boolean is the order of evaluation
of the operands chosen by the compiler). -/
inductive Op (α : Type)
  | find (a : α)
  | unite (rightFirst : Bool) (a b : α)

/-- The execution of a sequence of calls; `none` is a failed check in `merge` or a stack of depth more than `fuel`. -/
def run (merge : Merge P G) (fuel : Nat) : State α P G → List (Op α) → Option (State α P G)
  | s, [] => some s
  | s, .find a :: ops => (find fuel s a).bind fun x => run merge fuel x.1 ops
  | s, .unite rf a b :: ops => (uniteElements merge fuel rf s a b).bind fun s => run merge fuel s ops

/-- Specification: connectivity by the unions that were requested. -/
inductive Connected (ops : List (Op α)) : α → α → Prop
  | refl (x : α) : Connected ops x x
  | union {rf : Bool} {x y : α} : Op.unite rf x y ∈ ops → Connected ops x y
  | symm {x y : α} : Connected ops x y → Connected ops y x
  | trans {x y z : α} : Connected ops x y → Connected ops y z → Connected ops x z

theorem Connected.mono {ops ops' : List (Op α)} (h : ∀ o ∈ ops, o ∈ ops') {x y : α} (c : Connected ops x y) :
    Connected ops' x y := by
  induction c with
  | refl x => exact .refl x
  | union hm => exact .union (h _ hm)
  | symm _ ih => exact .symm ih
  | trans _ _ ih1 ih2 => exact .trans ih1 ih2

theorem connected_find (ops : List (Op α)) (a : α) (x y : α) :
    Connected (ops ++ [.find a]) x y ↔ Connected ops x y := by
  constructor
  · intro c
    induction c with
    | refl x => exact .refl x
    | union hm => exact .union (by simpa using hm)
    | symm _ ih => exact .symm ih
    | trans _ _ ih1 ih2 => exact .trans ih1 ih2
  · exact Connected.mono (by simp +contextual)

theorem connected_unite (ops : List (Op α)) (rf : Bool) (a b : α) (x y : α) :
    Connected (ops ++ [.unite rf a b]) x y ↔ join (Connected ops) a b x y := by
  constructor
  · intro c
    induction c with
    | refl x => exact Or.inl (.refl x)
    | @union rf' x y hm =>
      rcases List.mem_append.1 hm with h | h
      · exact Or.inl (.union h)
      · simp at h
        obtain ⟨_, rfl, rfl⟩ := h
        exact Or.inr (Or.inl ⟨.refl _, .refl _⟩)
    | symm _ ih =>
      rcases ih with h | ⟨h1, h2⟩ | ⟨h1, h2⟩
      · exact Or.inl h.symm
      · exact Or.inr (Or.inr ⟨h2.symm, h1.symm⟩)
      · exact Or.inr (Or.inl ⟨h2.symm, h1.symm⟩)
    | trans _ _ ih1 ih2 =>
      rcases ih1 with h | ⟨h1, h2⟩ | ⟨h1, h2⟩ <;> rcases ih2 with g | ⟨g1, g2⟩ | ⟨g1, g2⟩
      · exact Or.inl (h.trans g)
      · exact Or.inr (Or.inl ⟨h.trans g1, g2⟩)
      · exact Or.inr (Or.inr ⟨h.trans g1, g2⟩)
      · exact Or.inr (Or.inl ⟨h1, h2.trans g⟩)
      · exact Or.inr (Or.inl ⟨h1, g2⟩)
      · exact Or.inl (h1.trans g2)
      · exact Or.inr (Or.inr ⟨h1, h2.trans g⟩)
      · exact Or.inl (h1.trans g2)
      · exact Or.inr (Or.inr ⟨h1, g2⟩)
  · have hm : ∀ {x y}, Connected ops x y → Connected (ops ++ [.unite rf a b]) x y :=
      fun c => c.mono (by simp +contextual)
    have hab : Connected (ops ++ [.unite rf a b]) a b := .union (rf := rf) (by simp)
    rintro (h | ⟨h1, h2⟩ | ⟨h1, h2⟩)
    · exact hm h
    · exact ((hm h1).trans hab).trans (hm h2)
    · exact ((hm h1).trans hab.symm).trans (hm h2)

theorem run_append (merge : Merge P G) (fuel : Nat) (s : State α P G) (ops ops' : List (Op α)) :
    run merge fuel s (ops ++ ops') = (run merge fuel s ops).bind fun s => run merge fuel s ops' := by
  induction ops generalizing s with
  | nil => rfl
  | cons o ops ih =>
    cases o with
    | find a =>
      simp only [List.cons_append, run]
      cases find fuel s a with
      | none => rfl
      | some x => exact ih _
    | unite rf a b =>
      simp only [List.cons_append, run]
      cases uniteElements merge fuel rf s a b with
      | none => rfl
      | some x => exact ih _

/-- The state in which every element has just been made a singleton. -/
def Singletons (mk : α → G → P) (s : State α P G) : Prop :=
  ∀ x, s.parent x = x ∧ s.rank x = 0 ∧ s.props x = mk x s.world

theorem makeSingletons (mk : α → G → P) (elements : List α) (s : State α P G) :
    let s' := elements.foldl (makeSingleton mk) s
    s'.world = s.world ∧
    ∀ x, (x ∈ elements ∨ (s.parent x = x ∧ s.rank x = 0 ∧ s.props x = mk x s.world)) →
      s'.parent x = x ∧ s'.rank x = 0 ∧ s'.props x = mk x s.world := by
  induction elements generalizing s with
  | nil => simp
  | cons a l ih =>
    obtain ⟨h1, h2⟩ := ih (makeSingleton mk s a)
    refine ⟨h1, ?_⟩
    intro x hx
    apply h2 x
    by_cases e : x = a
    · subst e; right; simp [makeSingleton, upd]
    · rcases hx with hx | hx
      · left; simpa [e] using hx
      · right; simpa [makeSingleton, upd, e] using hx

theorem run_inv (merge : Merge P G) (hmerge : ∀ p q g, ∃ r, merge p q g = some r) (mk : α → G → P)
    (s₀ : State α P G) (h₀ : Singletons mk s₀) (ops : List (Op α)) (fuel : Nat) (hf : ops.length < fuel) :
    ∃ s, run merge fuel s₀ ops = some s ∧ Inv s (Connected ops) ops.length := by
  generalize hn : ops.length = n
  induction n generalizing ops with
  | zero =>
    have : ops = [] := List.length_eq_zero_iff.1 hn
    subst this
    refine ⟨s₀, rfl, ?_⟩
    have hi := inv_singletons s₀ (fun x => (h₀ x).1) (fun x => (h₀ x).2.1)
    have : (Connected ([] : List (Op α))) = Eq := by
      funext x y
      apply propext
      constructor
      · intro c
        induction c with
        | refl _ => rfl
        | union h => simp at h
        | symm _ ih => exact ih.symm
        | trans _ _ ih1 ih2 => exact ih1.trans ih2
      · rintro rfl; exact .refl _
    rw [this]
    exact hi
  | succ n ih =>
    rcases List.eq_nil_or_concat ops with rfl | ⟨ops', o, rfl⟩
    · simp at hn
    · simp only [List.concat_eq_append, List.length_append, List.length_singleton, Nat.add_right_cancel_iff] at hn hf ⊢
      obtain ⟨s, hs, hi⟩ := ih ops' (by omega) hn
      rw [run_append, hs]
      simp only [Option.bind_some]
      cases o with
      | find a =>
        obtain ⟨s', r, e, i, _⟩ := find_spec hi (by omega : n < fuel) a
        refine ⟨s', by simp [run, e], ?_⟩
        have : Connected (ops' ++ [Op.find a]) = Connected ops' := by
          funext x y; exact propext (connected_find ops' a x y)
        rw [this]
        exact ⟨i.ranks, fun x => Nat.le_succ_of_le (i.bound x), i.repr⟩
      | unite rf a b =>
        have hc : Connected (ops' ++ [Op.unite rf a b]) = join (Connected ops') a b := by
          funext x y; exact propext (connected_unite ops' rf a b x y)
        obtain ⟨l, r, _, _, h | h⟩ := uniteElements_spec (merge := merge) hi (by omega : n < fuel) rf a b
        · obtain ⟨hR, s', e, i, _⟩ := h
          refine ⟨s', by simp [run, e], ?_⟩
          have : join (Connected ops') a b = Connected ops' := by
            funext x y
            apply propext
            constructor
            · rintro (h | ⟨h1, h2⟩ | ⟨h1, h2⟩)
              · exact h
              · exact (h1.trans hR).trans h2
              · exact (h1.trans hR.symm).trans h2
            · exact Or.inl
          rw [hc, this]
          exact ⟨i.ranks, fun x => Nat.le_succ_of_le (i.bound x), i.repr⟩
        · obtain ⟨_, _, into, source, _, hspec⟩ := h
          obtain ⟨⟨p, q, w⟩, hm⟩ := hmerge (s.props into) (s.props source) s.world
          obtain ⟨s', e, i, _⟩ := hspec p q w hm
          refine ⟨s', by simp [run, e], ?_⟩
          rw [hc]
          exact i

/-- **C07**: after any sequence of calls, in any order, starting from singletons, every call terminates (with a stack at
most as deep as the number of calls made), and two elements are reported to be in the same subset if and only if they are
connected by the unions requested. -/
theorem C07_connectivity (merge : Merge P G) (hmerge : ∀ p q g, ∃ r, merge p q g = some r) (mk : α → G → P)
    (s₀ : State α P G) (h₀ : Singletons mk s₀) (ops : List (Op α)) (fuel : Nat) (hf : ops.length < fuel) (a b : α) :
    ∃ s sa ra sb rb, run merge fuel s₀ ops = some s ∧ find fuel s a = some (sa, ra) ∧ find fuel sa b = some (sb, rb) ∧
      (ra = rb ↔ Connected ops a b) := by
  obtain ⟨s, hs, hi⟩ := run_inv merge hmerge mk s₀ h₀ ops fuel hf
  obtain ⟨sa, ra, ea, ia, h1, _⟩ := find_spec hi hf a
  obtain ⟨sb, rb, eb, ib, h2, _, _, _, hiff⟩ := find_spec ia hf b
  refine ⟨s, sa, ra, sb, rb, hs, ea, eb, ?_⟩
  rw [ib.repr]
  have h1' := (hiff _ _).1 h1
  constructor
  · rintro rfl; exact ⟨ra, h1', h2⟩
  · rintro ⟨r, h3, h4⟩; rw [h1'.unique h3, h2.unique h4]

/-- **C07**: a query does not change the answer of any other query: the answer to a query after any sequence of calls is
the same as if the queries had been removed from the sequence. -/
theorem C07_queries_are_pure (merge : Merge P G) (hmerge : ∀ p q g, ∃ r, merge p q g = some r) (mk : α → G → P)
    (s₀ : State α P G) (h₀ : Singletons mk s₀) (ops : List (Op α)) (fuel : Nat) (hf : ops.length < fuel) (a b : α) :
    let unions := ops.filter (fun o => match o with | .find _ => false | .unite .. => true)
    ∃ s s' sa ra sb rb sa' ra' sb' rb', run merge fuel s₀ ops = some s ∧ run merge fuel s₀ unions = some s' ∧
      find fuel s a = some (sa, ra) ∧ find fuel sa b = some (sb, rb) ∧
      find fuel s' a = some (sa', ra') ∧ find fuel sa' b = some (sb', rb') ∧ (ra = rb ↔ ra' = rb') := by
  intro unions
  obtain ⟨s, sa, ra, sb, rb, h1, h2, h3, h4⟩ := C07_connectivity merge hmerge mk s₀ h₀ ops fuel hf a b
  obtain ⟨s', sa', ra', sb', rb', h1', h2', h3', h4'⟩ := C07_connectivity merge hmerge mk s₀ h₀ unions fuel
    (Nat.lt_of_le_of_lt (List.length_filter_le _ _) hf) a b
  refine ⟨s, s', sa, ra, sb, rb, sa', ra', sb', rb', h1, h1', h2, h3, h2', h3', ?_⟩
  rw [h4, h4']
  clear h2 h3 h4 h2' h3' h4'
  constructor
  · intro c
    induction c with
    | refl x => exact .refl x
    | union hm => exact .union (List.mem_filter.2 ⟨hm, rfl⟩)
    | symm _ ih => exact .symm ih
    | trans _ _ ih1 ih2 => exact .trans ih1 ih2
  · exact Connected.mono (fun o ho => (List.mem_filter.1 ho).1)

/-- The state required by the theorems is obtained by calling `MakeSingleton` on every element, whatever the previous
state of the nodes. -/
theorem C07_makeSingleton (mk : α → G → P) (elements : List α) (hall : ∀ x, x ∈ elements) (s : State α P G) :
    Singletons mk (elements.foldl (makeSingleton mk) s) := by
  obtain ⟨h1, h2⟩ := makeSingletons mk elements s
  intro x
  have := h2 x (Or.inl (hall x))
  rw [h1]
  exact this

/-- Non-vacuity: 4 elements, with unions and queries. -/
example : ∃ s sa ra sb rb,
    run (fun p _ g => some (p, p, g)) 10 ((List.finRange 4).foldl (makeSingleton (fun _ _ => ()))
      (⟨fun _ => 2, fun _ => 5, fun _ => (), ()⟩ : State (Fin 4) Unit Unit))
      [.unite true 0 1, .find 1, .unite false 2 3, .unite true 3 1] = some s ∧
    find 10 s 0 = some (sa, ra) ∧ find 10 sa 2 = some (sb, rb) ∧ ra = rb := by
  obtain ⟨s, sa, ra, sb, rb, h1, h2, h3, h4⟩ := C07_connectivity (fun p _ g => some (p, p, g)) (fun _ _ _ => ⟨_, rfl⟩)
    (fun _ _ => ()) _ (C07_makeSingleton (fun _ _ => ()) (List.finRange 4) (fun x => List.mem_finRange x)
      (⟨fun _ => 2, fun _ => 5, fun _ => (), ()⟩ : State (Fin 4) Unit Unit))
    [.unite true 0 1, .find 1, .unite false 2 3, .unite true 3 1] 10 (by decide) 0 2
  refine ⟨s, sa, ra, sb, rb, h1, h2, h3, h4.2 ?_⟩
  have e1 : Connected [Op.unite true (0 : Fin 4) 1, .find 1, .unite false 2 3, .unite true 3 1] 0 1 :=
    .union (rf := true) (by simp)
  have e2 : Connected [Op.unite true (0 : Fin 4) 1, .find 1, .unite false 2 3, .unite true 3 1] 2 3 :=
    .union (rf := false) (by simp)
  have e3 : Connected [Op.unite true (0 : Fin 4) 1, .find 1, .unite false 2 3, .unite true 3 1] 3 1 :=
    .union (rf := true) (by simp)
  exact e1.trans (e3.symm.trans e2.symm)

end Principia.DisjointSets
