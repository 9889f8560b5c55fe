import Verif.Base.DisjointSetsModel

set_option linter.unusedSectionVars false
set_option linter.unusedVariables false

namespace Principia.DisjointSets

variable {α P G : Type} [DecidableEq α]

theorem upd_self {β : Type} (f : α → β) (a : α) (v : β) : upd f a v a = v := by simp [upd]
theorem upd_ne {β : Type} (f : α → β) {a x : α} (v : β) (h : x ≠ a) : upd f a v x = f x := by simp [upd, h]

/-- Following the parents from `x` ends at the root `r`. -/
inductive Reaches (parent : α → α) : α → α → Prop
  | base {r : α} : parent r = r → Reaches parent r r
  | step {x r : α} : parent x ≠ x → Reaches parent (parent x) r → Reaches parent x r

theorem Reaches.isRoot {parent : α → α} {x r : α} (h : Reaches parent x r) : parent r = r := by
  induction h with
  | base h => exact h
  | step _ _ ih => exact ih

theorem Reaches.unique {parent : α → α} {x r r' : α} (h : Reaches parent x r) (h' : Reaches parent x r') : r = r' := by
  induction h with
  | base h =>
    cases h' with
    | base _ => rfl
    | step h1 _ => exact absurd h h1
  | step h1 h2 ih =>
    cases h' with
    | base h => exact absurd h h1
    | step _ h3 => exact ih h3

theorem Reaches.rank_le {parent : α → α} {rank : α → Nat} (hr : ∀ x, parent x ≠ x → rank x < rank (parent x)) {x r : α}
    (h : Reaches parent x r) : rank x ≤ rank r ∧ (x ≠ r → rank x < rank r) := by
  induction h with
  | base h => exact ⟨Nat.le_refl _, fun h => absurd rfl h⟩
  | step h1 h2 ih =>
    have := hr _ h1
    exact ⟨by omega, fun _ => by omega⟩

theorem Reaches.exists {parent : α → α} {rank : α → Nat} {K : Nat} (hr : ∀ x, parent x ≠ x → rank x < rank (parent x))
    (hK : ∀ x, rank x ≤ K) (x : α) : ∃ r, Reaches parent x r := by
  generalize hn : K - rank x = n
  induction n using Nat.strongRecOn generalizing x with
  | _ n ih =>
    by_cases h : parent x = x
    · exact ⟨x, .base h⟩
    · have h1 := hr x h
      have h2 := hK (parent x)
      obtain ⟨r, hr⟩ := ih (K - rank (parent x)) (by omega) (parent x) rfl
      exact ⟨r, .step h hr⟩

/-- Reparenting a node to its root preserves the roots of all the nodes. -/
theorem Reaches.compress {parent : α → α} {x r : α} (hx : Reaches parent x r) :
    ∀ y q, Reaches parent y q → Reaches (upd parent x r) y q := by
  intro y q h
  have hroot := hx.isRoot
  induction h with
  | @base q h =>
    by_cases hq : q = x
    · subst hq
      have : r = q := hx.unique (.base h)
      subst this
      exact .base (by rw [upd_self])
    · exact .base (by rw [upd_ne _ _ hq]; exact h)
  | @step y q h1 h2 ih =>
    by_cases hy : y = x
    · subst hy
      have e : r = q := hx.unique (.step h1 h2)
      subst e
      have hne : r ≠ y := by rintro rfl; exact h1 hroot
      refine .step (by rw [upd_self]; exact hne) ?_
      rw [upd_self]
      exact .base (by rw [upd_ne _ _ hne]; exact hroot)
    · refine .step (by rw [upd_ne _ _ hy]; exact h1) ?_
      rw [upd_ne _ _ hy]
      exact ih

/-- The relation between the parents before and after a `Root`: same roots, and ranks still increase. -/
structure Compressed (rank : α → Nat) (parent parent' : α → α) : Prop where
  reaches : ∀ y q, Reaches parent y q → Reaches parent' y q
  ranks : (∀ x, parent x ≠ x → rank x < rank (parent x)) → ∀ x, parent' x ≠ x → rank x < rank (parent' x)

theorem root_spec {parent : α → α} {rank : α → Nat} {K : Nat} (hr : ∀ x, parent x ≠ x → rank x < rank (parent x))
    (hK : ∀ x, rank x ≤ K) (fuel : Nat) (x : α) (hf : K - rank x < fuel) :
    ∃ parent' r, root fuel parent x = some (parent', r) ∧ Reaches parent x r ∧ Compressed rank parent parent' := by
  induction fuel generalizing x with
  | zero => omega
  | succ fuel ih =>
    rw [root]
    by_cases h : parent x = x
    · rw [if_neg (by simpa using h)]
      exact ⟨parent, x, rfl, .base h, ⟨fun _ _ h => h, fun h => h⟩⟩
    · rw [if_pos h]
      have h1 := hr x h
      have h2 := hK (parent x)
      obtain ⟨parent', r, e, h3, h4⟩ := ih (parent x) (by omega)
      have hx : Reaches parent x r := .step h h3
      refine ⟨upd parent' x r, r, by rw [e]; rfl, hx, ⟨?_, ?_⟩⟩
      · intro y q hy
        exact Reaches.compress (h4.reaches _ _ hx) y q (h4.reaches _ _ hy)
      · intro _ y hy
        by_cases hyx : y = x
        · subst hyx
          rw [upd_self] at hy ⊢
          exact (hx.rank_le hr).2 (fun e => hy e.symm)
        · rw [upd_ne _ _ hyx] at hy ⊢
          exact h4.ranks hr y hy

/-- Representation invariant: the forest represents the partition into the classes of `R`, with ranks at most `K`. -/
structure Inv (s : State α P G) (R : α → α → Prop) (K : Nat) : Prop where
  ranks : ∀ x, s.parent x ≠ x → s.rank x < s.rank (s.parent x)
  bound : ∀ x, s.rank x ≤ K
  repr : ∀ x y, R x y ↔ ∃ r, Reaches s.parent x r ∧ Reaches s.parent y r

theorem Inv.reaches_exists {s : State α P G} {R : α → α → Prop} {K : Nat} (h : Inv s R K) (x : α) :
    ∃ r, Reaches s.parent x r := Reaches.exists h.ranks h.bound x

theorem Inv.refl {s : State α P G} {R : α → α → Prop} {K : Nat} (h : Inv s R K) (x : α) : R x x := by
  obtain ⟨r, hr⟩ := h.reaches_exists x
  exact (h.repr x x).2 ⟨r, hr, hr⟩

theorem Inv.symm {s : State α P G} {R : α → α → Prop} {K : Nat} (h : Inv s R K) {x y : α} (hxy : R x y) : R y x := by
  obtain ⟨r, h1, h2⟩ := (h.repr x y).1 hxy
  exact (h.repr y x).2 ⟨r, h2, h1⟩

theorem Inv.trans {s : State α P G} {R : α → α → Prop} {K : Nat} (h : Inv s R K) {x y z : α} (hxy : R x y)
    (hyz : R y z) : R x z := by
  obtain ⟨r, h1, h2⟩ := (h.repr x y).1 hxy
  obtain ⟨q, h3, h4⟩ := (h.repr y z).1 hyz
  have := h2.unique h3
  subst this
  exact (h.repr x z).2 ⟨r, h1, h4⟩

theorem Inv.rel_root {s : State α P G} {R : α → α → Prop} {K : Nat} (h : Inv s R K) {x r : α}
    (hr : Reaches s.parent x r) : R x r :=
  (h.repr x r).2 ⟨r, hr, .base hr.isRoot⟩

/-- `find` changes nothing but the shape of the trees. -/
theorem find_spec {s : State α P G} {R : α → α → Prop} {K fuel : Nat} (h : Inv s R K) (hf : K < fuel) (a : α) :
    ∃ s' r, find fuel s a = some (s', r) ∧ Inv s' R K ∧ Reaches s'.parent a r ∧ s'.props = s.props ∧
      s'.world = s.world ∧ s'.rank = s.rank ∧ (∀ x q, Reaches s.parent x q ↔ Reaches s'.parent x q) := by
  obtain ⟨parent', r, e, h1, h2⟩ := root_spec h.ranks h.bound fuel a (by omega)
  have hiff : ∀ x q, Reaches s.parent x q ↔ Reaches parent' x q := by
    intro x q
    constructor
    · exact h2.reaches x q
    · intro hx
      obtain ⟨r', hr'⟩ := h.reaches_exists x
      have := (h2.reaches _ _ hr').unique hx
      subst this
      exact hr'
  refine ⟨{ s with parent := parent' }, r, by unfold find; rw [e]; rfl, ⟨?_, h.bound, ?_⟩, h2.reaches _ _ h1, rfl, rfl, rfl, hiff⟩
  · exact h2.ranks h.ranks
  · intro x y
    rw [h.repr]
    constructor
    · rintro ⟨q, h3, h4⟩; exact ⟨q, (hiff _ _).1 h3, (hiff _ _).1 h4⟩
    · rintro ⟨q, h3, h4⟩; exact ⟨q, (hiff _ _).2 h3, (hiff _ _).2 h4⟩

/-- The relation obtained by joining the classes of `a` and `b`. -/
def join (R : α → α → Prop) (a b : α) : α → α → Prop :=
  fun x y => R x y ∨ (R x a ∧ R b y) ∨ (R x b ∧ R a y)

/-- Hooking a root under another one. -/
theorem hook_reaches {parent : α → α} {c p : α} (hc : parent c = c) (hp : parent p = p) (hne : c ≠ p) (x : α) :
    (∀ q, Reaches parent x q → q ≠ c → Reaches (upd parent c p) x q) ∧
    (Reaches parent x c → Reaches (upd parent c p) x p) := by
  have hpp : upd parent c p p = p := by rw [upd_ne _ _ (fun e => hne e.symm)]; exact hp
  have hcp : Reaches (upd parent c p) c p := .step (by rw [upd_self]; exact fun e => hne e.symm) (by rw [upd_self]; exact .base hpp)
  constructor
  · intro q h hq
    induction h with
    | @base q h => exact .base (by rw [upd_ne _ _ hq]; exact h)
    | @step y q h1 h2 ih =>
      have hy : y ≠ c := by rintro rfl; exact h1 hc
      refine .step (by rw [upd_ne _ _ hy]; exact h1) ?_
      rw [upd_ne _ _ hy]
      exact ih hq
  · intro h
    generalize hcc : c = q at h
    induction h with
    | @base q h => subst hcc; exact hcp
    | @step y q h1 h2 ih =>
      subst hcc
      have hy : y ≠ c := by rintro rfl; exact h1 hc
      refine .step (by rw [upd_ne _ _ hy]; exact h1) ?_
      rw [upd_ne _ _ hy]
      exact ih rfl

theorem hook_inv {s : State α P G} {R : α → α → Prop} {K : Nat} (h : Inv s R K) {c p : α} (hc : s.parent c = c)
    (hp : s.parent p = p) (hne : c ≠ p) (x y : α) :
    join R c p x y ↔ ∃ q, Reaches (upd s.parent c p) x q ∧ Reaches (upd s.parent c p) y q := by
  obtain ⟨rx, hx⟩ := h.reaches_exists x
  obtain ⟨ry, hy⟩ := h.reaches_exists y
  have hcc : Reaches s.parent c c := .base hc
  have hpp : Reaches s.parent p p := .base hp
  have hxy : R x y ↔ rx = ry := by
    rw [h.repr]
    constructor
    · rintro ⟨q, h1, h2⟩; rw [hx.unique h1, hy.unique h2]
    · rintro rfl; exact ⟨rx, hx, hy⟩
  have hxc : R x c ↔ rx = c := by
    rw [h.repr]
    constructor
    · rintro ⟨q, h1, h2⟩; rw [hx.unique h1, hcc.unique h2]
    · rintro rfl; exact ⟨_, hx, hcc⟩
  have hxp : R x p ↔ rx = p := by
    rw [h.repr]
    constructor
    · rintro ⟨q, h1, h2⟩; rw [hx.unique h1, hpp.unique h2]
    · rintro rfl; exact ⟨_, hx, hpp⟩
  have hcy : R c y ↔ ry = c := by
    rw [h.repr]
    constructor
    · rintro ⟨q, h1, h2⟩; rw [hy.unique h2, hcc.unique h1]
    · rintro rfl; exact ⟨_, hcc, hy⟩
  have hpy : R p y ↔ ry = p := by
    rw [h.repr]
    constructor
    · rintro ⟨q, h1, h2⟩; rw [hy.unique h2, hpp.unique h1]
    · rintro rfl; exact ⟨_, hpp, hy⟩
  -- The new roots.
  have nx : Reaches (upd s.parent c p) x (if rx = c then p else rx) := by
    by_cases e : rx = c
    · rw [if_pos e]; subst e; exact (hook_reaches hc hp hne x).2 hx
    · rw [if_neg e]; exact (hook_reaches hc hp hne x).1 rx hx e
  have ny : Reaches (upd s.parent c p) y (if ry = c then p else ry) := by
    by_cases e : ry = c
    · rw [if_pos e]; subst e; exact (hook_reaches hc hp hne y).2 hy
    · rw [if_neg e]; exact (hook_reaches hc hp hne y).1 ry hy e
  have hiff : (∃ q, Reaches (upd s.parent c p) x q ∧ Reaches (upd s.parent c p) y q) ↔
      (if rx = c then p else rx) = (if ry = c then p else ry) := by
    constructor
    · rintro ⟨q, h1, h2⟩; rw [nx.unique h1, ny.unique h2]
    · intro e; exact ⟨_, nx, by rw [e]; exact ny⟩
  rw [hiff]
  unfold join
  rw [hxy, hxc, hxp, hcy, hpy]
  by_cases e1 : rx = c <;> by_cases e2 : ry = c
  · simp [e1, e2]
  · simp only [e1, e2, if_true, if_false, hne]
    constructor
    · rintro (h | h | h)
      · exact absurd h.symm e2
      · exact h.2.symm
      · exact absurd h.1 (by simp)
    · intro h; exact Or.inr (Or.inl ⟨trivial, h.symm⟩)
  · simp only [e1, e2, if_true, if_false]
    constructor
    · rintro (h | h | h)
      · exact absurd h (by simp)
      · exact absurd h.1 (by simp)
      · exact h.1
    · intro h; exact Or.inr (Or.inr ⟨h, trivial⟩)
  · simp [e1, e2]

theorem join_symm {s : State α P G} {R : α → α → Prop} {K : Nat} (h : Inv s R K) (a b x y : α) :
    join R a b x y ↔ join R b a x y := by
  unfold join
  constructor
  · rintro (h | h | h)
    · exact Or.inl h
    · exact Or.inr (Or.inr h)
    · exact Or.inr (Or.inl h)
  · rintro (h | h | h)
    · exact Or.inl h
    · exact Or.inr (Or.inr h)
    · exact Or.inr (Or.inl h)

/-- The outcome of `unite` on two distinct roots. -/
theorem unite_spec {merge : Merge P G} {s : State α P G} {R : α → α → Prop} {K : Nat} (h : Inv s R K) {l r : α}
    (hl : s.parent l = l) (hr : s.parent r = r) (hne : l ≠ r) :
    ∃ into source, ((into = l ∧ source = r) ∨ (into = r ∧ source = l)) ∧
      ∀ p q w, merge (s.props into) (s.props source) s.world = some (p, q, w) →
        ∃ s', unite merge s l r = some (s', into) ∧ Inv s' (join R l r) (K + 1) ∧
          s'.props = upd (upd s.props source q) into p ∧ s'.world = w ∧
          s'.parent into = into ∧
          (∀ x z, Reaches s.parent x z → z ≠ source → Reaches s'.parent x z) ∧
          (∀ x, Reaches s.parent x source → Reaches s'.parent x into) := by
  have hub : ∀ x, s.rank x ≤ K + 1 := fun x => Nat.le_succ_of_le (h.bound x)
  by_cases h1 : s.rank l < s.rank r
  · refine ⟨r, l, Or.inr ⟨rfl, rfl⟩, ?_⟩
    intro p q w hm
    refine ⟨⟨upd s.parent l r, s.rank, upd (upd s.props l q) r p, w⟩, by unfold unite mergeProps; rw [if_neg hne, if_pos h1]; simp [hm], ⟨?_, hub, ?_⟩, rfl, rfl, ?_, ?_, ?_⟩
    · intro x hx
      by_cases e : x = l
      · subst e; simp only [upd_self] at hx ⊢; exact h1
      · simp only [upd_ne _ _ e] at hx ⊢; exact h.ranks x hx
    · exact hook_inv h hl hr hne
    · simp only [upd_ne _ _ (fun e => hne e.symm)]; exact hr
    · intro x z; exact (hook_reaches hl hr hne x).1 z
    · intro x; exact (hook_reaches hl hr hne x).2
  · refine ⟨l, r, Or.inl ⟨rfl, rfl⟩, ?_⟩
    intro p q w hm
    by_cases h2 : s.rank r < s.rank l
    · refine ⟨⟨upd s.parent r l, s.rank, upd (upd s.props r q) l p, w⟩, by unfold unite mergeProps; rw [if_neg hne, if_neg h1, if_pos h2]; simp [hm], ⟨?_, hub, ?_⟩, rfl, rfl, ?_, ?_, ?_⟩
      · intro x hx
        by_cases e : x = r
        · subst e; simp only [upd_self] at hx ⊢; exact h2
        · simp only [upd_ne _ _ e] at hx ⊢; exact h.ranks x hx
      · intro x y; rw [join_symm h]; exact hook_inv h hr hl (fun e => hne e.symm) x y
      · simp only [upd_ne _ _ hne]; exact hl
      · intro x z; exact (hook_reaches hr hl (fun e => hne e.symm) x).1 z
      · intro x; exact (hook_reaches hr hl (fun e => hne e.symm) x).2
    · refine ⟨⟨upd s.parent r l, upd s.rank l (s.rank l + 1), upd (upd s.props r q) l p, w⟩, by unfold unite mergeProps; rw [if_neg hne, if_neg h1, if_neg h2]; simp [hm], ⟨?_, ?_, ?_⟩, rfl, rfl, ?_, ?_, ?_⟩
      · intro x hx
        by_cases e : x = r
        · subst e
          simp only [upd_self, upd_ne _ _ (fun e => hne e.symm)] at hx ⊢; omega
        · simp only [upd_ne _ _ e] at hx ⊢
          have := h.ranks x hx
          by_cases e2 : x = l
          · subst e2; exact absurd hl hx
          · rw [upd_ne _ _ e2]
            by_cases e3 : s.parent x = l
            · rw [e3, upd_self]; rw [e3] at this; omega
            · rw [upd_ne _ _ e3]; exact this
      · intro x
        have := h.bound x
        have := h.bound l
        simp only [upd]
        split <;> omega
      · intro x y; rw [join_symm h]; exact hook_inv h hr hl (fun e => hne e.symm) x y
      · simp only [upd_ne _ _ hne]; exact hl
      · intro x z; exact (hook_reaches hr hl (fun e => hne e.symm) x).1 z
      · intro x; exact (hook_reaches hr hl (fun e => hne e.symm) x).2

/-- The two roots between which `uniteElements` merges. -/
theorem uniteElements_spec {merge : Merge P G} {s : State α P G} {R : α → α → Prop} {K fuel : Nat} (h : Inv s R K)
    (hf : K < fuel) (rightFirst : Bool) (a b : α) :
    ∃ l r, Reaches s.parent a l ∧ Reaches s.parent b r ∧
      ((R a b ∧ ∃ s', uniteElements merge fuel rightFirst s a b = some s' ∧ Inv s' R K ∧ s'.props = s.props ∧
          s'.world = s.world ∧ ∀ x q, Reaches s.parent x q ↔ Reaches s'.parent x q) ∨
       (¬R a b ∧ l ≠ r ∧ ∃ into source, ((into = l ∧ source = r) ∨ (into = r ∧ source = l)) ∧
          ∀ p q w, merge (s.props into) (s.props source) s.world = some (p, q, w) →
            ∃ s', uniteElements merge fuel rightFirst s a b = some s' ∧ Inv s' (join R a b) (K + 1) ∧
              s'.props = upd (upd s.props source q) into p ∧ s'.world = w ∧
              (∀ x z, Reaches s.parent x z → z ≠ source → Reaches s'.parent x z) ∧
              (∀ x, Reaches s.parent x source → Reaches s'.parent x into))) := by
  -- The state just before the call to `unite`.
  have key : ∃ s2 l r, uniteElements merge fuel rightFirst s a b =
        (unite merge s2 l r).map (·.1) ∧ Inv s2 R K ∧ Reaches s.parent a l ∧ Reaches s.parent b r ∧
      s2.props = s.props ∧ s2.world = s.world ∧ (∀ x q, Reaches s.parent x q ↔ Reaches s2.parent x q) := by
    cases rightFirst with
    | true =>
      obtain ⟨s1, r, e1, i1, r1, p1, w1, k1, q1⟩ := find_spec h hf b
      obtain ⟨s2, l, e2, i2, r2, p2, w2, k2, q2⟩ := find_spec i1 hf a
      refine ⟨s2, l, r, ?_, i2, ?_, ?_, by rw [p2, p1], by rw [w2, w1], fun x q => (q1 x q).trans (q2 x q)⟩
      · simp only [uniteElements, if_true, e1, e2, Option.bind_eq_bind, Option.bind_some]
        cases unite merge s2 l r <;> rfl
      · exact (q1 _ _).2 ((q2 _ _).2 r2)
      · exact (q1 _ _).2 r1
    | false =>
      obtain ⟨s1, l, e1, i1, r1, p1, w1, k1, q1⟩ := find_spec h hf a
      obtain ⟨s2, r, e2, i2, r2, p2, w2, k2, q2⟩ := find_spec i1 hf b
      refine ⟨s2, l, r, ?_, i2, ?_, ?_, by rw [p2, p1], by rw [w2, w1], fun x q => (q1 x q).trans (q2 x q)⟩
      · simp only [uniteElements, Bool.false_eq_true, if_false, e1, e2, Option.bind_eq_bind, Option.bind_some]
        cases unite merge s2 l r <;> rfl
      · exact (q1 _ _).2 r1
      · exact (q1 _ _).2 ((q2 _ _).2 r2)
  obtain ⟨s2, l, r, eq, i2, hl, hr, p2, w2, q2⟩ := key
  refine ⟨l, r, hl, hr, ?_⟩
  rw [eq]
  by_cases hlr : l = r
  · left
    subst hlr
    refine ⟨(h.repr a b).2 ⟨l, hl, hr⟩, s2, ?_, i2, p2, w2, q2⟩
    unfold unite
    rw [if_pos rfl]
    rfl
  · right
    have hnR : ¬R a b := by
      intro hR
      obtain ⟨q, h1, h2⟩ := (h.repr a b).1 hR
      exact hlr (by rw [hl.unique h1, hr.unique h2])
    refine ⟨hnR, hlr, ?_⟩
    have hl2 := (q2 _ _).1 hl
    have hr2 := (q2 _ _).1 hr
    obtain ⟨into, source, hcase, hspec⟩ := unite_spec (merge := merge) i2 hl2.isRoot hr2.isRoot hlr
    refine ⟨into, source, hcase, ?_⟩
    intro p q w hm
    rw [← p2, ← w2] at hm
    obtain ⟨s', e', i', pr', w', _, f1, f2⟩ := hspec p q w hm
    have hjoin : join R l r = join R a b := by
      funext x y
      have hal := i2.rel_root hl2
      have hbr := i2.rel_root hr2
      apply propext
      unfold join
      constructor
      · rintro (h | ⟨h1, h2⟩ | ⟨h1, h2⟩)
        · exact Or.inl h
        · exact Or.inr (Or.inl ⟨i2.trans h1 (i2.symm hal), i2.trans hbr h2⟩)
        · exact Or.inr (Or.inr ⟨i2.trans h1 (i2.symm hbr), i2.trans hal h2⟩)
      · rintro (h | ⟨h1, h2⟩ | ⟨h1, h2⟩)
        · exact Or.inl h
        · exact Or.inr (Or.inl ⟨i2.trans h1 hal, i2.trans (i2.symm hbr) h2⟩)
        · exact Or.inr (Or.inr ⟨i2.trans h1 hbr, i2.trans (i2.symm hal) h2⟩)
    refine ⟨s', by rw [e']; rfl, by rw [← hjoin]; exact i', by rw [pr', p2], w', ?_, ?_⟩
    · intro x z hxz hz; exact f1 x z ((q2 _ _).1 hxz) hz
    · intro x hx; exact f2 x ((q2 _ _).1 hx)

/-- Initially all the subsets are singletons. -/
theorem inv_singletons (s : State α P G) (hp : ∀ x, s.parent x = x) (hr : ∀ x, s.rank x = 0) : Inv s Eq 0 := by
  refine ⟨fun x hx => absurd (hp x) hx, fun x => by rw [hr x]; exact Nat.le_refl _, fun x y => ?_⟩
  constructor
  · rintro rfl; exact ⟨x, .base (hp x), .base (hp x)⟩
  · rintro ⟨r, h1, h2⟩
    rw [← Reaches.unique (.base (hp x)) h1] at h2
    exact (Reaches.unique h2 (.base (hp y)))

end Principia.DisjointSets
