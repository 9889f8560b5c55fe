import Verif.Ksp.PileUpsLemmas

set_option linter.unusedSectionVars false
set_option linter.unusedVariables false

namespace Principia.PileUps

open Principia.DisjointSets

variable {α : Type} [DecidableEq α]

/-- Consistency of the parts and pile-ups outside of a frame. -/
structure Consistent (w : World α) : Prop where
  ok : RefsOk w
  contains : ∀ P ∈ w.pileUps, ∀ x ∈ w.parts P, w.containing x = some P

theorem foldlM_set {id : Nat} (l : List α) (w : World α) (hn : l.Nodup) (hnone : ∀ x ∈ l, w.containing x = none) :
    ∃ w', l.foldlM (setContaining id) w = some w' ∧ w'.parts = w.parts ∧ w'.pileUps = w.pileUps ∧ w'.next = w.next ∧
      (∀ x, x ∈ l → w'.containing x = some id) ∧ (∀ x, x ∉ l → w'.containing x = w.containing x) ∧
      w'.refs = upd w.refs id (w.refs id + l.length) := by
  induction l generalizing w with
  | nil =>
    refine ⟨w, rfl, rfl, rfl, rfl, by simp, by simp, ?_⟩
    funext x; simp only [upd]; split
    · rename_i h; subst h; rfl
    · rfl
  | cons a l ih =>
    obtain ⟨ha, hn'⟩ := List.nodup_cons.1 hn
    have h0 := hnone a (by simp)
    obtain ⟨w', e, f1, f2, f3, f4, f5, f6⟩ := ih
      { w with containing := upd w.containing a (some id), refs := upd w.refs id (w.refs id + 1) } hn' (by
        intro x hx
        have : x ≠ a := by rintro rfl; exact ha hx
        simp only [upd_ne _ _ this]
        exact hnone x (List.mem_cons_of_mem _ hx))
    refine ⟨w', ?_, f1, f2, f3, ?_, ?_, ?_⟩
    · simp only [List.foldlM_cons, setContaining, h0, Option.isSome_none, Bool.false_eq_true, if_false,
        Option.bind_eq_bind, Option.bind_some]
      exact e
    · intro x hx
      by_cases hm : x ∈ l
      · exact f4 x hm
      · rw [f5 x hm]
        have : x = a := by
          rcases List.mem_cons.1 hx with h | h
          · exact h
          · exact absurd h hm
        subst this; exact upd_self _ _ _
    · intro x hx
      rw [f5 x (fun hm => hx (List.mem_cons_of_mem _ hm))]
      exact upd_ne _ _ (fun e => hx (e ▸ List.mem_cons_self))
    · rw [f6]
      funext x
      simp only [upd, List.length_cons]
      split <;> simp <;> omega

/-- Creation of a new pile-up for parts that are not piled up. -/
theorem create_spec {w : World α} (hok : RefsOk w) (l : List α) (hn : l.Nodup) (hne : l ≠ [])
    (hnone : ∀ x ∈ l, w.containing x = none) :
    ∃ w', (l.foldlM (setContaining w.next)
        { w with pileUps := w.next :: w.pileUps, next := w.next + 1, parts := upd w.parts w.next l,
                 refs := upd w.refs w.next 1 }).map (release · w.next) = some w' ∧
      RefsOk w' ∧ w'.next = w.next + 1 ∧ (∀ P, P ≠ w.next → w'.parts P = w.parts P) ∧ w'.parts w.next = l ∧
      (∀ x, x ∈ l → w'.containing x = some w.next) ∧ (∀ x, x ∉ l → w'.containing x = w.containing x) := by
  obtain ⟨w1, e, f1, f2, f3, f4, f5, f6⟩ := foldlM_set (id := w.next) l
    { w with pileUps := w.next :: w.pileUps, next := w.next + 1, parts := upd w.parts w.next l,
             refs := upd w.refs w.next 1 } hn hnone
  have hpos : 0 < l.length := List.length_pos_of_ne_nil hne
  simp only [upd_self] at f6
  have hr1 : w1.refs w.next = 1 + l.length := by rw [f6, upd_self]
  refine ⟨release w1 w.next, by rw [e]; rfl, ?_, f3, ?_, ?_, f4, f5⟩
  · have hfresh : w.next ∉ w.pileUps := fun h => Nat.lt_irrefl _ (hok.fresh _ h)
    have hpu : (release w1 w.next).pileUps = w.next :: w.pileUps := by
      unfold release
      simp only [hr1]
      rw [if_neg (by omega), f2]
    have hrefs : (release w1 w.next).refs = upd w.refs w.next l.length := by
      unfold release
      simp only [hr1, f6]
      funext x
      simp only [upd]
      split <;> simp
    have hnotold : ∀ x, w.containing x ≠ some w.next := by
      intro x hx
      exact hfresh ((hok.alive_iff _).2 ⟨x, hx⟩)
    refine ⟨?_, ?_, ?_, ?_, ?_, ?_⟩
    · intro x P hx
      show x ∈ w1.parts P
      rw [f1]
      have hx : w1.containing x = some P := hx
      by_cases hm : x ∈ l
      · rw [f4 x hm] at hx
        have : w.next = P := by simpa using hx
        subst this
        simp only [upd_self]; exact hm
      · rw [f5 x hm] at hx
        have : P ≠ w.next := by rintro rfl; exact hnotold x hx
        simp only [upd_ne _ _ this]
        exact hok.mem x P hx
    · intro P hP
      rw [hpu] at hP
      show (w1.parts P).Nodup
      rw [f1]
      by_cases e : P = w.next
      · subst e; simp only [upd_self]; exact hn
      · simp only [upd_ne _ _ e]
        rcases List.mem_cons.1 hP with h | h
        · exact absurd h e
        · exact hok.nodupParts P h
    · intro P
      rw [hrefs]
      show upd w.refs w.next l.length P = (w1.parts P).countP (fun x => w1.containing x = some P)
      rw [f1]
      by_cases e : P = w.next
      · subst e
        simp only [upd_self]
        symm
        rw [List.countP_eq_length]
        intro x hx
        simp [f4 x hx]
      · simp only [upd_ne _ _ e]
        rw [hok.refs]
        apply List.countP_congr
        intro x _
        by_cases hm : x ∈ l
        · have : ¬ w.next = P := fun e' => e e'.symm
          simp [f4 x hm, hnone x hm, this]
        · simp [f5 x hm]
    · intro P
      rw [hpu, hrefs]
      by_cases e : P = w.next
      · subst e; simp [upd_self, hpos]
      · rw [upd_ne _ _ e, ← hok.alive]; simp [e]
    · rw [hpu]; exact List.nodup_cons.2 ⟨hfresh, hok.nodup⟩
    · intro P hP
      rw [hpu] at hP
      show P < w1.next
      rw [f3]
      show P < w.next + 1
      rcases List.mem_cons.1 hP with h | h
      · omega
      · have := hok.fresh P h; omega
  · intro P hP
    show w1.parts P = w.parts P
    rw [f1]; exact upd_ne _ _ hP
  · show w1.parts w.next = l
    rw [f1]; exact upd_self _ _ _

/-- The outcome of the collection for the class of `x`, with respect to the initial world. -/
def Arranged (w w₀ : World α) (R : α → α → Prop) (x : α) : Prop :=
  ∃ P, (∀ y, R x y → w.containing y = some P) ∧ (∀ y, y ∈ w.parts P ↔ R x y) ∧
    ((∃ P₀, w₀.containing x = some P₀ ∧ ∀ y, y ∈ w₀.parts P₀ ↔ R x y) → w₀.containing x = some P) ∧
    ((¬∃ P₀, w₀.containing x = some P₀ ∧ ∀ y, y ∈ w₀.parts P₀ ↔ R x y) → w₀.next ≤ P)

/-- Invariant of the collection; `C` is the set of the parts whose subset was collected. -/
structure CInv (s : PState α) (R : α → α → Prop) (K : Nat) (w₀ : World α) (freed C : α → Prop) : Prop where
  inv : Inv s R K
  ok : RefsOk s.world
  partsNodup : ∀ r, s.parent r = r → ¬C r → (s.props r).parts.Nodup
  partsMem : ∀ r, s.parent r = r → ¬C r → ∀ y, y ∈ (s.props r).parts ↔ R r y
  uncollected : ∀ r, s.parent r = r → ¬C r → (s.props r).collected = false
  collected : ∀ r, s.parent r = r → C r → (s.props r).collected = true
  closed : ∀ x y, R x y → C x → C y
  untainted : ∀ x, C x → ¬freed x
  sub : ∀ x P, ¬C x → s.world.containing x = some P → w₀.containing x = some P
  oldParts : ∀ P, P < w₀.next → s.world.parts P = w₀.parts P
  next : w₀.next ≤ s.world.next
  freedNone : ∀ x, freed x → s.world.containing x = none
  status : ∀ r, s.parent r = r → ¬C r → (∀ y, R r y → ¬freed y) → Status s.world w₀ (R r) (s.props r)
  arranged : ∀ x, C x → Arranged s.world w₀ R x

theorem CInv.reshape {s s' : PState α} {R : α → α → Prop} {K K' : Nat} {w₀ : World α} {freed C : α → Prop}
    (h : CInv s R K w₀ freed C) (hi : Inv s' R K') (hp : s'.props = s.props) (hw : s'.world = s.world)
    (hr : ∀ x q, Reaches s.parent x q ↔ Reaches s'.parent x q) : CInv s' R K' w₀ freed C := by
  have hroot := root_iff hr
  refine ⟨hi, ?_, ?_, ?_, ?_, ?_, h.closed, h.untainted, ?_, ?_, ?_, ?_, ?_, ?_⟩
  · rw [hw]; exact h.ok
  · intro r hr'; rw [hp]; exact h.partsNodup r ((hroot r).1 hr')
  · intro r hr'; rw [hp]; exact h.partsMem r ((hroot r).1 hr')
  · intro r hr'; rw [hp]; exact h.uncollected r ((hroot r).1 hr')
  · intro r hr'; rw [hp]; exact h.collected r ((hroot r).1 hr')
  · rw [hw]; exact h.sub
  · rw [hw]; exact h.oldParts
  · rw [hw]; exact h.next
  · rw [hw]; exact h.freedNone
  · intro r hr'; rw [hp, hw]; exact h.status r ((hroot r).1 hr')
  · rw [hw]; exact h.arranged

theorem same_mem_length {l l' : List α} (h : l.Nodup) (h' : l'.Nodup) (hm : ∀ x, x ∈ l ↔ x ∈ l') :
    l.length = l'.length :=
  ((List.perm_ext_iff_of_nodup h h').2 hm).length_eq

/-- Two roots of the same class are equal. -/
theorem root_unique {s : PState α} {R : α → α → Prop} {K : Nat} (i : Inv s R K) {x r : α} (hx : s.parent x = x)
    (hr : s.parent r = r) (h : R x r) : x = r := by
  obtain ⟨q, u1, u2⟩ := (i.repr x r).1 h
  rw [Reaches.unique (.base hx) u1, Reaches.unique (.base hr) u2]

theorem collect_step {s : PState α} {R : α → α → Prop} {K fuel : Nat} {w₀ : World α} {freed C : α → Prop}
    (hc₀ : Consistent w₀) (h : CInv s R K w₀ freed C) (hf : K < fuel) (a : α) (ha : ∀ y, R a y → ¬freed y) :
    ∃ s', collectPart fuel s a = some s' ∧ CInv s' R K w₀ freed (fun x => C x ∨ R a x) := by
  obtain ⟨s1, r, e, i, hr, hp, hw, _, hreach⟩ := find_spec h.inv hf a
  have h1 := h.reshape i hp hw hreach
  have har := i.rel_root hr
  have hroot := hr.isRoot
  have hra : ∀ y, R r y ↔ R a y := fun y => ⟨fun g => i.trans har g, fun g => i.trans (i.symm har) g⟩
  by_cases hC : C r
  · -- Already collected.
    have hcol := h1.collected r hroot hC
    refine ⟨{ s1 with props := upd s1.props r (s1.props r) }, by simp [collectPart, e, collect, hcol], ?_⟩
    have : (fun x => C x ∨ R a x) = C := by
      funext x
      apply propext
      constructor
      · rintro (g | g)
        · exact g
        · exact h1.closed r x ((hra x).2 g) hC
      · exact Or.inl
    rw [this]
    have hpr : upd s1.props r (s1.props r) = s1.props := by
      funext x; simp only [upd]; split
      · rename_i hh; rw [hh]
      · rfl
    rw [hpr]
    exact h1
  · have hcol := h1.uncollected r hroot hC
    have hst := h1.status r hroot hC (fun y hy => ha y ((hra y).1 hy))
    have hmem := h1.partsMem r hroot hC
    have hnod := h1.partsNodup r hroot hC
    have hrr := i.refl r
    obtain ⟨fr, hfr, efr⟩ := front_of_mem (w := s1.world) ((hmem r).2 hrr)
    have hfrR := (hmem fr).1 hfr
    have hnotC : ∀ y, R r y → ¬C y := fun y hy hCy => hC (h1.closed y r (i.symm hy) hCy)
    -- The properties of the new state, given the effect on the world.
    have finish : ∀ (p' : Properties α) (w' : World α), collect (s1.props r) s1.world = some (p', w') →
        p'.collected = true → RefsOk w' → (∀ x, ¬R r x → w'.containing x = s1.world.containing x) →
        (∀ P, P < s1.world.next → w'.parts P = s1.world.parts P) → s1.world.next ≤ w'.next →
        (∀ x, R r x → Arranged w' w₀ R x) →
        ∃ s', collectPart fuel s a = some s' ∧ CInv s' R K w₀ freed (fun x => C x ∨ R a x) := by
      intro p' w' ec k1 k2 k3 k4 k5 k6
      refine ⟨{ s1 with props := upd s1.props r p', world := w' }, by simp [collectPart, e, ec], ?_⟩
      have hne : ∀ x, s1.parent x = x → ¬(C x ∨ R a x) → x ≠ r ∧ ¬C x ∧ ∀ y, R x y → ¬R r y := by
        intro x hx hn
        refine ⟨?_, fun g => hn (Or.inl g), ?_⟩
        · rintro rfl; exact hn (Or.inr har)
        · intro y hy hry; exact hn (Or.inr ((hra x).1 (i.trans hry (i.symm hy))))
      refine ⟨⟨i.ranks, i.bound, i.repr⟩, k2, ?_, ?_, ?_, ?_, ?_, ?_, ?_, ?_, ?_, ?_, ?_, ?_⟩
      · intro x hx hn
        obtain ⟨n1, n2, _⟩ := hne x hx hn
        simp only [upd_ne _ _ n1]; exact h1.partsNodup x hx n2
      · intro x hx hn
        obtain ⟨n1, n2, _⟩ := hne x hx hn
        simp only [upd_ne _ _ n1]; exact h1.partsMem x hx n2
      · intro x hx hn
        obtain ⟨n1, n2, _⟩ := hne x hx hn
        simp only [upd_ne _ _ n1]; exact h1.uncollected x hx n2
      · intro x hx hCx
        by_cases ex : x = r
        · subst ex; simp only [upd_self]; exact k1
        · simp only [upd_ne _ _ ex]
          rcases hCx with g | g
          · exact h1.collected x hx g
          · exact absurd (root_unique i hx hroot (i.symm ((hra x).2 g))) ex
      · rintro x y hxy (g | g)
        · exact Or.inl (h1.closed x y hxy g)
        · exact Or.inr (i.trans g hxy)
      · rintro x (g | g)
        · exact h1.untainted x g
        · exact ha x g
      · intro x P hn hx
        have hnr : ¬R r x := fun g => hn (Or.inr ((hra x).1 g))
        have hx : w'.containing x = some P := hx
        rw [k3 x hnr] at hx
        exact h1.sub x P (fun g => hn (Or.inl g)) hx
      · intro P hP
        show w'.parts P = w₀.parts P
        rw [k4 P (Nat.lt_of_lt_of_le hP h1.next)]
        exact h1.oldParts P hP
      · exact Nat.le_trans h1.next k5
      · intro x hx
        show w'.containing x = none
        have hnr : ¬R r x := fun g => ha x ((hra x).1 g) hx
        rw [k3 x hnr]
        exact h1.freedNone x hx
      · intro x hx hn hu
        obtain ⟨n1, n2, n3⟩ := hne x hx hn
        simp only [upd_ne _ _ n1]
        exact (h1.status x hx n2 hu).congr (fun _ => Iff.rfl) (fun y hy => k3 y (n3 y hy))
      · rintro x hCx
        by_cases g : R r x
        · exact k6 x g
        · have hCx' : C x := by
            rcases hCx with k | k
            · exact k
            · exact absurd ((hra x).2 k) g
          obtain ⟨P, q1, q2, q3, q4⟩ := h1.arranged x hCx'
          have hPn : P < s1.world.next := h1.ok.fresh P ((h1.ok.alive_iff P).2 ⟨x, q1 x (i.refl x)⟩)
          refine ⟨P, ?_, ?_, q3, q4⟩
          · intro y hy
            show w'.containing y = some P
            rw [k3 y (fun hh => g (i.trans hh (i.symm hy)))]
            exact q1 y hy
          · intro y
            show y ∈ w'.parts P ↔ _
            rw [k4 P hPn]
            exact q2 y
    -- Facts about the initial pile-up in the first case.
    have hP0 : ∀ P, (∀ y, R r y → s1.world.containing y = some P) →
        (w₀.parts P).Nodup ∧ s1.world.parts P = w₀.parts P ∧ (∀ y, R r y → y ∈ w₀.parts P) ∧
        (∀ y, R r y → w₀.containing y = some P) ∧ (s1.props r).parts.length ≤ (w₀.parts P).length := by
      intro P hP
      have c0 : ∀ y, R r y → w₀.containing y = some P := fun y hy => h1.sub y P (hnotC y hy) (hP y hy)
      have hPp : P ∈ w₀.pileUps := (hc₀.ok.alive_iff P).2 ⟨r, c0 r hrr⟩
      have hnd := hc₀.ok.nodupParts P hPp
      have hin : ∀ y, R r y → y ∈ w₀.parts P := fun y hy => hc₀.ok.mem y P (c0 y hy)
      refine ⟨hnd, h1.oldParts P (hc₀.ok.fresh P hPp), hin, c0, ?_⟩
      exact (hnod.subperm (fun y hy => hin y ((hmem y).1 hy))).length_le
    -- Creating a new pile-up.
    have create : ∀ w1 : World α, RefsOk w1 → w1.parts = s1.world.parts → w1.next = s1.world.next →
        (∀ x, R r x → w1.containing x = none) → (∀ x, ¬R r x → w1.containing x = s1.world.containing x) →
        (∀ p' w', (((s1.props r).parts.foldlM (setContaining w1.next)
          { w1 with pileUps := w1.next :: w1.pileUps, next := w1.next + 1, parts := upd w1.parts w1.next (s1.props r).parts,
                    refs := upd w1.refs w1.next 1 }).map (release · w1.next) = some w' →
            p' = { s1.props r with collected := true, parts := [] } →
            collect (s1.props r) s1.world = some (p', w'))) →
        (¬∃ P₀, w₀.containing r = some P₀ ∧ ∀ y, y ∈ w₀.parts P₀ ↔ R r y) →
        ∃ s', collectPart fuel s a = some s' ∧ CInv s' R K w₀ freed (fun x => C x ∨ R a x) := by
      intro w1 o1 o2 o3 o4 o5 o6 o7
      obtain ⟨w', v1, v2, v3, v4, v5, v6, v7⟩ := create_spec o1 (s1.props r).parts hnod
        (List.ne_nil_of_mem ((hmem r).2 hrr)) (fun x hx => o4 x ((hmem x).1 hx))
      refine finish _ w' (o6 _ w' v1 rfl) rfl v2 ?_ ?_ ?_ ?_
      · intro x hx
        rw [v7 x (fun g => hx ((hmem x).1 g)), o5 x hx]
      · intro P hP
        rw [v4 P (by omega), o2]
      · omega
      · intro x hx
        have hxr : ∀ y, R x y ↔ R r y := fun y => ⟨fun g => i.trans hx g, fun g => i.trans (i.symm hx) g⟩
        refine ⟨w1.next, ?_, ?_, ?_, ?_⟩
        · intro y hy; exact v6 y ((hmem y).2 ((hxr y).1 hy))
        · intro y; rw [v5, hmem, hxr]
        · rintro ⟨P₀, g1, g2⟩
          exfalso
          apply o7
          have hPp : P₀ ∈ w₀.pileUps := (hc₀.ok.alive_iff P₀).2 ⟨x, g1⟩
          refine ⟨P₀, hc₀.contains P₀ hPp r ((g2 r).2 (i.symm hx)), ?_⟩
          intro y; rw [g2, hxr]
        · intro _; rw [o3]; exact h1.next
    rcases hst with ⟨P, s1', s2'⟩ | ⟨s1', s2'⟩
    · obtain ⟨z1, z2, z3, z4, z5⟩ := hP0 P s1'
      have hfrP := s1' fr hfrR
      by_cases hm : (s1.props r).missing = 0
      · -- The subset is an existing pile-up.
        have hlen : (s1.props r).parts.length = (w₀.parts P).length := by rw [hm] at s2'; omega
        have hiff : ∀ y, y ∈ w₀.parts P ↔ R r y := by
          intro y
          constructor
          · intro hy
            have hperm := (hnod.subperm (fun y hy => z3 y ((hmem y).1 hy))).perm_of_length_le (by omega)
            exact (hmem y).1 (hperm.mem_iff.2 hy)
          · exact z3 y
        refine finish { s1.props r with collected := true } s1.world ?_ rfl h1.ok (fun _ _ => rfl) (fun _ _ => rfl)
          (Nat.le_refl _) ?_
        · simp [collect, hcol, efr, hfrP, hm]
        · intro x hx
          have hxr : ∀ y, R x y ↔ R r y := fun y => ⟨fun g => i.trans hx g, fun g => i.trans (i.symm hx) g⟩
          refine ⟨P, fun y hy => s1' y ((hxr y).1 hy), fun y => by rw [z2, hiff, hxr], fun _ => z4 x hx, ?_⟩
          intro hno
          exact absurd ⟨P, z4 x hx, fun y => by rw [hiff, hxr]⟩ hno
      · -- A strict subset of an existing pile-up.
        have hm2 : (s1.props r).missing > 0 := by omega
        obtain ⟨j1, j2, j3, j4, j5⟩ := foldl_reset h1.ok (s1.props r).parts
        refine create _ j1 j2 j3 (fun x hx => j4 x ((hmem x).2 hx)) (fun x hx => j5 x (fun g => hx ((hmem x).1 g))) ?_ ?_
        · rintro p' w' ew rfl
          have hne : (s1.props r).parts.isEmpty = false := by
            rw [List.isEmpty_eq_false_iff]; exact List.ne_nil_of_mem hfr
          have hm3 : 0 < (s1.props r).missing := hm2
          rw [Option.map_eq_some_iff] at ew
          obtain ⟨w2, ew1, ew2⟩ := ew
          simp [collect, hcol, efr, hfrP, hm, hm3, List.ne_nil_of_mem hfr, ew1, ew2]
        · rintro ⟨P₀, g1, g2⟩
          rw [z4 r hrr] at g1
          have : P = P₀ := by simpa using g1
          subst this
          have := same_mem_length z1 hnod (fun y => by rw [g2, hmem])
          omega
    · -- Not a subset of an existing pile-up.
      refine create s1.world h1.ok rfl rfl s1' (fun _ _ => rfl) ?_ ?_
      · rintro p' w' ew rfl
        have hne : (s1.props r).parts.isEmpty = false := by
          rw [List.isEmpty_eq_false_iff]; exact List.ne_nil_of_mem hfr
        rw [Option.map_eq_some_iff] at ew
        obtain ⟨w2, ew1, ew2⟩ := ew
        simp [collect, hcol, efr, s1' fr hfrR, List.ne_nil_of_mem hfr, ew1, ew2]
      · rintro ⟨P₀, g1, g2⟩
        apply s2'
        have hPp : P₀ ∈ w₀.pileUps := (hc₀.ok.alive_iff P₀).2 ⟨r, g1⟩
        exact ⟨P₀, fun y hy => hc₀.contains P₀ hPp y ((g2 y).2 hy)⟩

theorem collect_all {R : α → α → Prop} {K fuel : Nat} {w₀ : World α} {freed : α → Prop}
    (hc₀ : Consistent w₀) (hf : K < fuel) (cs : List α) (hcs : ∀ c ∈ cs, ∀ y, R c y → ¬freed y)
    {s : PState α} {C : α → Prop} (h : CInv s R K w₀ freed C) :
    ∃ s', cs.foldlM (collectPart fuel) s = some s' ∧
      CInv s' R K w₀ freed (fun x => C x ∨ ∃ c ∈ cs, R c x) := by
  induction cs generalizing s C with
  | nil =>
    refine ⟨s, rfl, ?_⟩
    have : (fun x => C x ∨ ∃ c ∈ ([] : List α), R c x) = C := by funext x; simp
    rw [this]; exact h
  | cons c cs ih =>
    obtain ⟨s1, e1, h1⟩ := collect_step hc₀ h hf c (hcs c (by simp))
    obtain ⟨s2, e2, h2⟩ := ih (fun c' hc' => hcs c' (List.mem_cons_of_mem _ hc')) h1
    refine ⟨s2, by simp [List.foldlM_cons, e1, e2], ?_⟩
    have : (fun x => C x ∨ ∃ c' ∈ c :: cs, R c' x) = (fun x => (C x ∨ R c x) ∨ ∃ c ∈ cs, R c x) := by
      funext x
      apply propext
      simp only [List.mem_cons, exists_eq_or_imp, or_assoc]
    rw [this]
    exact h2

end Principia.PileUps
