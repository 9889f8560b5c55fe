import Verif.Ksp.PileUpsModel
import Verif.Base.DisjointSetsProps
import Mathlib.Data.List.Perm.Subperm

set_option linter.unusedSectionVars false
set_option linter.unusedVariables false

namespace Principia.PileUps

open Principia.DisjointSets

variable {α : Type} [DecidableEq α]

/-- The shared pointers are properly counted. -/
structure RefsOk (w : World α) : Prop where
  mem : ∀ x P, w.containing x = some P → x ∈ w.parts P
  nodupParts : ∀ P ∈ w.pileUps, (w.parts P).Nodup
  refs : ∀ P, w.refs P = (w.parts P).countP (fun x => w.containing x = some P)
  alive : ∀ P, P ∈ w.pileUps ↔ 0 < w.refs P
  nodup : w.pileUps.Nodup
  fresh : ∀ P ∈ w.pileUps, P < w.next

theorem RefsOk.alive_iff {w : World α} (h : RefsOk w) (P : Nat) : P ∈ w.pileUps ↔ ∃ x, w.containing x = some P := by
  rw [h.alive, h.refs, List.countP_pos_iff]
  constructor
  · rintro ⟨x, _, hx⟩; exact ⟨x, by simpa using hx⟩
  · rintro ⟨x, hx⟩; exact ⟨x, h.mem x P hx, by simpa using hx⟩

theorem countP_upd_none {f : α → Option Nat} {a : α} {P : Nat} (l : List α) (hn : l.Nodup) (ha : a ∈ l)
    (hf : f a = some P) :
    l.countP (fun x => upd f a none x = some P) = l.countP (fun x => f x = some P) - 1 := by
  induction l with
  | nil => simp at ha
  | cons b l ih =>
    obtain ⟨hb, hn'⟩ := List.nodup_cons.1 hn
    by_cases e : b = a
    · subst e
      have : l.countP (fun x => upd f b none x = some P) = l.countP (fun x => f x = some P) := by
        apply List.countP_congr
        intro x hx
        have : x ≠ b := by rintro rfl; exact hb hx
        simp [upd, this]
      simp only [List.countP_cons, this]
      simp [upd, hf]
    · have ha' : a ∈ l := by
        rcases List.mem_cons.1 ha with rfl | h
        · exact absurd rfl e
        · exact h
      have hpos : 0 < l.countP (fun x => f x = some P) := List.countP_pos_iff.2 ⟨a, ha', by simp [hf]⟩
      simp only [List.countP_cons, ih hn' ha']
      have : upd f a none b = f b := by simp [upd, e]
      simp only [this]
      split <;> omega

theorem reset_fields (w : World α) (p : α) :
    (reset w p).containing = upd w.containing p none ∧ (reset w p).parts = w.parts ∧ (reset w p).next = w.next := by
  unfold reset
  split
  · rename_i h
    refine ⟨?_, rfl, rfl⟩
    funext x
    by_cases e : x = p
    · subst e; simp [upd, h]
    · simp [upd, e]
  · exact ⟨rfl, rfl, rfl⟩

theorem reset_ok {w : World α} (h : RefsOk w) (p : α) : RefsOk (reset w p) := by
  obtain ⟨f1, f2, f3⟩ := reset_fields w p
  cases hc : w.containing p with
  | none =>
    have : reset w p = w := by unfold reset; rw [hc]
    rw [this]; exact h
  | some P =>
    have hP : P ∈ w.pileUps := (h.alive_iff P).2 ⟨p, hc⟩
    have hrefs : (reset w p).refs = upd w.refs P (w.refs P - 1) := by unfold reset; rw [hc]; rfl
    have hpu : (reset w p).pileUps = if w.refs P - 1 = 0 then w.pileUps.erase P else w.pileUps := by
      unfold reset; rw [hc]; rfl
    have hsub : ∀ Q, Q ∈ (reset w p).pileUps → Q ∈ w.pileUps := by
      intro Q hQ
      rw [hpu] at hQ
      split at hQ
      · exact List.mem_of_mem_erase hQ
      · exact hQ
    have hcount : ∀ Q, (reset w p).refs Q = ((reset w p).parts Q).countP (fun x => (reset w p).containing x = some Q) := by
      intro Q
      rw [hrefs, f1, f2]
      by_cases e : Q = P
      · subst e
        rw [upd_self, h.refs, countP_upd_none _ (h.nodupParts _ hP) (h.mem _ _ hc) hc]
      · rw [upd_ne _ _ e, h.refs]
        apply List.countP_congr
        intro x _
        by_cases ex : x = p
        · subst ex
          have : ¬ P = Q := fun e' => e e'.symm
          simp [upd, hc, this]
        · simp [upd, ex]
    refine ⟨?_, ?_, hcount, ?_, ?_, ?_⟩
    · intro x Q hx
      rw [f1] at hx
      rw [f2]
      by_cases ex : x = p
      · subst ex; simp [upd] at hx
      · rw [upd_ne _ _ ex] at hx; exact h.mem x Q hx
    · intro Q hQ; rw [f2]; exact h.nodupParts Q (hsub Q hQ)
    · intro Q
      rw [hpu, hrefs]
      by_cases e : Q = P
      · subst e
        rw [upd_self]
        split
        · rename_i h0
          rw [h0]
          simp only [Nat.lt_irrefl, iff_false]
          exact fun hm => (h.nodup.mem_erase_iff.1 hm).1 rfl
        · rename_i h0
          constructor
          · intro _; omega
          · intro _; exact hP
      · rw [upd_ne _ _ e, ← h.alive]
        split
        · exact List.mem_erase_of_ne e
        · rfl
    · rw [hpu]
      split
      · exact h.nodup.erase _
      · exact h.nodup
    · intro Q hQ; rw [f3]; exact h.fresh Q (hsub Q hQ)

theorem foldl_reset {w : World α} (h : RefsOk w) (l : List α) :
    RefsOk (l.foldl reset w) ∧ (l.foldl reset w).parts = w.parts ∧ (l.foldl reset w).next = w.next ∧
    (∀ x, x ∈ l → (l.foldl reset w).containing x = none) ∧
    (∀ x, x ∉ l → (l.foldl reset w).containing x = w.containing x) := by
  induction l generalizing w with
  | nil => exact ⟨h, rfl, rfl, by simp, by simp⟩
  | cons a l ih =>
    obtain ⟨f1, f2, f3⟩ := reset_fields w a
    obtain ⟨i1, i2, i3, i4, i5⟩ := ih (reset_ok h a)
    refine ⟨i1, by rw [← f2]; exact i2, by rw [← f3]; exact i3, ?_, ?_⟩
    · intro x hx
      simp only [List.foldl_cons]
      by_cases hm : x ∈ l
      · exact i4 x hm
      · rw [i5 x hm, f1]
        have : x = a := by
          rcases List.mem_cons.1 hx with h | h
          · exact h
          · exact absurd h hm
        subst this; exact upd_self _ _ _
    · intro x hx
      simp only [List.foldl_cons]
      rw [i5 x (fun hm => hx (List.mem_cons_of_mem _ hm)), f1]
      exact upd_ne _ _ (fun e => hx (e ▸ List.mem_cons_self))

/-- The relation of an (as yet uncollected) subset `S`, with properties `p`, to the initial pile-ups of `w₀`. -/
def Status (w w₀ : World α) (S : α → Prop) (p : Properties α) : Prop :=
  (∃ P, (∀ y, S y → w.containing y = some P) ∧ p.missing = ((w₀.parts P).length : Int) - p.parts.length) ∨
  ((∀ y, S y → w.containing y = none) ∧ ¬∃ P, ∀ y, S y → w₀.containing y = some P)

theorem Status.congr {w w' w₀ : World α} {S S' : α → Prop} {p : Properties α} (h : Status w w₀ S p)
    (hS : ∀ y, S y ↔ S' y) (hc : ∀ y, S y → w'.containing y = w.containing y) : Status w' w₀ S' p := by
  rcases h with ⟨P, h1, h2⟩ | ⟨h1, h2⟩
  · exact Or.inl ⟨P, fun y hy => by rw [hc y ((hS y).2 hy)]; exact h1 y ((hS y).2 hy), h2⟩
  · refine Or.inr ⟨fun y hy => by rw [hc y ((hS y).2 hy)]; exact h1 y ((hS y).2 hy), ?_⟩
    rintro ⟨P, hP⟩
    exact h2 ⟨P, fun y hy => hP y ((hS y).1 hy)⟩

theorem front_of_mem {w : World α} {p : Properties α} {r : α} (hr : r ∈ p.parts) :
    ∃ h, h ∈ p.parts ∧ frontPileUp p w = some (w.containing h) := by
  unfold frontPileUp
  match hp : p.parts, hr with
  | h :: t, _ => exact ⟨h, by simp, by simp⟩

theorem merge_spec {w w₀ : World α} (hok : RefsOk w) (hwp : w.parts = w₀.parts)
    (hsub : ∀ x P, w.containing x = some P → w₀.containing x = some P)
    {p q : Properties α} {S T : α → Prop} (hp : ∀ y, y ∈ p.parts ↔ S y) (hq : ∀ y, y ∈ q.parts ↔ T y)
    (hpn : p.parts.Nodup) (hqn : q.parts.Nodup) (hd : ∀ y, S y → ¬T y) {a b : α} (ha : S a) (hb : T b)
    (hS : Status w w₀ S p) (hT : Status w w₀ T q) :
    ∃ p' q' w', merge p q w = some (p', q', w') ∧ p'.collected = p.collected ∧ p'.parts = p.parts ++ q.parts ∧
      p'.grounded = (p.grounded || q.grounded) ∧ RefsOk w' ∧ w'.parts = w.parts ∧ w'.next = w.next ∧
      (∀ x, ¬S x → ¬T x → w'.containing x = w.containing x) ∧
      (∀ x P, w'.containing x = some P → w.containing x = some P) ∧
      Status w' w₀ (fun y => S y ∨ T y) p' := by
  obtain ⟨h, hh, eh⟩ := front_of_mem (w := w) ((hp a).2 ha)
  obtain ⟨k, hk, ek⟩ := front_of_mem (w := w) ((hq b).2 hb)
  have hhS := (hp h).1 hh
  have hkT := (hq k).1 hk
  simp only [merge, eh, ek, Option.bind_eq_bind, Option.bind_some, Option.pure_def]
  by_cases hsame : (w.containing h).isSome ∧ w.containing h = w.containing k
  · rw [if_pos hsame]
    obtain ⟨hs1, hs2⟩ := hsame
    obtain ⟨P, hP⟩ := Option.isSome_iff_exists.1 hs1
    have hSP : (∀ y, S y → w.containing y = some P) ∧ p.missing = ((w₀.parts P).length : Int) - p.parts.length := by
      rcases hS with ⟨Q, h1, h2⟩ | ⟨h1, _⟩
      · have : Q = P := by have := h1 h hhS; rw [hP] at this; simpa using this.symm
        subst this; exact ⟨h1, h2⟩
      · rw [h1 h hhS] at hP; simp at hP
    have hTP : (∀ y, T y → w.containing y = some P) ∧ q.missing = ((w₀.parts P).length : Int) - q.parts.length := by
      rcases hT with ⟨Q, h1, h2⟩ | ⟨h1, _⟩
      · have : Q = P := by have := h1 k hkT; rw [← hs2, hP] at this; simpa using this.symm
        subst this; exact ⟨h1, h2⟩
      · rw [hs2, h1 k hkT] at hP; simp at hP
    have hlen : (p.parts ++ q.parts).length ≤ (w₀.parts P).length := by
      apply List.Subperm.length_le
      apply List.Nodup.subperm
      · rw [List.nodup_append]
        refine ⟨hpn, hqn, ?_⟩
        intro x hx y hy e
        subst e
        exact hd x ((hp x).1 hx) ((hq x).1 hy)
      · intro x hx
        rw [← hwp]
        apply hok.mem
        rcases List.mem_append.1 hx with hx | hx
        · exact hSP.1 x ((hp x).1 hx)
        · exact hTP.1 x ((hq x).1 hx)
    rw [List.length_append] at hlen
    rw [if_pos (by rw [hSP.2, hTP.2]; omega), if_pos (by rw [hSP.2]; omega)]
    refine ⟨_, _, _, rfl, rfl, rfl, rfl, hok, rfl, rfl, fun _ _ _ => rfl, fun _ _ h => h, ?_⟩
    left
    refine ⟨P, ?_, ?_⟩
    · rintro y (hy | hy)
      · exact hSP.1 y hy
      · exact hTP.1 y hy
    · simp only [List.length_append]; rw [hSP.2]; omega
  · rw [if_neg hsame]
    obtain ⟨i1, i2, i3, i4, i5⟩ := foldl_reset hok p.parts
    obtain ⟨j1, j2, j3, j4, j5⟩ := foldl_reset i1 q.parts
    have hnone : ∀ y, S y ∨ T y → (q.parts.foldl reset (p.parts.foldl reset w)).containing y = none := by
      rintro y (hy | hy)
      · rw [j5 y (fun hm => hd y hy ((hq y).1 hm))]; exact i4 y ((hp y).2 hy)
      · exact j4 y ((hq y).2 hy)
    have hother : ∀ y, ¬S y → ¬T y →
        (q.parts.foldl reset (p.parts.foldl reset w)).containing y = w.containing y := by
      intro y hy1 hy2
      rw [j5 y (fun hm => hy2 ((hq y).1 hm)), i5 y (fun hm => hy1 ((hp y).1 hm))]
    refine ⟨_, _, _, rfl, rfl, rfl, rfl, j1, by rw [j2, i2], by rw [j3, i3], hother, ?_, ?_⟩
    · intro x P hx
      by_cases h1 : S x ∨ T x
      · rw [hnone x h1] at hx; simp at hx
      · rw [hother x (fun h => h1 (Or.inl h)) (fun h => h1 (Or.inr h))] at hx; exact hx
    · right
      refine ⟨hnone, ?_⟩
      rintro ⟨P, hP⟩
      rcases hS with ⟨P1, hS1, _⟩ | ⟨_, hS1⟩
      · rcases hT with ⟨P2, hT1, _⟩ | ⟨_, hT1⟩
        · have e1 := hsub _ _ (hS1 h hhS)
          rw [hP h (Or.inl hhS)] at e1
          have e2 := hsub _ _ (hT1 k hkT)
          rw [hP k (Or.inr hkT)] at e2
          apply hsame
          rw [hS1 h hhS, hT1 k hkT]
          refine ⟨rfl, ?_⟩
          rw [← e1, e2]
        · exact hT1 ⟨P, fun y hy => hP y (Or.inr hy)⟩
      · exact hS1 ⟨P, fun y hy => hP y (Or.inl hy)⟩

/-- The invariant of the phase of unions. -/
structure UInv (s : PState α) (R : α → α → Prop) (K : Nat) (w₀ : World α) (freed grounded : α → Prop) : Prop where
  inv : Inv s R K
  partsNodup : ∀ r, s.parent r = r → (s.props r).parts.Nodup
  partsMem : ∀ r, s.parent r = r → ∀ y, y ∈ (s.props r).parts ↔ R r y
  uncollected : ∀ r, s.parent r = r → (s.props r).collected = false
  ground : ∀ r, s.parent r = r → ((s.props r).grounded = true ↔ ∃ g, grounded g ∧ R r g)
  ok : RefsOk s.world
  sub : ∀ x P, s.world.containing x = some P → w₀.containing x = some P
  wparts : s.world.parts = w₀.parts
  wnext : s.world.next = w₀.next
  freedNone : ∀ x, freed x → s.world.containing x = none
  status : ∀ r, s.parent r = r → (∀ y, R r y → ¬freed y) → Status s.world w₀ (R r) (s.props r)

theorem root_iff {parent parent' : α → α} (h : ∀ x q, Reaches parent x q ↔ Reaches parent' x q) (r : α) :
    parent' r = r ↔ parent r = r := by
  constructor
  · intro e; exact ((h r r).2 (.base e)).isRoot
  · intro e; exact ((h r r).1 (.base e)).isRoot

theorem UInv.reshape {s s' : PState α} {R : α → α → Prop} {K K' : Nat} {w₀ : World α} {freed grounded : α → Prop}
    (h : UInv s R K w₀ freed grounded) (hi : Inv s' R K') (hp : s'.props = s.props) (hw : s'.world = s.world)
    (hr : ∀ x q, Reaches s.parent x q ↔ Reaches s'.parent x q) : UInv s' R K' w₀ freed grounded := by
  have hroot := root_iff hr
  refine ⟨hi, ?_, ?_, ?_, ?_, ?_, ?_, ?_, ?_, ?_, ?_⟩
  · intro r hr'; rw [hp]; exact h.partsNodup r ((hroot r).1 hr')
  · intro r hr'; rw [hp]; exact h.partsMem r ((hroot r).1 hr')
  · intro r hr'; rw [hp]; exact h.uncollected r ((hroot r).1 hr')
  · intro r hr'; rw [hp]; exact h.ground r ((hroot r).1 hr')
  · rw [hw]; exact h.ok
  · rw [hw]; exact h.sub
  · rw [hw]; exact h.wparts
  · rw [hw]; exact h.wnext
  · rw [hw]; exact h.freedNone
  · intro r hr'; rw [hp, hw]; exact h.status r ((hroot r).1 hr')

theorem UInv.mono {s : PState α} {R : α → α → Prop} {K : Nat} {w₀ : World α} {freed grounded : α → Prop}
    (h : UInv s R K w₀ freed grounded) : UInv s R (K + 1) w₀ freed grounded :=
  h.reshape ⟨h.inv.ranks, fun x => Nat.le_succ_of_le (h.inv.bound x), h.inv.repr⟩ rfl rfl (fun _ _ => Iff.rfl)

theorem join_of_rel {s : PState α} {R : α → α → Prop} {K : Nat} (h : Inv s R K) {a b : α} (hab : R a b) :
    join R a b = R := by
  funext x y
  apply propext
  constructor
  · rintro (h1 | ⟨h1, h2⟩ | ⟨h1, h2⟩)
    · exact h1
    · exact h.trans (h.trans h1 hab) h2
    · exact h.trans (h.trans h1 (h.symm hab)) h2
  · exact Or.inl

theorem unite_step {s : PState α} {R : α → α → Prop} {K fuel : Nat} {w₀ : World α} {freed grounded : α → Prop}
    (h : UInv s R K w₀ freed grounded) (hf : K < fuel) (rf : Bool) (a b : α) (ha : ∀ y, R a y → ¬freed y)
    (hb : ∀ y, R b y → ¬freed y) :
    ∃ s', step fuel s (.unite rf a b) = some s' ∧ UInv s' (join R a b) (K + 1) w₀ freed grounded := by
  obtain ⟨l, r, hl, hr, hcase⟩ := uniteElements_spec (merge := merge) h.inv hf rf a b
  rcases hcase with ⟨hR, s', e, i, hp, hw, hreach⟩ | ⟨hnR, hlr, into, source, hio, hspec⟩
  · refine ⟨s', e, ?_⟩
    rw [join_of_rel h.inv hR]
    exact (h.reshape i hp hw hreach).mono
  · have hal := h.inv.rel_root hl
    have hbr := h.inv.rel_root hr
    have hrl : s.parent l = l := hl.isRoot
    have hrr : s.parent r = r := hr.isRoot
    have hroots : s.parent into = into ∧ s.parent source = source ∧ into ≠ source ∧
        (∀ y, R into y → ¬freed y) ∧ (∀ y, R source y → ¬freed y) ∧ ¬R into source ∧
        (∀ x y, join R a b x y ↔ join R into source x y) := by
      have hnlr : ¬R l r := fun hh => hnR (h.inv.trans hal (h.inv.trans hh (h.inv.symm hbr)))
      have hj : ∀ x y, join R a b x y ↔ join R l r x y := by
        intro x y
        unfold join
        constructor
        · rintro (h1 | ⟨h1, h2⟩ | ⟨h1, h2⟩)
          · exact Or.inl h1
          · exact Or.inr (Or.inl ⟨h.inv.trans h1 hal, h.inv.trans (h.inv.symm hbr) h2⟩)
          · exact Or.inr (Or.inr ⟨h.inv.trans h1 hbr, h.inv.trans (h.inv.symm hal) h2⟩)
        · rintro (h1 | ⟨h1, h2⟩ | ⟨h1, h2⟩)
          · exact Or.inl h1
          · exact Or.inr (Or.inl ⟨h.inv.trans h1 (h.inv.symm hal), h.inv.trans hbr h2⟩)
          · exact Or.inr (Or.inr ⟨h.inv.trans h1 (h.inv.symm hbr), h.inv.trans hal h2⟩)
      rcases hio with ⟨rfl, rfl⟩ | ⟨rfl, rfl⟩
      · exact ⟨hrl, hrr, hlr, fun y hy => ha y (h.inv.trans hal hy), fun y hy => hb y (h.inv.trans hbr hy), hnlr, hj⟩
      · refine ⟨hrr, hrl, fun e => hlr e.symm, fun y hy => hb y (h.inv.trans hbr hy),
          fun y hy => ha y (h.inv.trans hal hy), fun hh => hnlr (h.inv.symm hh), ?_⟩
        intro x y
        rw [hj]
        exact join_symm h.inv _ _ _ _
    obtain ⟨hinto, hsource, hne, huI, huS, hnIS, hj⟩ := hroots
    obtain ⟨p', q', w', em, c1, c2, c3, c4, c5, c6, c7, c8, c9⟩ :=
      merge_spec h.ok h.wparts h.sub (h.partsMem into hinto) (h.partsMem source hsource) (h.partsNodup into hinto)
        (h.partsNodup source hsource) (fun y h1 h2 => hnIS (h.inv.trans h1 (h.inv.symm h2)))
        (h.inv.refl into) (h.inv.refl source) (h.status into hinto huI) (h.status source hsource huS)
    obtain ⟨s', e, i, hp, hw, f1, f2⟩ := hspec p' q' w' em
    refine ⟨s', e, ?_⟩
    -- The roots of `s'`.
    have hroot : ∀ x, s'.parent x = x → s.parent x = x ∧ x ≠ source := by
      intro x hx
      obtain ⟨q, hq⟩ := h.inv.reaches_exists x
      by_cases e : q = source
      · subst e
        have := f2 x hq
        have hxi : x = into := Reaches.unique (.base hx) this
        subst hxi
        exact ⟨hinto, hne⟩
      · have := f1 x q hq e
        have hxq : x = q := Reaches.unique (.base hx) this
        subst hxq
        exact ⟨hq.isRoot, e⟩
    have hpi : s'.props into = p' := by rw [hp, upd_self]
    have hpo : ∀ x, x ≠ into → x ≠ source → s'.props x = s.props x := by
      intro x h1 h2; rw [hp, upd_ne _ _ h1, upd_ne _ _ h2]
    have hRi : ∀ y, join R a b into y ↔ (R into y ∨ R source y) := by
      intro y
      rw [hj]
      unfold join
      constructor
      · rintro (h1 | ⟨h1, h2⟩ | ⟨h1, h2⟩)
        · exact Or.inl h1
        · exact Or.inr h2
        · exact absurd h1 hnIS
      · rintro (h1 | h1)
        · exact Or.inl h1
        · exact Or.inr (Or.inl ⟨h.inv.refl _, h1⟩)
    have hRo : ∀ x, s.parent x = x → x ≠ into → x ≠ source → ∀ y, join R a b x y ↔ R x y := by
      intro x hx h1 h2 y
      have hn1 : ¬R x into := by
        intro hh
        obtain ⟨q, g1, g2⟩ := (h.inv.repr x into).1 hh
        exact h1 (by rw [Reaches.unique (.base hx) g1, Reaches.unique (.base hinto) g2])
      have hn2 : ¬R x source := by
        intro hh
        obtain ⟨q, g1, g2⟩ := (h.inv.repr x source).1 hh
        exact h2 (by rw [Reaches.unique (.base hx) g1, Reaches.unique (.base hsource) g2])
      rw [hj]
      unfold join
      constructor
      · rintro (g | ⟨g, _⟩ | ⟨g, _⟩)
        · exact g
        · exact absurd g hn1
        · exact absurd g hn2
      · exact Or.inl
    refine ⟨i, ?_, ?_, ?_, ?_, ?_, ?_, ?_, ?_, ?_, ?_⟩
    · intro x hx
      obtain ⟨g1, g2⟩ := hroot x hx
      by_cases e : x = into
      · subst e
        rw [hpi, c2, List.nodup_append]
        refine ⟨h.partsNodup x g1, h.partsNodup source hsource, ?_⟩
        intro u hu v hv e
        subst e
        exact hnIS (h.inv.trans ((h.partsMem x g1 u).1 hu) (h.inv.symm ((h.partsMem source hsource u).1 hv)))
      · rw [hpo x e g2]; exact h.partsNodup x g1
    · intro x hx y
      obtain ⟨g1, g2⟩ := hroot x hx
      by_cases e : x = into
      · subst e
        rw [hpi, c2, List.mem_append, h.partsMem x g1, h.partsMem source hsource, hRi]
      · rw [hpo x e g2, hRo x g1 e g2]; exact h.partsMem x g1 y
    · intro x hx
      obtain ⟨g1, g2⟩ := hroot x hx
      by_cases e : x = into
      · subst e; rw [hpi, c1]; exact h.uncollected x g1
      · rw [hpo x e g2]; exact h.uncollected x g1
    · intro x hx
      obtain ⟨g1, g2⟩ := hroot x hx
      by_cases e : x = into
      · subst e
        rw [hpi, c3, Bool.or_eq_true, h.ground x g1, h.ground source hsource]
        constructor
        · rintro (⟨g, k1, k2⟩ | ⟨g, k1, k2⟩)
          · exact ⟨g, k1, (hRi g).2 (Or.inl k2)⟩
          · exact ⟨g, k1, (hRi g).2 (Or.inr k2)⟩
        · rintro ⟨g, k1, k2⟩
          rcases (hRi g).1 k2 with k2 | k2
          · exact Or.inl ⟨g, k1, k2⟩
          · exact Or.inr ⟨g, k1, k2⟩
      · rw [hpo x e g2, h.ground x g1]
        constructor
        · rintro ⟨g, k1, k2⟩; exact ⟨g, k1, (hRo x g1 e g2 g).2 k2⟩
        · rintro ⟨g, k1, k2⟩; exact ⟨g, k1, (hRo x g1 e g2 g).1 k2⟩
    · rw [hw]; exact c4
    · intro x P hx; rw [hw] at hx; exact h.sub x P (c8 x P hx)
    · rw [hw, c5]; exact h.wparts
    · rw [hw, c6]; exact h.wnext
    · intro x hx
      rw [hw]
      cases hc : w'.containing x with
      | none => rfl
      | some P => have := c8 x P hc; rw [h.freedNone x hx] at this; simp at this
    · intro x hx hu
      obtain ⟨g1, g2⟩ := hroot x hx
      rw [hw]
      by_cases e : x = into
      · subst e
        rw [hpi]
        exact c9.congr (fun y => (hRi y).symm) (fun _ _ => rfl)
      · rw [hpo x e g2]
        have hnot : ∀ y, R x y → ¬R into y ∧ ¬R source y := by
          intro y hy
          have k := hRo x g1 e g2
          constructor
          · intro hh
            have : R x into := h.inv.trans hy (h.inv.symm hh)
            obtain ⟨q, u1, u2⟩ := (h.inv.repr x into).1 this
            exact e (by rw [Reaches.unique (.base g1) u1, Reaches.unique (.base hinto) u2])
          · intro hh
            have : R x source := h.inv.trans hy (h.inv.symm hh)
            obtain ⟨q, u1, u2⟩ := (h.inv.repr x source).1 this
            exact g2 (by rw [Reaches.unique (.base g1) u1, Reaches.unique (.base hsource) u2])
        exact (h.status x g1 (fun y hy => hu y ((hRo x g1 e g2 y).2 hy))).congr (fun y => (hRo x g1 e g2 y).symm)
          (fun y hy => c7 y (hnot y hy).1 (hnot y hy).2)

theorem ground_step {s : PState α} {R : α → α → Prop} {K fuel : Nat} {w₀ : World α} {freed grounded : α → Prop}
    (h : UInv s R K w₀ freed grounded) (hf : K < fuel) (a : α) :
    ∃ s', step fuel s (.ground a) = some s' ∧ UInv s' R (K + 1) w₀ freed (fun x => x = a ∨ grounded x) := by
  obtain ⟨s1, r, e, i, hr, hp, hw, _, hreach⟩ := find_spec h.inv hf a
  have h1 := (h.reshape i hp hw hreach).mono
  have har := i.rel_root hr
  refine ⟨{ s1 with props := upd s1.props r { s1.props r with grounded := true } },
    by simp [step, e], ⟨⟨h1.inv.ranks, h1.inv.bound, h1.inv.repr⟩, ?_, ?_, ?_, ?_, h1.ok, h1.sub, h1.wparts, h1.wnext,
      h1.freedNone, ?_⟩⟩
  · intro x hx
    by_cases ex : x = r
    · subst ex; simp only [upd_self]; exact h1.partsNodup x hx
    · simp only [upd_ne _ _ ex]; exact h1.partsNodup x hx
  · intro x hx
    by_cases ex : x = r
    · subst ex; simp only [upd_self]; exact h1.partsMem x hx
    · simp only [upd_ne _ _ ex]; exact h1.partsMem x hx
  · intro x hx
    by_cases ex : x = r
    · subst ex; simp only [upd_self]; exact h1.uncollected x hx
    · simp only [upd_ne _ _ ex]; exact h1.uncollected x hx
  · intro x hx
    by_cases ex : x = r
    · subst ex
      simp only [upd_self]
      simp only [true_iff]
      exact ⟨a, Or.inl rfl, i.symm har⟩
    · simp only [upd_ne _ _ ex]
      rw [h1.ground x hx]
      constructor
      · rintro ⟨g, k1, k2⟩; exact ⟨g, Or.inr k1, k2⟩
      · rintro ⟨g, k1, k2⟩
        rcases k1 with rfl | k1
        · exfalso
          obtain ⟨q, u1, u2⟩ := (i.repr x r).1 (i.trans k2 har)
          exact ex (by rw [Reaches.unique (.base hx) u1, Reaches.unique (.base hr.isRoot) u2])
        · exact ⟨g, k1, k2⟩
  · intro x hx hu
    have := h1.status x hx hu
    by_cases ex : x = r
    · subst ex; simp only [upd_self]; exact this
    · simp only [upd_ne _ _ ex]; exact this

theorem free_step {s : PState α} {R : α → α → Prop} {K fuel : Nat} {w₀ : World α} {freed grounded : α → Prop}
    (h : UInv s R K w₀ freed grounded) (a : α) :
    ∃ s', step fuel s (.free a) = some s' ∧ UInv s' R (K + 1) w₀ (fun x => x = a ∨ freed x) grounded := by
  obtain ⟨f1, f2, f3⟩ := reset_fields s.world a
  have h1 := h.mono
  refine ⟨_, rfl, ⟨⟨h1.inv.ranks, h1.inv.bound, h1.inv.repr⟩, h.partsNodup, h.partsMem, h.uncollected, h.ground,
    reset_ok h.ok a, ?_, ?_, ?_, ?_, ?_⟩⟩
  · intro x P hx
    simp only [f1] at hx
    by_cases e : x = a
    · subst e; rw [upd_self] at hx; simp at hx
    · rw [upd_ne _ _ e] at hx; exact h.sub x P hx
  · simp only [f2]; exact h.wparts
  · simp only [f3]; exact h.wnext
  · intro x hx
    simp only [f1]
    by_cases e : x = a
    · subst e; exact upd_self _ _ _
    · rw [upd_ne _ _ e]
      rcases hx with hx | hx
      · exact absurd hx e
      · exact h.freedNone x hx
  · intro r hr hu
    refine (h.status r hr (fun y hy hfy => hu y hy (Or.inr hfy))).congr (fun _ => Iff.rfl) ?_
    intro y hy
    have : y ≠ a := fun e => hu y hy (Or.inl e)
    simp only [f1]
    exact upd_ne _ _ this

end Principia.PileUps
