import Verif.Ksp.PileUpsCollect
import Verif.Base.DisjointSetsProps

/-!
# C08: pile-ups are the connected components of the parts
-/

set_option linter.unusedSectionVars false
set_option linter.unusedVariables false

namespace Principia.PileUps

open Principia.DisjointSets

variable {α : Type} [DecidableEq α]

/-! ## Specification -/

/-- Two parts are joined if they are connected by contacts and by being in the same vessel. -/
inductive Joined (f : Frame α) : α → α → Prop
  | refl (x : α) : Joined f x x
  | contact {rf : Bool} {x y : α} : Op.unite rf x y ∈ f.contacts → Joined f x y
  | vessel {v : List α} {x y : α} : v ∈ f.vessels → x ∈ v → y ∈ v → Joined f x y
  | symm {x y : α} : Joined f x y → Joined f y x
  | trans {x y z : α} : Joined f x y → Joined f y z → Joined f x z

/-- The part is kept. -/
def Kept (f : Frame α) (x : α) : Prop := ∃ v ∈ f.vessels, x ∈ v

/-- The part is joined to one that touches the ground. -/
def Grounded (f : Frame α) (x : α) : Prop := ∃ y, Op.ground y ∈ f.contacts ∧ Joined f x y

/-- The part survives: it is kept, and it is not joined to one that touches the ground. -/
def Survives (f : Frame α) (x : α) : Prop := Kept f x ∧ ¬Grounded f x

/-- What the caller must ensure: contacts are only reported between kept parts (the `CHECK`s at
ksp_plugin/plugin.cpp:585-588); there are no destructions among the contacts; a part is either kept or removed; a vessel
has parts. -/
structure WellFormed (f : Frame α) : Prop where
  unite : ∀ rf a b, Op.unite rf a b ∈ f.contacts → Kept f a ∧ Kept f b
  free : ∀ a, Op.free a ∉ f.contacts
  removed : ∀ a, a ∈ f.removed ↔ ¬Kept f a
  nonempty : ∀ v ∈ f.vessels, v ≠ []

/-- The parts and pile-ups are consistent: the pile-up of a part lists it; a pile-up that exists lists each of its parts once,
and they designate it; a pile-up exists if some part designates it, and its shared pointers are those of its
parts. -/
structure Arrangement (w : World α) : Prop where
  listed : ∀ x P, w.containing x = some P → P ∈ w.pileUps ∧ x ∈ w.parts P
  designates : ∀ P ∈ w.pileUps, ∀ x ∈ w.parts P, w.containing x = some P
  nodupParts : ∀ P ∈ w.pileUps, (w.parts P).Nodup
  nonempty : ∀ P ∈ w.pileUps, w.parts P ≠ []
  refs : ∀ P, w.refs P = (w.parts P).countP (fun x => w.containing x = some P)
  nodup : w.pileUps.Nodup
  fresh : ∀ P ∈ w.pileUps, P < w.next

theorem Arrangement.consistent {w : World α} (h : Arrangement w) : Consistent w := by
  refine ⟨⟨fun x P hx => (h.listed x P hx).2, h.nodupParts, h.refs, ?_, h.nodup, h.fresh⟩, h.designates⟩
  intro P
  rw [h.refs, List.countP_pos_iff]
  constructor
  · intro hP
    obtain ⟨x, hx⟩ := List.exists_mem_of_ne_nil _ (h.nonempty P hP)
    exact ⟨x, hx, by simpa using h.designates P hP x hx⟩
  · rintro ⟨x, _, hx⟩
    exact (h.listed x P (by simpa using hx)).1

theorem Consistent.arrangement {w : World α} (h : Consistent w) : Arrangement w := by
  refine ⟨fun x P hx => ⟨(h.ok.alive_iff P).2 ⟨x, hx⟩, h.ok.mem x P hx⟩, h.contains, h.ok.nodupParts, ?_, h.ok.refs,
    h.ok.nodup, h.ok.fresh⟩
  intro P hP
  obtain ⟨x, hx⟩ := (h.ok.alive_iff P).1 hP
  exact List.ne_nil_of_mem (h.ok.mem x P hx)

/-! ## Phases -/

/-- The effect of operations on the relation. -/
def relAfter (R : α → α → Prop) : List (Op α) → α → α → Prop
  | [] => R
  | .unite _ a b :: ops => relAfter (join R a b) ops
  | _ :: ops => relAfter R ops

theorem phase {fuel : Nat} {w₀ : World α} (kept : α → Prop) (ops : List (Op α))
    {s : PState α} {R : α → α → Prop} {K : Nat} {freed grounded : α → Prop}
    (h : UInv s R K w₀ freed grounded) (hf : K + ops.length ≤ fuel)
    (hk : ∀ x y, R x y → kept x → kept y) (hfr : ∀ x, kept x → ¬freed x)
    (hu : ∀ rf a b, Op.unite rf a b ∈ ops → kept a ∧ kept b)
    (hfree : ∀ a, Op.free a ∈ ops → ¬kept a) :
    ∃ s', ops.foldlM (step fuel) s = some s' ∧
      UInv s' (relAfter R ops) (K + ops.length) w₀ (fun x => Op.free x ∈ ops ∨ freed x)
        (fun x => Op.ground x ∈ ops ∨ grounded x) ∧
      (∀ x y, relAfter R ops x y → kept x → kept y) := by
  induction ops generalizing s R K freed grounded with
  | nil => exact ⟨s, rfl, by simpa [relAfter] using h, hk⟩
  | cons o ops ih =>
    simp only [List.length_cons] at hf
    cases o with
    | unite rf a b =>
      obtain ⟨ka, kb⟩ := hu rf a b (by simp)
      obtain ⟨s1, e1, h1⟩ := unite_step h (by omega : K < fuel) rf a b (fun y hy => hfr y (hk a y hy ka))
        (fun y hy => hfr y (hk b y hy kb))
      obtain ⟨s2, e2, h2, h3⟩ := ih h1 (by omega) (by
          rintro x y (g | ⟨g1, g2⟩ | ⟨g1, g2⟩) hx
          · exact hk x y g hx
          · exact hk b y g2 kb
          · exact hk a y g2 ka) hfr (fun rf a b hm => hu rf a b (List.mem_cons_of_mem _ hm))
          (fun a hm => hfree a (List.mem_cons_of_mem _ hm))
      refine ⟨s2, by simp [List.foldlM_cons, e1, e2], ?_, h3⟩
      simpa [relAfter, Nat.add_assoc, Nat.add_comm 1] using h2
    | ground a =>
      obtain ⟨s1, e1, h1⟩ := ground_step h (by omega : K < fuel) a
      obtain ⟨s2, e2, h2, h3⟩ := ih h1 (by omega) hk hfr (fun rf a b hm => hu rf a b (List.mem_cons_of_mem _ hm))
          (fun a hm => hfree a (List.mem_cons_of_mem _ hm))
      refine ⟨s2, by simp [List.foldlM_cons, e1, e2], ?_, h3⟩
      have : (fun x => Op.ground x ∈ Op.ground a :: ops ∨ grounded x)
          = (fun x => Op.ground x ∈ ops ∨ x = a ∨ grounded x) := by
        funext x; apply propext; simp only [List.mem_cons, Op.ground.injEq]
        constructor
        · rintro ((g | g) | g) <;> simp [g]
        · rintro (g | g | g) <;> simp [g]
      rw [this]
      simpa [relAfter, Nat.add_assoc, Nat.add_comm 1] using h2
    | find a =>
      obtain ⟨s1, r, e, i, hr, hp, hw, _, hreach⟩ := find_spec h.inv (by omega : K < fuel) a
      have h1 := (h.reshape i hp hw hreach).mono
      obtain ⟨s2, e2, h2, h3⟩ := ih h1 (by omega) hk hfr (fun rf a b hm => hu rf a b (List.mem_cons_of_mem _ hm))
          (fun a hm => hfree a (List.mem_cons_of_mem _ hm))
      refine ⟨s2, by simp [List.foldlM_cons, step, e, e2], ?_, h3⟩
      simpa [relAfter, Nat.add_assoc, Nat.add_comm 1] using h2
    | free a =>
      obtain ⟨s1, e1, h1⟩ := free_step (fuel := fuel) h a
      have ka := hfree a (by simp)
      obtain ⟨s2, e2, h2, h3⟩ := ih h1 (by omega) hk (by
          rintro x hx (rfl | g)
          · exact ka hx
          · exact hfr x hx g) (fun rf a b hm => hu rf a b (List.mem_cons_of_mem _ hm))
          (fun a hm => hfree a (List.mem_cons_of_mem _ hm))
      refine ⟨s2, by simp [List.foldlM_cons, e1, e2], ?_, h3⟩
      have : (fun x => Op.free x ∈ Op.free a :: ops ∨ freed x)
          = (fun x => Op.free x ∈ ops ∨ x = a ∨ freed x) := by
        funext x; apply propext; simp only [List.mem_cons, Op.free.injEq]
        constructor
        · rintro ((g | g) | g) <;> simp [g]
        · rintro (g | g | g) <;> simp [g]
      rw [this]
      simpa [relAfter, Nat.add_assoc, Nat.add_comm 1] using h2

theorem initial {s : PState α} (junk : α → Int) (hs : Singletons (mk junk) s) (hc : Consistent s.world) :
    UInv s Eq 0 s.world (fun _ => False) (fun _ => False) := by
  refine ⟨inv_singletons s (fun x => (hs x).1) (fun x => (hs x).2.1), ?_, ?_, ?_, ?_, hc.ok, fun _ _ h => h, rfl, rfl,
    fun _ h => h.elim, ?_⟩
  · intro r _; rw [(hs r).2.2]; simp [mk]
  · intro r _ y; rw [(hs r).2.2]; simp [mk, eq_comm]
  · intro r _; rw [(hs r).2.2]; simp [mk]
  · intro r _; rw [(hs r).2.2]; simp [mk]
  · intro r _ _
    rw [(hs r).2.2]
    cases e : s.world.containing r with
    | none =>
      right
      refine ⟨?_, ?_⟩
      · rintro y rfl; exact e
      · rintro ⟨P, hP⟩; rw [hP r rfl] at e; simp at e
    | some P =>
      left
      refine ⟨P, ?_, ?_⟩
      · rintro y rfl; exact e
      · simp [mk, e]

/-! ## The relation after the unions -/

theorem relAfter_append (R : α → α → Prop) (l l' : List (Op α)) :
    relAfter R (l ++ l') = relAfter (relAfter R l) l' := by
  induction l generalizing R with
  | nil => rfl
  | cons o l ih => cases o <;> exact ih _

theorem relAfter_free (R : α → α → Prop) (l : List α) : relAfter R (l.map Op.free) = R := by
  induction l with
  | nil => rfl
  | cons o l ih => exact ih

/-- The relation generated by operations. -/
inductive Gen (R : α → α → Prop) (ops : List (Op α)) : α → α → Prop
  | base {x y : α} : R x y → Gen R ops x y
  | union {rf : Bool} {x y : α} : Op.unite rf x y ∈ ops → Gen R ops x y
  | symm {x y : α} : Gen R ops x y → Gen R ops y x
  | trans {x y z : α} : Gen R ops x y → Gen R ops y z → Gen R ops x z

theorem join_equiv {R : α → α → Prop} (hR : Equivalence R) (a b : α) : Equivalence (join R a b) := by
  refine ⟨fun x => Or.inl (hR.refl x), ?_, ?_⟩
  · rintro x y (h | ⟨h1, h2⟩ | ⟨h1, h2⟩)
    · exact Or.inl (hR.symm h)
    · exact Or.inr (Or.inr ⟨hR.symm h2, hR.symm h1⟩)
    · exact Or.inr (Or.inl ⟨hR.symm h2, hR.symm h1⟩)
  · rintro x y z (h | ⟨h1, h2⟩ | ⟨h1, h2⟩) (g | ⟨g1, g2⟩ | ⟨g1, g2⟩)
    · exact Or.inl (hR.trans h g)
    · exact Or.inr (Or.inl ⟨hR.trans h g1, g2⟩)
    · exact Or.inr (Or.inr ⟨hR.trans h g1, g2⟩)
    · exact Or.inr (Or.inl ⟨h1, hR.trans h2 g⟩)
    · exact Or.inr (Or.inl ⟨h1, g2⟩)
    · exact Or.inl (hR.trans h1 g2)
    · exact Or.inr (Or.inr ⟨h1, hR.trans h2 g⟩)
    · exact Or.inl (hR.trans h1 g2)
    · exact Or.inr (Or.inr ⟨h1, g2⟩)

theorem relAfter_equiv {R : α → α → Prop} (hR : Equivalence R) (ops : List (Op α)) : Equivalence (relAfter R ops) := by
  induction ops generalizing R with
  | nil => exact hR
  | cons o ops ih => cases o <;> first | exact ih (join_equiv hR _ _) | exact ih hR

theorem relAfter_base {R : α → α → Prop} (hR : Equivalence R) (ops : List (Op α)) {x y : α} (h : R x y) :
    relAfter R ops x y := by
  induction ops generalizing R with
  | nil => exact h
  | cons o ops ih => cases o <;> first | exact ih hR h | exact ih (join_equiv hR _ _) (Or.inl h)

theorem relAfter_union {R : α → α → Prop} (hR : Equivalence R) (ops : List (Op α)) {rf : Bool} {x y : α}
    (h : Op.unite rf x y ∈ ops) : relAfter R ops x y := by
  induction ops generalizing R with
  | nil => simp at h
  | cons o ops ih =>
    rcases List.mem_cons.1 h with rfl | h'
    · exact relAfter_base (join_equiv hR _ _) ops (Or.inr (Or.inl ⟨hR.refl _, hR.refl _⟩))
    · cases o <;> first | exact ih hR h' | exact ih (join_equiv hR _ _) h'

theorem relAfter_le {R S : α → α → Prop} (hS : Equivalence S) (ops : List (Op α)) (hRS : ∀ x y, R x y → S x y)
    (hu : ∀ rf a b, Op.unite rf a b ∈ ops → S a b) {x y : α} (h : relAfter R ops x y) : S x y := by
  induction ops generalizing R with
  | nil => exact hRS x y h
  | cons o ops ih =>
    have hu' : ∀ rf a b, Op.unite rf a b ∈ ops → S a b := fun rf a b hm => hu rf a b (List.mem_cons_of_mem _ hm)
    cases o with
    | unite rf a b =>
      refine ih ?_ hu' h
      have hab := hu rf a b (by simp)
      rintro x y (g | ⟨g1, g2⟩ | ⟨g1, g2⟩)
      · exact hRS _ _ g
      · exact hS.trans (hS.trans (hRS _ _ g1) hab) (hRS _ _ g2)
      · exact hS.trans (hS.trans (hRS _ _ g1) (hS.symm hab)) (hRS _ _ g2)
    | ground a => exact ih hRS hu' h
    | find a => exact ih hRS hu' h
    | free a => exact ih hRS hu' h

theorem mem_bindOps {rf rf' : Bool} {v : List α} {a b : α} :
    Op.unite rf' a b ∈ bindOps rf v → a ∈ v ∧ b ∈ v := by
  cases v with
  | nil => simp [bindOps]
  | cons p ps =>
    simp only [bindOps, List.mem_map]
    rintro ⟨x, hx, e⟩
    simp only [Op.unite.injEq] at e
    obtain ⟨_, rfl, rfl⟩ := e
    exact ⟨by simp, hx⟩

theorem relAfter_joined (f : Frame α) (rf : Bool) (x y : α) :
    relAfter (relAfter Eq f.contacts) (f.vessels.flatMap (bindOps rf)) x y ↔ Joined f x y := by
  have he : Equivalence (relAfter (Eq : α → α → Prop) f.contacts) := relAfter_equiv ⟨fun _ => rfl, fun h => h.symm, fun h g => h.trans g⟩ _
  have hj : Equivalence (Joined f) := ⟨.refl, .symm, .trans⟩
  constructor
  · apply relAfter_le hj
    · intro a b h
      refine relAfter_le hj f.contacts ?_ ?_ h
      · rintro _ _ rfl; exact .refl _
      · intro rf a b hm; exact .contact hm
    · intro rf' a b hm
      obtain ⟨v, hv, hb⟩ := List.mem_flatMap.1 hm
      obtain ⟨h1, h2⟩ := mem_bindOps hb
      exact .vessel hv h1 h2
  · have hE := relAfter_equiv he (f.vessels.flatMap (bindOps rf))
    intro h
    induction h with
    | refl x => exact hE.refl x
    | contact hm =>
      exact relAfter_base he _ (relAfter_union ⟨fun _ => rfl, fun h => h.symm, fun h g => h.trans g⟩ _ hm)
    | @vessel v x y hv hx hy =>
      cases v with
      | nil => simp at hx
      | cons p ps =>
        have key : ∀ z ∈ p :: ps, relAfter (relAfter Eq f.contacts) (f.vessels.flatMap (bindOps rf)) p z := by
          intro z hz
          refine relAfter_union he _ (rf := rf) ?_
          exact List.mem_flatMap.2 ⟨_, hv, List.mem_map.2 ⟨z, hz, rfl⟩⟩
        exact hE.trans (hE.symm (key x hx)) (key y hy)
    | symm _ ih => exact hE.symm ih
    | trans _ _ ih1 ih2 => exact hE.trans ih1 ih2

/-! ## The grounded vessels -/

theorem partition_spec {fuel : Nat} {w₀ : World α} {R : α → α → Prop} {K : Nat} {freed grounded : α → Prop}
    (hf : K < fuel) (vs : List (List α)) (hne : ∀ v ∈ vs, v ≠ []) {s : PState α} (h : UInv s R K w₀ freed grounded) :
    ∃ s' gs ks, partitionVessels fuel s vs = some (s', gs, ks) ∧ UInv s' R K w₀ freed grounded ∧
      (∀ v, v ∈ gs ↔ v ∈ vs ∧ ∃ p, v.head? = some p ∧ ∃ g, grounded g ∧ R p g) ∧
      (∀ v, v ∈ ks ↔ v ∈ vs ∧ ∃ p, v.head? = some p ∧ ¬∃ g, grounded g ∧ R p g) := by
  induction vs generalizing s with
  | nil => exact ⟨s, [], [], rfl, h, by simp, by simp⟩
  | cons v vs ih =>
    cases v with
    | nil => exact absurd rfl (hne [] (by simp))
    | cons p ps =>
      obtain ⟨s1, r, e, i, hr, hp, hw, _, hreach⟩ := find_spec h.inv hf p
      have h1 := h.reshape i hp hw hreach
      obtain ⟨s2, gs, ks, e2, h2, h3, h4⟩ := ih (fun v hv => hne v (List.mem_cons_of_mem _ hv)) h1
      have hpr := i.rel_root hr
      have hg : (s1.props r).grounded = true ↔ ∃ g, grounded g ∧ R p g := by
        rw [h1.ground r hr.isRoot]
        exact ⟨fun ⟨g, g1, g2⟩ => ⟨g, g1, i.trans hpr g2⟩, fun ⟨g, g1, g2⟩ => ⟨g, g1, i.trans (i.symm hpr) g2⟩⟩
      by_cases hgr : (s1.props r).grounded = true
      · refine ⟨s2, (p :: ps) :: gs, ks, by simp [partitionVessels, isGrounded, e, e2, hgr], h2, ?_, ?_⟩
        · intro v
          rw [List.mem_cons, List.mem_cons, h3]
          constructor
          · rintro (rfl | ⟨g1, g2⟩)
            · exact ⟨Or.inl rfl, p, rfl, hg.1 hgr⟩
            · exact ⟨Or.inr g1, g2⟩
          · rintro ⟨rfl | g1, g2⟩
            · exact Or.inl rfl
            · exact Or.inr ⟨g1, g2⟩
        · intro v
          rw [List.mem_cons, h4]
          constructor
          · rintro ⟨g1, g2⟩; exact ⟨Or.inr g1, g2⟩
          · rintro ⟨rfl | g1, p', e', g2⟩
            · simp at e'; subst e'; exact absurd (hg.1 hgr) g2
            · exact ⟨g1, p', e', g2⟩
      · refine ⟨s2, gs, (p :: ps) :: ks, by simp [partitionVessels, isGrounded, e, e2, hgr], h2, ?_, ?_⟩
        · intro v
          rw [List.mem_cons, h3]
          constructor
          · rintro ⟨g1, g2⟩; exact ⟨Or.inr g1, g2⟩
          · rintro ⟨rfl | g1, p', e', g2⟩
            · simp at e'; subst e'; exact absurd (hg.2 g2) hgr
            · exact ⟨g1, p', e', g2⟩
        · intro v
          rw [List.mem_cons, List.mem_cons, h4]
          constructor
          · rintro (rfl | ⟨g1, g2⟩)
            · exact ⟨Or.inl rfl, p, rfl, fun hh => hgr (hg.2 hh)⟩
            · exact ⟨Or.inr g1, g2⟩
          · rintro ⟨rfl | g1, g2⟩
            · exact Or.inl rfl
            · exact Or.inr ⟨g1, g2⟩

/-- The number of calls made by a frame before the collection, which bounds the depth of the recursions. -/
def Frame.size (f : Frame α) (rf : Bool) : Nat :=
  f.contacts.length + f.removed.length + (f.vessels.flatMap (bindOps rf)).length + f.vessels.flatten.length

theorem partition_length {fuel : Nat} (vs : List (List α)) {s s' : PState α} {gs ks : List (List α)}
    (h : partitionVessels fuel s vs = some (s', gs, ks)) : gs.flatten.length ≤ vs.flatten.length := by
  induction vs generalizing s s' gs ks with
  | nil => simp [partitionVessels] at h; obtain ⟨_, rfl, _⟩ := h; simp
  | cons v vs ih =>
    simp only [partitionVessels, Option.bind_eq_bind, Option.bind_eq_some_iff] at h
    obtain ⟨⟨s1, g⟩, e1, ⟨s2, gs', ks'⟩, e2, e3⟩ := h
    have := ih e2
    cases g
    · simp at e3; obtain ⟨_, rfl, _⟩ := e3
      simp only [List.flatten_cons, List.length_append]; omega
    · simp at e3; obtain ⟨_, rfl, _⟩ := e3
      simp only [List.flatten_cons, List.length_append]; omega

/-- **C08**: whatever the arrangement of the parts into pile-ups at the beginning of a frame, the contacts, the parts
removed, the vessels kept, the order of the operations, and the stale contents of the nodes of the disjoint sets,
no check fails, and at the end of the frame:
* a part that survives is in a pile-up, and it shares it exactly with the parts joined to it, which the pile-up lists
  exactly once;
* if a pile-up with exactly these parts existed, it is the same object; otherwise it is a new object;
* a part that does not survive is in no pile-up;
* the pile-ups that exist are the ones that contain a surviving part: the others were destroyed;
* the arrangement is again consistent. -/
theorem C08_pile_ups_are_components (fuel : Nat) (rf : Bool) (junk : α → Int) (all : List α) (hall : ∀ x, x ∈ all)
    (s : PState α) (hw : Arrangement s.world) (f : Frame α) (hwf : WellFormed f) (hfuel : f.size rf < fuel) :
    ∃ s', frame fuel rf junk all s f = some s' ∧
      (∀ x, Survives f x → ∃ P, s'.world.containing x = some P ∧ P ∈ s'.world.pileUps ∧
        (∀ y, s'.world.containing y = some P ↔ Joined f x y) ∧
        (∀ y, y ∈ s'.world.parts P ↔ Joined f x y) ∧ (s'.world.parts P).Nodup ∧
        (∀ P₀ ∈ s.world.pileUps, (∀ y, y ∈ s.world.parts P₀ ↔ Joined f x y) → P = P₀) ∧
        ((¬∃ P₀ ∈ s.world.pileUps, ∀ y, y ∈ s.world.parts P₀ ↔ Joined f x y) → P ∉ s.world.pileUps)) ∧
      (∀ x, ¬Survives f x → s'.world.containing x = none) ∧
      (∀ P, P ∈ s'.world.pileUps ↔ ∃ x, Survives f x ∧ s'.world.containing x = some P) ∧
      Arrangement s'.world := by
  have hc := hw.consistent
  obtain ⟨m1, m2⟩ := makeSingletons (mk junk) all s
  generalize hs0 : all.foldl (makeSingleton (mk junk)) s = s0 at m1 m2
  have hS : Singletons (mk junk) s0 := by
    intro x; have := m2 x (Or.inl (hall x)); rw [m1]; exact this
  have u0 := initial junk hS (by rw [m1]; exact hc)
  rw [m1] at u0
  unfold Frame.size at hfuel
  -- Contacts.
  obtain ⟨s1, e1, u1, k1⟩ := phase (fuel := fuel) (Kept f) f.contacts u0 (by omega) (by rintro x _ rfl h; exact h)
    (fun _ _ h => h) hwf.unite (fun a h => absurd h (hwf.free a))
  -- Destructions.
  obtain ⟨s2, e2, u2, k2⟩ := phase (fuel := fuel) (Kept f) (f.removed.map Op.free) u1 (by simp; omega) k1
    (by rintro x hx (h | h)
        · exact hwf.free x h
        · exact h) (by simp) (by
      intro a ha
      simp at ha
      exact (hwf.removed a).1 ha)
  rw [relAfter_free] at u2 k2
  -- Binding.
  obtain ⟨s3, e3, u3, k3⟩ := phase (fuel := fuel) (Kept f) (f.vessels.flatMap (bindOps rf)) u2 (by simp at *; omega) k2
    (by
      rintro x hx (h | h | h)
      · simp at h; exact (hwf.removed x).1 h hx
      · exact hwf.free x h
      · exact h) (by
      intro rf' a b hm
      obtain ⟨v, hv, hb⟩ := List.mem_flatMap.1 hm
      obtain ⟨h1, h2⟩ := mem_bindOps hb
      exact ⟨⟨v, hv, h1⟩, ⟨v, hv, h2⟩⟩) (by
      intro a ha
      obtain ⟨v, hv, hb⟩ := List.mem_flatMap.1 ha
      cases v <;> simp [bindOps] at hb)
  have hR : relAfter (relAfter (Eq : α → α → Prop) f.contacts) (f.vessels.flatMap (bindOps rf)) = Joined f := by
    funext x y; exact propext (relAfter_joined f rf x y)
  rw [hR] at u3 k3
  have nofree : ∀ x, Op.free x ∉ f.vessels.flatMap (bindOps rf) := by
    intro a ha
    obtain ⟨v, hv, hb⟩ := List.mem_flatMap.1 ha
    cases v <;> simp [bindOps] at hb
  have noground : ∀ x, Op.ground x ∉ f.vessels.flatMap (bindOps rf) := by
    intro a ha
    obtain ⟨v, hv, hb⟩ := List.mem_flatMap.1 ha
    cases v <;> simp [bindOps] at hb
  have hfreed3 : (fun x => Op.free x ∈ f.vessels.flatMap (bindOps rf) ∨ Op.free x ∈ f.removed.map Op.free ∨
      Op.free x ∈ f.contacts ∨ False) = (fun x => ¬Kept f x) := by
    funext x
    apply propext
    rw [← hwf.removed]
    constructor
    · rintro (h | h | h | h)
      · exact absurd h (nofree x)
      · simpa using h
      · exact absurd h (hwf.free x)
      · exact h.elim
    · intro h; right; left; simpa using h
  have hground3 : (fun x => Op.ground x ∈ f.vessels.flatMap (bindOps rf) ∨ Op.ground x ∈ f.removed.map Op.free ∨
      Op.ground x ∈ f.contacts ∨ False) = (fun x => Op.ground x ∈ f.contacts) := by
    funext x
    apply propext
    constructor
    · rintro (h | h | h | h)
      · exact absurd h (noground x)
      · simp at h
      · exact h
      · exact h.elim
    · intro h; right; right; left; exact h
  rw [hfreed3, hground3] at u3
  -- Grounded vessels.
  have hlen : 0 + f.contacts.length + (f.removed.map Op.free).length + (f.vessels.flatMap (bindOps rf)).length < fuel := by
    simp only [List.length_map]; omega
  obtain ⟨s4, gs, ks, e4, u4, hgs, hks⟩ := partition_spec hlen f.vessels hwf.nonempty u3
  have hglen := partition_length f.vessels e4
  -- A vessel is grounded if its parts are.
  have hvg : ∀ v ∈ f.vessels, ∀ x ∈ v, (v ∈ gs ↔ Grounded f x) ∧ (v ∈ ks ↔ ¬Grounded f x) := by
    intro v hv x hx
    cases v with
    | nil => simp at hx
    | cons p ps =>
      have hpx : Joined f p x := .vessel hv (by simp) hx
      have hiff : (∃ g, Op.ground g ∈ f.contacts ∧ Joined f p g) ↔ Grounded f x :=
        ⟨fun ⟨g, g1, g2⟩ => ⟨g, g1, hpx.symm.trans g2⟩, fun ⟨g, g1, g2⟩ => ⟨g, g1, hpx.trans g2⟩⟩
      constructor
      · rw [hgs, ← hiff]
        constructor
        · rintro ⟨_, p', e', g⟩; simp at e'; subst e'; exact g
        · intro g; exact ⟨hv, p, rfl, g⟩
      · rw [hks, ← hiff]
        constructor
        · rintro ⟨_, p', e', g⟩; simp at e'; subst e'; exact g
        · intro g; exact ⟨hv, p, rfl, g⟩
  have hsurv_joined : ∀ x y, Joined f x y → Survives f x → Survives f y := by
    rintro x y hxy ⟨g1, g2⟩
    refine ⟨k3 x y hxy g1, ?_⟩
    rintro ⟨z, z1, z2⟩
    exact g2 ⟨z, z1, hxy.trans z2⟩
  obtain ⟨s5, e5, u5, k5⟩ := phase (fuel := fuel) (Survives f) (gs.flatten.map Op.free) u4
    (by simp only [List.length_map]; omega) hsurv_joined (fun x hx h => h hx.1) (by simp) (by
      intro a ha
      simp only [List.mem_map, Op.free.injEq, exists_eq_right, List.mem_flatten] at ha
      obtain ⟨v, hv, hav⟩ := ha
      rintro ⟨_, g2⟩
      exact g2 (((hvg v ((hgs v).1 hv).1 a hav).1).1 hv))
  rw [relAfter_free] at u5
  have hfreed5 : (fun x => Op.free x ∈ gs.flatten.map Op.free ∨ ¬Kept f x) = (fun x => ¬Survives f x) := by
    funext x
    apply propext
    simp only [List.mem_map, Op.free.injEq, exists_eq_right, List.mem_flatten]
    constructor
    · rintro (⟨v, hv, hx⟩ | h)
      · rintro ⟨_, g2⟩
        exact g2 (((hvg v ((hgs v).1 hv).1 x hx).1).1 hv)
      · exact fun g => h g.1
    · intro h
      by_cases hk : Kept f x
      · left
        obtain ⟨v, hv, hx⟩ := hk
        refine ⟨v, ?_, hx⟩
        rw [(hvg v hv x hx).1]
        by_contra hg
        exact h ⟨⟨v, hv, hx⟩, hg⟩
      · exact Or.inr hk
  rw [hfreed5] at u5
  -- Collection.
  have c5 : CInv s5 (Joined f) (0 + f.contacts.length + (f.removed.map Op.free).length +
      (f.vessels.flatMap (bindOps rf)).length + (gs.flatten.map Op.free).length) s.world (fun x => ¬Survives f x)
      (fun _ => False) :=
    ⟨u5.inv, u5.ok, fun r hr _ => u5.partsNodup r hr, fun r hr _ => u5.partsMem r hr, fun r hr _ => u5.uncollected r hr,
      fun _ _ h => h.elim, fun _ _ _ h => h, fun _ h => h.elim, fun x P _ hx => u5.sub x P hx,
      fun P _ => by rw [u5.wparts], Nat.le_of_eq u5.wnext.symm, u5.freedNone, fun r hr _ => u5.status r hr, fun _ h => h.elim⟩
  obtain ⟨s6, e6, c6⟩ := collect_all hc (fuel := fuel) (by simp only [List.length_map]; omega)
    (ks.filterMap List.head?) (by
      intro c hcm y hy hns
      apply hns
      obtain ⟨v, hv, hhead⟩ := List.mem_filterMap.1 hcm
      have hv' := ((hks v).1 hv).1
      have hcv : c ∈ v := List.mem_of_mem_head? hhead
      have : Survives f c := ⟨⟨v, hv', hcv⟩, ((hvg v hv' c hcv).2).1 hv⟩
      exact hsurv_joined c y hy this) c5
  have hC : (fun x => False ∨ ∃ c ∈ ks.filterMap List.head?, Joined f c x) = Survives f := by
    funext x
    apply propext
    constructor
    · rintro (h | ⟨c, hcm, hcx⟩)
      · exact h.elim
      · by_contra hns
        exact c6.untainted x (Or.inr ⟨c, hcm, hcx⟩) hns
    · rintro ⟨⟨v, hv, hx⟩, hg⟩
      right
      have hvk := ((hvg v hv x hx).2).2 hg
      cases v with
      | nil => simp at hx
      | cons p ps =>
        exact ⟨p, List.mem_filterMap.2 ⟨_, hvk, rfl⟩, .vessel hv (by simp) hx⟩
  rw [hC] at c6
  have hcont : ∀ x P, s6.world.containing x = some P → Survives f x := by
    intro x P hx
    by_contra hns
    rw [c6.freedNone x hns] at hx
    simp at hx
  have harr : ∀ x P, s6.world.containing x = some P → ∀ y, y ∈ s6.world.parts P ↔ Joined f x y := by
    intro x P hx
    obtain ⟨Q, q1, q2, _⟩ := c6.arranged x (hcont x P hx)
    rw [q1 x (.refl x)] at hx
    have : Q = P := by simpa using hx
    subst this
    exact q2
  have hcon : Consistent s6.world := by
    refine ⟨c6.ok, ?_⟩
    intro P hP x hx
    obtain ⟨y, hy⟩ := (c6.ok.alive_iff P).1 hP
    obtain ⟨Q, q1, _⟩ := c6.arranged y (hcont y P hy)
    have hyx := (harr y P hy x).1 hx
    rw [q1 x hyx, ← q1 y (.refl y)]
    exact hy
  refine ⟨s6, ?_, ?_, ?_, ?_, hcon.arrangement⟩
  · simp only [frame, hs0, e1, e2, e3, e4, e5, e6, Option.bind_eq_bind, Option.bind_some]
  · intro x hx
    obtain ⟨P, q1, q2, q3, q4⟩ := c6.arranged x hx
    have hxP := q1 x (.refl x)
    have hPp : P ∈ s6.world.pileUps := (c6.ok.alive_iff P).2 ⟨x, hxP⟩
    refine ⟨P, hxP, hPp, ?_, q2, c6.ok.nodupParts P hPp, ?_, ?_⟩
    · intro y
      constructor
      · intro hy; exact (q2 y).1 (c6.ok.mem y P hy)
      · exact q1 y
    · intro P₀ hP₀ hy
      have h0 := hc.contains P₀ hP₀ x ((hy x).2 (.refl x))
      have := q3 ⟨P₀, h0, hy⟩
      rw [this] at h0
      simpa using h0
    · intro hno hP₀
      have hle := q4 (by
        rintro ⟨P₀, g1, g2⟩
        exact hno ⟨P₀, (hc.ok.alive_iff P₀).2 ⟨x, g1⟩, g2⟩)
      have := hc.ok.fresh P hP₀
      omega
  · intro x hx; exact c6.freedNone x hx
  · intro P
    rw [c6.ok.alive_iff]
    exact ⟨fun ⟨x, hx⟩ => ⟨x, hcont x P hx, hx⟩, fun ⟨x, _, hx⟩ => ⟨x, hx⟩⟩

/-- Non-vacuity: parts 0 and 1 are piled up together (pile-up 0), 2 and 3 as well (pile-up 1), 4 and 5 are new.
Part 1 collides with part 4; part 5 is removed; the vessels are {0, 1}, {2, 3}, {4}. -/
def exampleWorld : World (Fin 6) where
  containing := fun x => if x = 0 ∨ x = 1 then some 0 else if x = 2 ∨ x = 3 then some 1 else none
  parts := fun P => if P = 0 then [0, 1] else if P = 1 then [2, 3] else []
  refs := fun P => if P = 0 then 2 else if P = 1 then 2 else 0
  pileUps := [1, 0]
  next := 2

def exampleFrame : Frame (Fin 6) where
  contacts := [.unite true 1 4]
  removed := [5]
  vessels := [[0, 1], [2, 3], [4]]

example : Arrangement exampleWorld := by
  refine ⟨?_, ?_, ?_, ?_, ?_, ?_, ?_⟩
  · intro x P h
    simp only [exampleWorld] at h
    split at h
    · obtain rfl : 0 = P := by simpa using h
      simpa [exampleWorld]
    · split at h
      · obtain rfl : 1 = P := by simpa using h
        simpa [exampleWorld]
      · simp at h
  · simp [exampleWorld]
  · simp [exampleWorld]
  · simp [exampleWorld]
  · intro P
    by_cases h0 : P = 0
    · subst h0; decide
    · by_cases h1 : P = 1
      · subst h1; decide
      · simp [exampleWorld, h0, h1]
  · simp [exampleWorld]
  · simp [exampleWorld]

example : WellFormed exampleFrame := by
  refine ⟨?_, ?_, ?_, ?_⟩
  · intro rf a b h
    simp [exampleFrame] at h
    obtain ⟨_, rfl, rfl⟩ := h
    simp [Kept, exampleFrame]
  · simp [exampleFrame]
  · intro a
    match a with
    | 0 | 1 | 2 | 3 | 4 | 5 => simp [Kept, exampleFrame]
  · simp [exampleFrame]

example : Survives exampleFrame 4 ∧ ¬Survives exampleFrame 5 := by
  refine ⟨⟨by simp [Kept, exampleFrame], ?_⟩, ?_⟩
  · rintro ⟨y, hy, _⟩; simp [exampleFrame] at hy
  · rintro ⟨h, _⟩; simp [Kept, exampleFrame] at h

end Principia.PileUps
