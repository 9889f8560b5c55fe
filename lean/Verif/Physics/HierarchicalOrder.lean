import Verif.Physics.HierarchicalProps
import Mathlib.Data.List.Sort
import Mathlib.Data.List.Nodup
import Mathlib.Tactic.GCongr

/-!
C35: hierarchical systems: success, uniqueness, independence of the order of insertion, serialization.
-/

set_option linter.unusedSimpArgs false
set_option linter.unusedVariables false
set_option linter.unusedSectionVars false

namespace Principia.Physics.Hierarchical

open Principia.Geometry.Barycentre

variable {K V E B : Type} [Field K] [LinearOrder K] [IsStrictOrderedRing K] [AddCommGroup V] [Module K V]

/-! ## Uniqueness -/

theorem Arranged.bodies {μ : B → K} {kepler : K → K → E → Option V} {s : System E B} {l : List (B × V)} (h : Arranged μ kepler s l) :
    l.map (·.1) = s.bodies := by
  induction h with
  | primary e p x => simp [System.bodies]
  | satellite e p inner s l l' b b' h h' hb hb' hk ih ih' =>
    rw [List.map_append, ih, ih']
    simp [System.bodies]

theorem mass_pos {μ : B → K} {l : List (B × V)} (hl : l ≠ []) (h : ∀ x ∈ l, 0 < μ x.1) : 0 < mass μ l := by
  rw [mass_eq]
  refine total_pos (by simpa [points] using hl) ?_
  intro x hx
  obtain ⟨y, hy, rfl⟩ := List.mem_map.1 hx
  exact h y hy

theorem barycentre_unique {μ : B → K} {l : List (B × V)} {b c : V} (h : mass μ l ≠ 0) (hb : IsBarycentre μ l b) (hc : IsBarycentre μ l c) : b = c :=
  balanced_unique (by rw [mass_eq] at h; exact h) hb hc

/-- C35: the positions of the bodies are determined, up to a translation, by the elements. -/
theorem C35_hierarchical_unique (μ : B → K) (kepler : K → K → E → Option V) (s : System E B) (hμ : ∀ b ∈ s.bodies, 0 < μ b) (l l' : List (B × V))
    (h : Arranged μ kepler s l) (h' : Arranged μ kepler s l') (hb : IsBarycentre μ l 0) (hb' : IsBarycentre μ l' 0) : l = l' := by
  have key : ∀ (s : System E B) (l : List (B × V)), Arranged μ kepler s l → (∀ b ∈ s.bodies, 0 < μ b) → ∀ l', Arranged μ kepler s l' →
      ∃ c, l' = move c l := by
    intro s l h
    induction h with
    | primary e p x =>
      intro hμ l' h'
      generalize hs : (⟨e, p, []⟩ : System E B) = s' at h'
      cases h' with
      | primary e' p' x' =>
        injection hs with _ hp _
        exact ⟨x' - x, by simp [move, hp]⟩
      | satellite e' p' inner s l₂ l₂' b₂ b₂' h₂ h₂' hb₂ hb₂' hk₂ =>
        injection hs with _ _ hs
        simp at hs
    | satellite e p inner s l l' b b' h h' hb hb' hk ih ih' =>
      intro hμ l'' h''
      generalize hs : (⟨e, p, inner ++ [s]⟩ : System E B) = s' at h''
      cases h'' with
      | primary e' p' x' =>
        injection hs with _ _ hs
        simp at hs
      | satellite e' p' inner' s₂ l₂ l₂' b₂ b₂' h₂ h₂' hb₂ hb₂' hk₂ =>
        injection hs with he hp hs
        subst he hp
        obtain ⟨e1, e2⟩ := List.append_inj' hs rfl
        injection e2 with e2 _
        subst e1 e2
        have hμ1 : ∀ b ∈ (⟨e, p, inner⟩ : System E B).bodies, 0 < μ b := by
          intro b hb
          refine hμ b ?_
          rw [mem_bodies_iff] at hb ⊢
          rcases hb with rfl | ⟨t, ht, hb⟩
          · exact .inl rfl
          · exact .inr ⟨t, List.mem_append_left _ ht, hb⟩
        have hμ2 : ∀ b ∈ s.bodies, 0 < μ b := by
          intro b hb
          refine hμ b ?_
          rw [mem_bodies_iff]
          exact .inr ⟨s, by simp, hb⟩
        have m1 : 0 < mass μ l := mass_pos h.ne_nil fun x hx => hμ1 _ (by rw [← h.bodies]; exact List.mem_map_of_mem hx)
        have m2 : 0 < mass μ l' := mass_pos h'.ne_nil fun x hx => hμ2 _ (by rw [← h'.bodies]; exact List.mem_map_of_mem hx)
        obtain ⟨c, rfl⟩ := ih hμ1 l₂ h₂
        obtain ⟨c', rfl⟩ := ih' hμ2 l₂' h₂'
        rw [mass_move, mass_move, hk] at hk₂
        injection hk₂ with hk₂
        have f1 : b₂ = b + c := barycentre_unique (by rw [mass_move]; exact m1.ne') hb₂ hb.move
        have f2 : b₂' = b' + c' := barycentre_unique (by rw [mass_move]; exact m2.ne') hb₂' hb'.move
        rw [f1, f2] at hk₂
        have f3 : c' = c := by
          have : b' - b = (b' - b) + (c' - c) := by conv => { lhs; rw [hk₂] }; abel
          have h3 := left_eq_add.1 this
          exact sub_eq_zero.1 h3
        exact ⟨c, by rw [f3]; simp [move]⟩
  obtain ⟨c, rfl⟩ := key s l h hμ l' h'
  have m : 0 < mass μ l := mass_pos h.ne_nil fun x hx => hμ _ (by rw [← h.bodies]; exact List.mem_map_of_mem hx)
  have := hb.move (c := c)
  rw [zero_add] at this
  rw [barycentre_unique (by rw [mass_move]; exact m.ne') this hb']
  simp [move]

/-! ## The bodies -/

mutual

theorem sorted_bodies {size : E → Size K} (s : System E B) {t : System E B} (h : Sorted size s t) : t.bodies.Perm s.bodies := by
  obtain ⟨e, p, l⟩ := s
  cases h with
  | mk _ _ _ m u h1 h2 h3 =>
    rw [System.bodies, System.bodies]
    refine List.Perm.cons _ ?_
    exact (List.Perm.flatMap_right _ h2.symm).trans (sortedAll_bodies l h1)

theorem sortedAll_bodies {size : E → Size K} (l : List (System E B)) {m : List (System E B)} (h : SortedAll size l m) :
    (m.flatMap fun s => s.bodies).Perm (l.flatMap fun s => s.bodies) := by
  match l with
  | [] => cases h; exact List.Perm.refl _
  | s :: l =>
    cases h with
    | cons _ t _ m h1 h2 =>
      rw [List.flatMap_cons, List.flatMap_cons]
      exact (sorted_bodies s h1).append (sortedAll_bodies l h2)

end

/-- C35: the result has all the bodies of the system, once each. -/
theorem C35_hierarchical_bodies (μ : B → K) (size : E → Size K) (sort : Sorter) (kepler : K → K → E → Option V) (hs : Sorts sort) (s : System E B)
    (bodies : List B) (dof : List V) (h : consume μ size sort kepler s = some (bodies, dof)) : bodies.Perm s.bodies := by
  obtain ⟨t, h1, h2, _⟩ := C35_hierarchical μ size sort kepler hs s bodies dof h
  rw [h2]
  exact sorted_bodies s h1

section

variable [DecidableEq B]

mutual

theorem contains_iff (b : B) (s : System E B) : s.contains b = true ↔ b ∈ s.bodies := by
  obtain ⟨e, p, l⟩ := s
  rw [mem_bodies_iff, System.contains, Bool.or_eq_true, beq_iff_eq, containsAll_iff b l, eq_comm]

theorem containsAll_iff (b : B) (l : List (System E B)) : System.containsAll b l = true ↔ ∃ t ∈ l, b ∈ t.bodies := by
  match l with
  | [] => simp [System.containsAll]
  | s :: l => rw [System.containsAll, Bool.or_eq_true, contains_iff b s, containsAll_iff b l]; simp

end

mutual

theorem insertAt_bodies (parent : B) (t : System E B) (s : System E B) :
    (System.insertAt parent t s).bodies.Perm (s.bodies ++ (List.replicate (s.bodies.count parent) t.bodies).flatten) := by
  obtain ⟨e, p, l⟩ := s
  have ih := insertAtAll_bodies parent t l
  rw [System.insertAt, System.bodies, System.bodies]
  by_cases h : p = parent
  · subst h
    rw [if_pos rfl, List.count_cons_self, List.replicate_succ', List.flatten_concat, List.flatMap_append, List.cons_append, ← List.append_assoc]
    refine List.Perm.cons _ ?_
    simp only [List.flatMap_cons, List.flatMap_nil, List.append_nil]
    exact ih.append_right _
  · rw [if_neg h, List.count_cons_of_ne h, List.cons_append]
    exact List.Perm.cons _ ih

theorem insertAtAll_bodies (parent : B) (t : System E B) (l : List (System E B)) :
    ((System.insertAtAll parent t l).flatMap fun s => s.bodies).Perm
      ((l.flatMap fun s => s.bodies) ++ (List.replicate ((l.flatMap fun s => s.bodies).count parent) t.bodies).flatten) := by
  match l with
  | [] => simp [System.insertAtAll]
  | s :: l =>
    have h1 := insertAt_bodies parent t s
    have h2 := insertAtAll_bodies parent t l
    rw [System.insertAtAll, List.flatMap_cons, List.flatMap_cons, List.count_append, ← List.replicate_append_replicate, List.flatten_append]
    refine (h1.append h2).trans ?_
    simp only [List.append_assoc]
    refine List.Perm.append_left _ ?_
    rw [← List.append_assoc, ← List.append_assoc]
    exact List.Perm.append_right _ List.perm_append_comm

end

/-- C35: adding a body is correct if, and only if, the parent was inserted; the system then has one more body. -/
theorem C35_add (s : System E B) (body parent : B) (elements : E) (hs : s.bodies.Nodup) :
    ((s.add body parent elements).isSome ↔ parent ∈ s.bodies) ∧
    ∀ t, s.add body parent elements = some t → t.bodies.Perm (body :: s.bodies) := by
  unfold System.add
  constructor
  · rw [← contains_iff]
    by_cases h : s.contains parent <;> simp [h]
  · intro t ht
    split at ht
    · rename_i h
      injection ht with ht
      subst ht
      rw [contains_iff] at h
      have := insertAt_bodies parent (⟨elements, body, []⟩ : System E B) s
      rw [List.count_eq_one_of_mem hs h] at this
      refine this.trans ?_
      simp only [List.replicate_one, List.flatten_cons, List.flatten_nil, List.append_nil, System.bodies, List.flatMap_nil]
      exact List.perm_append_comm
    · exact absurd ht (by simp)

end

/-! ## Success -/

theorem sorted_ne (size : E → Size K) (sort : Sorter) {α : Type} (l : List (E × α))
    (h : ∀ x ∈ l, ∀ y ∈ l, ((size x.1).less (size y.1)).isSome ∨ l.length ≤ 1) : (sortSatellites size sort l).isSome := by
  unfold sortSatellites
  split
  · rfl
  · rename_i hl
    rw [if_pos]
    · rfl
    · simp only [List.all_eq_true]
      intro x hx y hy
      exact (h x hx y hy).resolve_right hl

theorem combine_some {μ : B → K} {kepler : K → K → E → Option V} {e : E} {p : B} {ts : List (System E B)} {l : List (E × Subsystem K V B)}
    (hf : List.Forall₂ (Matches μ kepler) ts l) (hμ : ∀ b ∈ (⟨e, p, ts⟩ : System E B).bodies, 0 < μ b)
    (hk : ∀ m m' e, (kepler m m' e).isSome) : (combine μ kepler p l).isSome := by
  have hlen : ∀ (x : V) (xs : List V) (ts' : List (System E B)) (l' : List (E × Subsystem K V B)) (j : Jacobi K V), Inv μ kepler e p ts' l' j x xs →
      (∀ b ∈ (⟨e, p, ts'⟩ : System E B).bodies, 0 < μ b) → ∃ b, j.barycentre.getPoint (0 : V) = .ok b := by
    intro x xs ts' l' j hi hμ
    have hm : 0 < mass μ ((p, x) :: spread xs l') :=
      mass_pos (by simp) fun y hy => hμ _ (by rw [← hi.arranged.bodies]; exact List.mem_map_of_mem hy)
    rw [hi.calculator, Calculator.getPoint]
    simp [hm.ne']
  have hfold : ∀ (ts' : List (System E B)) (l' : List (E × Subsystem K V B)) (ts₀ : List (System E B)) (l₀ : List (E × Subsystem K V B)) (j : Jacobi K V) (x : V) (xs : List V),
      List.Forall₂ (Matches μ kepler) ts' l' → Inv μ kepler e p ts₀ l₀ j x xs →
      (∀ b ∈ (⟨e, p, ts₀ ++ ts'⟩ : System E B).bodies, 0 < μ b) → (jacobiCoordinates kepler j l').isSome := by
    intro ts' l' ts₀ l₀ j x xs hf' hi hμ'
    induction hf' generalizing ts₀ l₀ j x xs with
    | nil => rfl
    | @cons t s ts₁ l₁ hs hf₁ ih =>
      have hμ₀ : ∀ b ∈ (⟨e, p, ts₀⟩ : System E B).bodies, 0 < μ b := by
        intro b hb
        refine hμ' b ?_
        rw [mem_bodies_iff] at hb ⊢
        rcases hb with rfl | ⟨t, ht, hb⟩
        · exact .inl rfl
        · exact .inr ⟨t, List.mem_append_left _ ht, hb⟩
      obtain ⟨b, hb⟩ := hlen x xs ts₀ l₀ j hi hμ₀
      obtain ⟨d, hd⟩ := Option.isSome_iff_exists.1 (hk j.system s.2.equivalent s.1)
      obtain ⟨e', s'⟩ := s
      have hadd : ∃ j', j.addElements kepler s'.equivalent e' = some j' := by
        unfold Jacobi.addElements Jacobi.add
        simp only at hd
        simp [hd, hb]
      obtain ⟨j', hj'⟩ := hadd
      obtain ⟨x', hi'⟩ := inv_step hi hs hj'
      rw [jacobiCoordinates, hj', Option.bind_some]
      exact ih _ _ _ _ _ hi' (by simpa using hμ')
  obtain ⟨j, hj⟩ := Option.isSome_iff_exists.1 (hfold ts l [] [] _ 0 [] hf (inv_init μ kepler e p) (by simpa using hμ))
  obtain ⟨xs, hi⟩ := inv_fold (e := e) hf (inv_init μ kepler e p) hj
  rw [List.nil_append, List.nil_append] at hi
  obtain ⟨b, hb⟩ := hlen _ _ _ _ _ hi hμ
  unfold combine
  rw [hj]
  simp [Jacobi.barycentric, hb, hi.primocentric]

/-- The sizes of the orbits of satellites of the same body can be compared. -/
def Comparable (size : E → Size K) (l : List (System E B)) : Prop :=
  ∀ s ∈ l, ∀ t ∈ l, ((size s.elements).less (size t.elements)).isSome ∨ l.length ≤ 1

theorem siblings_iff {p : List (System E B) → Prop} {e : E} {b : B} {s : List (System E B)} :
    Siblings p (⟨e, b, s⟩ : System E B) ↔ p s ∧ ∀ t ∈ s, Siblings p t :=
  ⟨fun h => by cases h with | mk _ _ _ h1 h2 => exact ⟨h1, h2⟩, fun h => .mk _ _ _ h.1 h.2⟩

mutual

theorem toBarycentric_some {μ : B → K} {size : E → Size K} {sort : Sorter} {kepler : K → K → E → Option V} (hs : Sorts sort)
    (hk : ∀ m m' e, (kepler m m' e).isSome) (s : System E B) (hμ : ∀ b ∈ s.bodies, 0 < μ b) (hc : Siblings (Comparable size) s) :
    (toBarycentric μ size sort kepler s).isSome := by
  obtain ⟨e, p, satellites⟩ := s
  rw [siblings_iff] at hc
  have hμ' : ∀ t ∈ satellites, ∀ b ∈ t.bodies, 0 < μ b := fun t ht b hb => hμ b (by rw [mem_bodies_iff]; exact .inr ⟨t, ht, hb⟩)
  obtain ⟨l, hl⟩ := Option.isSome_iff_exists.1 (toBarycentricAll_some hs hk satellites hμ' hc.2)
  obtain ⟨ts, h4, h5⟩ := toBarycentricAll_good hs satellites hl
  have hel : l.map (·.1) = satellites.map (·.elements) := by
    clear hc hμ hμ'
    have h6 : l.map (·.1) = ts.map (·.elements) := by
      clear hl h4
      induction h5 with
      | nil => rfl
      | cons ha hb ih => rw [List.map_cons, List.map_cons, ih, ha.1]
    rw [h6]
    clear h5 hl h6 l
    induction satellites generalizing ts with
    | nil => cases h4; rfl
    | cons s l ih =>
      cases h4 with
      | cons _ t _ m h1 h2 => rw [List.map_cons, List.map_cons, ih m h2, sorted_elements h1]
  have hsort : (sortSatellites size sort l).isSome := by
    apply sorted_ne
    intro x hx y hy
    have hx' : x.1 ∈ satellites.map (·.elements) := by rw [← hel]; exact List.mem_map_of_mem hx
    have hy' : y.1 ∈ satellites.map (·.elements) := by rw [← hel]; exact List.mem_map_of_mem hy
    obtain ⟨s, hs1, hs2⟩ := List.mem_map.1 hx'
    obtain ⟨t, ht1, ht2⟩ := List.mem_map.1 hy'
    have hlen : l.length = satellites.length := by
      have := congrArg List.length hel
      simpa using this
    have := hc.1 s hs1 t ht1
    rw [hs2, ht2, ← hlen] at this
    exact this
  obtain ⟨l', h2⟩ := Option.isSome_iff_exists.1 hsort
  obtain ⟨h6, h7⟩ := sort_spec hs h2
  have h8 : List.Forall₂ (fun s t => Matches μ kepler t s) l ts := List.Forall₂.flip h5
  obtain ⟨us, h9, h10⟩ := List.perm_comp_forall₂ h6 h8
  have h9' : List.Forall₂ (Matches μ kepler) us l' := List.Forall₂.flip h9
  rw [toBarycentric, hl, Option.bind_some, h2, Option.bind_some]
  refine combine_some (e := e) h9' ?_ hk
  intro b hb
  refine hμ b ?_
  rw [mem_bodies_iff] at hb ⊢
  rcases hb with rfl | ⟨t, ht, hb⟩
  · exact .inl rfl
  · right
    have : b ∈ ts.flatMap fun s => s.bodies := List.mem_flatMap.2 ⟨t, h10.mem_iff.1 ht, hb⟩
    rw [(sortedAll_bodies satellites h4).mem_iff, List.mem_flatMap] at this
    exact this

theorem toBarycentricAll_some {μ : B → K} {size : E → Size K} {sort : Sorter} {kepler : K → K → E → Option V} (hs : Sorts sort)
    (hk : ∀ m m' e, (kepler m m' e).isSome) (l : List (System E B)) (hμ : ∀ t ∈ l, ∀ b ∈ t.bodies, 0 < μ b)
    (hc : ∀ t ∈ l, Siblings (Comparable size) t) : (toBarycentricAll μ size sort kepler l).isSome := by
  match l with
  | [] => rfl
  | s :: l =>
    obtain ⟨r, h1⟩ := Option.isSome_iff_exists.1 (toBarycentric_some hs hk s (hμ s (by simp)) (hc s (by simp)))
    obtain ⟨rs, h2⟩ := Option.isSome_iff_exists.1
      (toBarycentricAll_some hs hk l (fun t ht => hμ t (List.mem_cons_of_mem _ ht)) fun t ht => hc t (List.mem_cons_of_mem _ ht))
    rw [toBarycentricAll, h1, Option.bind_some, h2]
    rfl

end

/-- C35: a hierarchical system whose bodies have positive masses and whose elements are valid can be converted. -/
theorem C35_hierarchical_success (μ : B → K) (size : E → Size K) (sort : Sorter) (kepler : K → K → E → Option V) (hs : Sorts sort)
    (hk : ∀ m m' e, (kepler m m' e).isSome) (s : System E B) (hμ : ∀ b ∈ s.bodies, 0 < μ b) (hc : Siblings (Comparable size) s) :
    (consume μ size sort kepler s).isSome := by
  obtain ⟨r, hr⟩ := Option.isSome_iff_exists.1 (toBarycentric_some hs hk s hμ hc)
  simp [consume, hr]

/-- C35: satellites whose elements cannot be compared are fatal. -/
theorem C35_hierarchical_failure (μ : B → K) (size : E → Size K) (sort : Sorter) (kepler : K → K → E → Option V) (e : E) (p : B)
    (s t : System E B) (l : List (System E B)) (h : (size s.elements).less (size t.elements) = none) :
    consume μ size sort kepler ⟨e, p, s :: t :: l⟩ = none := by
  unfold consume
  rw [toBarycentric]
  simp only [toBarycentricAll, Option.map_eq_none_iff]
  cases toBarycentric μ size sort kepler s with
  | none => rfl
  | some r =>
    cases toBarycentric μ size sort kepler t with
    | none => rfl
    | some r' =>
      cases toBarycentricAll μ size sort kepler l with
      | none => rfl
      | some rs => simp [sortSatellites, h]

/-! ## Order -/

/-- C35: the satellites are in the order of their semimajor axes, even if they are given by their mean motions or their periods: the semimajor axis of a
satellite with gravitational parameter `m` (of the satellite, of its primary and of the inner satellites) is given by Kepler's third law. -/
theorem C35_increasing (semimajorAxis : Size K → K → K) (π : K) (hπ : 0 < π) (h1 : ∀ a m, semimajorAxis (.semimajorAxis a) m = a)
    (h2 : ∀ n m, 0 < n → 0 < m → 0 < semimajorAxis (.meanMotion n) m ∧ semimajorAxis (.meanMotion n) m ^ 3 * n ^ 2 = m)
    (h3 : ∀ T m, 0 < T → 0 < m → 0 < semimajorAxis (.period T) m ∧ 4 * π ^ 2 * semimajorAxis (.period T) m ^ 3 = m * T ^ 2)
    (μ : B → K) (size : E → Size K) (hn : ∀ e n, size e = .meanMotion n → 0 < n) (hT : ∀ e T, size e = .period T → 0 < T)
    (s t : System E B) (hμ : ∀ b ∈ s.bodies, 0 < μ b) (h : Sorted size s t) (before between after : List (System E B)) (x y : System E B)
    (ht : t.satellites = before ++ x :: between ++ y :: after) :
    semimajorAxis (size x.elements) ((t.primary :: (before ++ [x]).flatMap (·.bodies)).map μ).sum ≤
      semimajorAxis (size y.elements) ((t.primary :: (before ++ x :: between ++ [y]).flatMap (·.bodies)).map μ).sum := by
  have hb := sorted_bodies s h
  cases h with
  | mk e p l m u ha hp hpw =>
    simp only [System.satellites] at ht
    subst ht
    have hle : (size x.elements).le (size y.elements) := by
      rw [List.pairwise_append] at hpw
      exact hpw.2.2 x (by simp) y (by simp)
    have hμ' : ∀ b ∈ p :: (before ++ x :: between ++ y :: after).flatMap (·.bodies), 0 < μ b := by
      intro b hb'
      refine hμ b (hb.mem_iff.1 ?_)
      rw [System.bodies]
      exact hb'
    have hsum : ∀ l : List B, (∀ b ∈ l, 0 < μ b) → 0 ≤ (l.map μ).sum := by
      intro l hl
      refine List.sum_nonneg ?_
      intro z hz
      obtain ⟨b, hb, rfl⟩ := List.mem_map.1 hz
      exact (hl b hb).le
    simp only [System.primary, List.map_cons, List.sum_cons, List.flatMap_append, List.flatMap_cons, List.flatMap_nil, List.map_append, List.sum_append,
      List.append_nil]
    have p0 : 0 < μ p := hμ' p (by simp)
    have p1 := hsum (before.flatMap (·.bodies)) fun b hb => hμ' b (by simp at hb ⊢; exact .inr (.inl hb))
    have p2 := hsum x.bodies fun b hb => hμ' b (by simp; tauto)
    have p3 := hsum (between.flatMap (·.bodies)) fun b hb => hμ' b (by simp at hb ⊢; exact .inr (.inr (.inr (.inl hb))))
    have p4 := hsum y.bodies fun b hb => hμ' b (by simp; tauto)
    generalize hm1 : μ p + ((before.flatMap (·.bodies)).map μ).sum + ((x.bodies).map μ).sum = m1
    have e1 : μ p + (((before.flatMap (·.bodies)).map μ).sum + ((x.bodies).map μ).sum) = m1 := by rw [← hm1, add_assoc]
    rw [e1]
    generalize hm2 : μ p + (_ : K) = m2
    have hm12 : m1 ≤ m2 := by rw [← hm1, ← hm2]; linarith
    have hm1' : 0 < m1 := by rw [← hm1]; linarith
    cases hx : size x.elements with
    | semimajorAxis a =>
      cases hy : size y.elements with
      | semimajorAxis a' => rw [h1, h1]; rw [hx, hy] at hle; exact hle
      | _ => rw [hx, hy] at hle; exact hle.elim
    | meanMotion n =>
      cases hy : size y.elements with
      | meanMotion n' =>
        rw [hx, hy] at hle
        have hle : n' ≤ n := hle
        have n0 := hn _ _ hx
        have n0' := hn _ _ hy
        obtain ⟨a1, a2⟩ := h2 n m1 n0 hm1'
        obtain ⟨b1, b2⟩ := h2 n' m2 n0' (lt_of_lt_of_le hm1' hm12)
        by_contra hlt
        rw [not_le] at hlt
        have : semimajorAxis (.meanMotion n') m2 ^ 3 * n' ^ 2 < semimajorAxis (.meanMotion n) m1 ^ 3 * n ^ 2 := by
          calc semimajorAxis (.meanMotion n') m2 ^ 3 * n' ^ 2 < semimajorAxis (.meanMotion n) m1 ^ 3 * n' ^ 2 := by gcongr
            _ ≤ _ := by gcongr
        rw [a2, b2] at this
        exact absurd hm12 (not_le.2 this)
      | _ => rw [hx, hy] at hle; exact hle.elim
    | period T =>
      cases hy : size y.elements with
      | period T' =>
        rw [hx, hy] at hle
        have hle : T ≤ T' := hle
        have n0 := hT _ _ hx
        have n0' := hT _ _ hy
        obtain ⟨a1, a2⟩ := h3 T m1 n0 hm1'
        obtain ⟨b1, b2⟩ := h3 T' m2 n0' (lt_of_lt_of_le hm1' hm12)
        by_contra hlt
        rw [not_le] at hlt
        have : 4 * π ^ 2 * semimajorAxis (.period T') m2 ^ 3 < 4 * π ^ 2 * semimajorAxis (.period T) m1 ^ 3 := by
          have : semimajorAxis (.period T') m2 ^ 3 < semimajorAxis (.period T) m1 ^ 3 := pow_lt_pow_left₀ hlt b1.le (by norm_num)
          exact mul_lt_mul_of_pos_left this (by positivity)
        rw [a2, b2] at this
        have hm2' : 0 ≤ m2 := (hm1'.le).trans hm12
        have h4 : m1 * T ^ 2 ≤ m2 * T' ^ 2 := by gcongr
        exact absurd h4 (not_le.2 this)
      | _ => rw [hx, hy] at hle; exact hle.elim
    | other =>
      cases hy : size y.elements <;> rw [hx, hy] at hle <;> exact hle.elim

/-! ## Independence of the order -/

theorem sort_unique {α : Type} {sort : Sorter} (hs : Sorts sort) {less : α → α → Bool} {l l' : List α} (h : l.Perm l') (hl : StrictWeakOrder less l)
    (hd : l.Pairwise fun x y => less x y ∨ less y x) : sort α less l = sort α less l' := by
  have hl' : StrictWeakOrder less l' := by
    constructor
    · intro x hx; exact hl.irrefl x (h.mem_iff.2 hx)
    · intro x hx y hy z hz; exact hl.trans x (h.mem_iff.2 hx) y (h.mem_iff.2 hy) z (h.mem_iff.2 hz)
    · intro x hx y hy z hz; exact hl.negTrans x (h.mem_iff.2 hx) y (h.mem_iff.2 hy) z (h.mem_iff.2 hz)
  obtain ⟨p1, q1⟩ := hs α less l hl
  obtain ⟨p2, q2⟩ := hs α less l' hl'
  have hperm : (sort α less l).Perm (sort α less l') := p1.trans (h.trans p2.symm)
  have hstrict : ∀ m : List α, m.Perm l → m.Pairwise (fun x y => ¬less y x) → m.Pairwise fun x y => less x y = true := by
    intro m hm hq
    have hd' : m.Pairwise fun x y => less x y ∨ less y x :=
      hm.symm.pairwise hd fun {x y} hxy => Or.symm hxy
    exact (hq.and hd').imp fun {x y} hxy => hxy.2.resolve_right hxy.1
  have s1 := hstrict _ p1 q1
  have s2 := hstrict _ (p2.trans h.symm) q2
  refine hperm.eq_of_pairwise ?_ s1 s2
  intro x y hx hy hxy hyx
  exfalso
  have mx := p1.mem_iff.1 hx
  have my := h.mem_iff.2 (p2.mem_iff.1 hy)
  exact hl.irrefl x mx (hl.trans x mx y my x mx hxy hyx)

/-- The sizes of the orbits of satellites of the same body can be compared and are different. -/
def Distinct (size : E → Size K) (l : List (System E B)) : Prop :=
  l.Pairwise fun s t => (size s.elements).less (size t.elements) = some true ∨ (size t.elements).less (size s.elements) = some true

theorem less_irrefl (s : Size K) : s.less s ≠ some true := by cases s <;> simp [Size.less]

theorem less_isSome_symm {s t : Size K} (h : (s.less t).isSome) : (t.less s).isSome ∧ (s.less s).isSome := by
  cases s <;> cases t <;> simp_all [Size.less]

theorem sort_perm {α : Type} {size : E → Size K} {sort : Sorter} (hs : Sorts sort) {l l' : List (E × α)} (h : l.Perm l')
    (hd : l.Pairwise fun x y => (size x.1).less (size y.1) = some true ∨ (size y.1).less (size x.1) = some true) :
    sortSatellites size sort l = sortSatellites size sort l' := by
  unfold sortSatellites
  rw [h.length_eq]
  by_cases hl : l'.length ≤ 1
  · rw [if_pos hl, if_pos hl]
    have hl2 : l.length ≤ 1 := by rw [h.length_eq]; exact hl
    match l, hl2 with
    | [], _ => rw [List.nil_perm.1 h]
    | [x], _ => rw [List.singleton_perm.1 h]
  · rw [if_neg hl, if_neg hl]
    have hall : (l.all fun x => l.all fun y => ((size x.1).less (size y.1)).isSome) = l'.all fun x => l'.all fun y => ((size x.1).less (size y.1)).isSome := by
      rw [Bool.eq_iff_iff]
      simp only [List.all_eq_true]
      constructor
      · intro h1 x hx y hy; exact h1 x (h.mem_iff.2 hx) y (h.mem_iff.2 hy)
      · intro h1 x hx y hy; exact h1 x (h.mem_iff.1 hx) y (h.mem_iff.1 hy)
    rw [← hall]
    by_cases hc : (l.all fun x => l.all fun y => ((size x.1).less (size y.1)).isSome) = true
    · rw [if_pos hc, if_pos hc]
      simp only [List.all_eq_true] at hc
      rw [sort_unique hs h (strictWeakOrder_of hc)]
      refine hd.imp ?_
      intro x y hxy
      rcases hxy with e | e
      · left; simp [e]
      · right; simp [e]
    · rw [if_neg hc, if_neg hc]

theorem all_perm {μ : B → K} {size : E → Size K} {sort : Sorter} {kepler : K → K → E → Option V} {l m : List (System E B)} (h : l.Perm m) :
    (toBarycentricAll μ size sort kepler l = none ∧ toBarycentricAll μ size sort kepler m = none) ∨
    ∃ r r', toBarycentricAll μ size sort kepler l = some r ∧ toBarycentricAll μ size sort kepler m = some r' ∧ r.Perm r' := by
  induction h with
  | nil => right; exact ⟨[], [], rfl, rfl, List.Perm.refl _⟩
  | cons x _ ih =>
    simp only [toBarycentricAll]
    rcases ih with ⟨h1, h2⟩ | ⟨r, r', h1, h2, h3⟩
    · left; rw [h1, h2]; cases toBarycentric μ size sort kepler x <;> simp
    · rw [h1, h2]
      cases toBarycentric μ size sort kepler x with
      | none => left; simp
      | some y => right; exact ⟨_, _, rfl, rfl, h3.cons _⟩
  | swap x y l =>
    simp only [toBarycentricAll]
    cases toBarycentric μ size sort kepler x <;> cases toBarycentric μ size sort kepler y <;> cases toBarycentricAll μ size sort kepler l <;> simp
    exact List.Perm.swap _ _ _
  | trans _ _ ih1 ih2 =>
    rcases ih1 with ⟨h1, h2⟩ | ⟨r, r', h1, h2, h3⟩
    · rcases ih2 with ⟨h4, h5⟩ | ⟨s, s', h4, h5, h6⟩
      · exact .inl ⟨h1, h5⟩
      · rw [h2] at h4; exact absurd h4 (by simp)
    · rcases ih2 with ⟨h4, h5⟩ | ⟨s, s', h4, h5, h6⟩
      · rw [h2] at h4; exact absurd h4 (by simp)
      · rw [h2] at h4
        injection h4 with h4
        subst h4
        exact .inr ⟨r, s', h1, h5, h3.trans h6⟩

theorem all_elements {μ : B → K} {size : E → Size K} {sort : Sorter} {kepler : K → K → E → Option V} {l : List (System E B)}
    {r : List (E × Subsystem K V B)} (h : toBarycentricAll μ size sort kepler l = some r) : r.map (·.1) = l.map (·.elements) := by
  induction l generalizing r with
  | nil => simp only [toBarycentricAll, Option.some.injEq] at h; subst h; rfl
  | cons s l ih =>
    rw [toBarycentricAll, Option.bind_eq_some_iff] at h
    obtain ⟨a, h1, h⟩ := h
    rw [Option.bind_eq_some_iff] at h
    obtain ⟨as, h2, h⟩ := h
    injection h with h
    subst h
    rw [List.map_cons, List.map_cons, ih h2]

mutual

theorem same_toBarycentric {μ : B → K} {size : E → Size K} {sort : Sorter} {kepler : K → K → E → Option V} (hs : Sorts sort) (s : System E B)
    {t : System E B} (h : Same s t) (hd : Siblings (Distinct size) s) : toBarycentric μ size sort kepler s = toBarycentric μ size sort kepler t := by
  obtain ⟨e, p, l⟩ := s
  rw [siblings_iff] at hd
  cases h with
  | mk _ _ _ m u h1 h2 =>
    rw [toBarycentric, toBarycentric]
    have e1 := sameAll_toBarycentric (μ := μ) (size := size) (sort := sort) (kepler := kepler) hs l h1 hd.2
    rw [e1]
    rcases all_perm (μ := μ) (size := size) (sort := sort) (kepler := kepler) h2 with ⟨h3, h4⟩ | ⟨r, r', h3, h4, h5⟩
    · rw [h3, h4]
    · rw [h3, h4, Option.bind_some, Option.bind_some, sort_perm hs h5]
      have h6 := hd.1
      unfold Distinct at h6
      rw [← e1] at h3
      have h7 := all_elements h3
      have h8 : (l.map (·.elements)).Pairwise fun x y => (size x).less (size y) = some true ∨ (size y).less (size x) = some true :=
        List.pairwise_map.2 h6
      rw [← h7] at h8
      exact (List.pairwise_map (R := fun x y => (size x).less (size y) = some true ∨ (size y).less (size x) = some true)).1 h8

theorem sameAll_toBarycentric {μ : B → K} {size : E → Size K} {sort : Sorter} {kepler : K → K → E → Option V} (hs : Sorts sort)
    (l : List (System E B)) {m : List (System E B)} (h : SameAll l m) (hd : ∀ t ∈ l, Siblings (Distinct size) t) :
    toBarycentricAll μ size sort kepler l = toBarycentricAll μ size sort kepler m := by
  match l with
  | [] => cases h; rfl
  | s :: l =>
    cases h with
    | cons _ t _ m h1 h2 =>
      have he : s.elements = t.elements := by cases h1; rfl
      rw [toBarycentricAll, toBarycentricAll, same_toBarycentric hs s h1 (hd s (by simp)),
        sameAll_toBarycentric hs l h2 fun t ht => hd t (List.mem_cons_of_mem _ ht), he]

end

/-- C35: if the satellites of each body have distinct sizes, the result does not depend on the order in which they were inserted, nor on the sorting
algorithm. -/
theorem C35_insertion_order (μ : B → K) (size : E → Size K) (sort : Sorter) (kepler : K → K → E → Option V) (hs : Sorts sort) (s t : System E B)
    (h : Same s t) (hd : Siblings (Distinct size) s) : consume μ size sort kepler s = consume μ size sort kepler t := by
  unfold consume
  rw [same_toBarycentric hs s h hd]

/-! ## Serialization -/

/-- The names of the satellites of the same body are distinct. -/
def DistinctNames {N : Type} (name : B → N) (l : List (System E B)) : Prop := l.Pairwise fun s t => name s.primary ≠ name t.primary

section

variable {N : Type} [LinearOrder N]

theorem names_weak (name : B → N) (l : List (System E B)) : StrictWeakOrder (fun x y : System E B => decide (name x.primary < name y.primary)) l := by
  constructor
  · intro x hx; simp
  · intro x hx y hy z hz h1 h2
    simp at *
    exact h1.trans h2
  · intro x hx y hy z hz h1
    simp at *
    rcases lt_or_ge (name x.primary) (name y.primary) with h | h
    · exact .inl h
    · exact .inr (lt_of_le_of_lt h h1)

theorem write_primary (name : B → N) (sort : Sorter) (s : System E B) : (write name sort s).primary = s.primary := by
  obtain ⟨e, p, l⟩ := s
  rw [write]; rfl

theorem writeAll_eq (name : B → N) (sort : Sorter) (l : List (System E B)) : writeAll name sort l = l.map (write name sort) := by
  induction l with
  | nil => rfl
  | cons s l ih => rw [writeAll, ih, List.map_cons]

mutual

theorem same_write {name : B → N} {sort : Sorter} (hs : Sorts sort) (s : System E B) {t : System E B} (h : Same s t)
    (hd : Siblings (DistinctNames name) s) : write name sort s = write name sort t := by
  obtain ⟨e, p, l⟩ := s
  rw [siblings_iff] at hd
  cases h with
  | mk _ _ _ m u h1 h2 =>
    rw [write, write, sameAll_write hs l h1 hd.2, sort_unique hs (l' := writeAll name sort u) ?_ (names_weak name _) ?_]
    · rw [writeAll_eq, writeAll_eq]; exact h2.map _
    · rw [← sameAll_write hs l h1 hd.2, writeAll_eq, List.pairwise_map]
      refine List.Pairwise.imp ?_ hd.1
      intro x y hxy
      rw [write_primary, write_primary]
      simpa using lt_or_gt_of_ne hxy

theorem sameAll_write {name : B → N} {sort : Sorter} (hs : Sorts sort) (l : List (System E B)) {m : List (System E B)} (h : SameAll l m)
    (hd : ∀ t ∈ l, Siblings (DistinctNames name) t) : writeAll name sort l = writeAll name sort m := by
  match l with
  | [] => cases h; rfl
  | s :: l =>
    cases h with
    | cons _ t _ m h1 h2 =>
      rw [writeAll, writeAll, same_write hs s h1 (hd s (by simp)), sameAll_write hs l h2 fun t ht => hd t (List.mem_cons_of_mem _ ht)]

end

mutual

theorem write_same {name : B → N} {sort : Sorter} (hs : Sorts sort) (s : System E B) : Same s (write name sort s) := by
  obtain ⟨e, p, l⟩ := s
  rw [write]
  exact .mk e p l _ _ (writeAll_same hs l) (hs _ _ _ (names_weak name _)).1.symm

theorem writeAll_same {name : B → N} {sort : Sorter} (hs : Sorts sort) (l : List (System E B)) : SameAll l (writeAll name sort l) := by
  match l with
  | [] => exact .nil
  | s :: l => rw [writeAll]; exact .cons _ _ _ _ (write_same hs s) (writeAll_same hs l)

end

/-- C35: the serialization describes the system, and if the satellites of each body have distinct names, it does not depend on the order in which they were
inserted. -/
theorem C35_serialization (name : B → N) (sort : Sorter) (hs : Sorts sort) (s : System E B) :
    Same s (write name sort s) ∧ ∀ t, Same s t → Siblings (DistinctNames name) s → write name sort s = write name sort t :=
  ⟨write_same hs s, fun _ h hd => same_write hs s h hd⟩

end

/-! ## Examples -/

/-- Insertion in a sorted list. -/
def insertSorted {α : Type} (less : α → α → Bool) (x : α) : List α → List α
  | [] => [x]
  | y :: l => if less x y then x :: y :: l else y :: insertSorted less x l

/-- A sorting algorithm. -/
def insertionSort : Sorter := fun _ less l => l.foldr (insertSorted less) []

theorem insertSorted_perm {α : Type} (less : α → α → Bool) (x : α) (l : List α) : (insertSorted less x l).Perm (x :: l) := by
  induction l with
  | nil => exact List.Perm.refl _
  | cons y l ih =>
    rw [insertSorted]
    split
    · exact List.Perm.refl _
    · exact (ih.cons y).trans (List.Perm.swap _ _ _)

/-- There are sorting algorithms. -/
theorem insertionSort_sorts : Sorts insertionSort := by
  intro α less l hl
  induction l with
  | nil => exact ⟨List.Perm.refl _, .nil⟩
  | cons x l ih =>
    obtain ⟨h1, h2⟩ := ih ⟨fun x hx => hl.irrefl x (List.mem_cons_of_mem _ hx),
      fun x hx y hy z hz => hl.trans x (List.mem_cons_of_mem _ hx) y (List.mem_cons_of_mem _ hy) z (List.mem_cons_of_mem _ hz),
      fun x hx y hy z hz => hl.negTrans x (List.mem_cons_of_mem _ hx) y (List.mem_cons_of_mem _ hy) z (List.mem_cons_of_mem _ hz)⟩
    refine ⟨(insertSorted_perm less x _).trans (h1.cons x), ?_⟩
    change (insertSorted less x (insertionSort α less l)).Pairwise _
    have hmem : ∀ y ∈ insertionSort α less l, y ∈ x :: l := fun y hy => List.mem_cons_of_mem _ (h1.mem_iff.1 hy)
    generalize insertionSort α less l = m at h2 hmem
    clear h1
    induction m with
    | nil => simp [insertSorted]
    | cons y m ih =>
      rw [insertSorted]
      have hx : x ∈ x :: l := by simp
      have hy := hmem y (by simp)
      rw [List.pairwise_cons] at h2
      split
      · rename_i hxy
        refine List.pairwise_cons.2 ⟨?_, List.pairwise_cons.2 h2⟩
        intro z hz hzx
        rcases List.mem_cons.1 hz with rfl | hz'
        · exact hl.irrefl x hx (hl.trans x hx z hy x hx hxy hzx)
        · exact h2.1 z hz' (hl.trans z (hmem z hz) x hx y hy hzx hxy)
      · rename_i hxy
        refine List.pairwise_cons.2 ⟨?_, ih h2.2 fun z hz => hmem z (List.mem_cons_of_mem _ hz)⟩
        intro z hz
        rcases List.mem_cons.1 ((insertSorted_perm less x m).mem_iff.1 hz) with rfl | hz
        · exact hxy
        · exact h2.1 z hz

/-- A star with two planets given by their semimajor axes, the first of which has a moon given by its period.  The displacements are the sizes. -/
def exampleSystem : System (Size ℚ) (Nat × ℚ) :=
  ⟨.other, (0, 5), [⟨.semimajorAxis 10, (1, 1), [⟨.period 3, (2, 2), []⟩]⟩, ⟨.semimajorAxis 4, (3, 3), []⟩]⟩

/-- The sizes can be compared, and are distinct. -/
example : Siblings (Distinct id) exampleSystem ∧ Siblings (Comparable id) exampleSystem ∧ ∀ b ∈ exampleSystem.bodies, 0 < b.2 := by
  refine ⟨?_, ?_, ?_⟩
  · simp [exampleSystem, siblings_iff, Distinct, System.elements, Size.less]
  · simp [exampleSystem, siblings_iff, Comparable, System.elements, Size.less]
  · simp [exampleSystem, System.bodies]

/-- The displacements of the example. -/
def exampleKepler (_ _ : ℚ) : Size ℚ → Option ℚ
  | .semimajorAxis a => some a
  | .meanMotion n => some n
  | .period T => some T
  | .other => some 0

example : consume (K := ℚ) (V := ℚ) (fun b : Nat × ℚ => b.2) id insertionSort exampleKepler exampleSystem =
    some ([(0, 5), (3, 3), (1, 1), (2, 2)], [-93 / 22, -5 / 22, 58 / 11, 91 / 11]) := by decide +kernel

end Principia.Physics.Hierarchical
