import Verif.Physics.JacobiProps
import Mathlib.Data.List.Perm.Basic
import Mathlib.Data.List.Forall2
import Mathlib.Tactic.Positivity
import Mathlib.Tactic.Linarith

/-!
C35: hierarchical systems.
-/

set_option linter.unusedSimpArgs false
set_option linter.unusedVariables false
set_option linter.unusedSectionVars false

namespace Principia.Physics.Hierarchical

open Principia.Geometry.Barycentre

variable {K V E B : Type} [Field K] [LinearOrder K] [IsStrictOrderedRing K] [AddCommGroup V] [Module K V]

/-! ## Lists of bodies -/

/-- The weighted positions. -/
def points (μ : B → K) (l : List (B × V)) : List (V × K) := l.map fun x => (x.2, μ x.1)

/-- A translation. -/
def move (c : V) (l : List (B × V)) : List (B × V) := l.map fun x => (x.1, x.2 + c)

theorem points_move (μ : B → K) (c : V) (l : List (B × V)) : points μ (move c l) = translate c (points μ l) := by
  simp [points, move, translate, Function.comp_def]

theorem mass_eq (μ : B → K) (l : List (B × V)) : mass μ l = total (points μ l) := by
  simp [mass, total, points, Function.comp_def]

theorem mass_move (μ : B → K) (c : V) (l : List (B × V)) : mass μ (move c l) = mass μ l := by
  rw [mass_eq, mass_eq, points_move, total_translate]

theorem points_append (μ : B → K) (l l' : List (B × V)) : points μ (l ++ l') = points μ l ++ points μ l' := by simp [points]

theorem IsBarycentre.move {μ : B → K} {c b : V} {l : List (B × V)} (h : IsBarycentre μ l b) : IsBarycentre μ (move c l) (b + c) := by
  have h' : Balanced (V := V) (points μ l) b := h
  have := balanced_translate (c := c) h'
  rw [← points_move] at this
  exact this

theorem getPoint_barycentre {μ : B → K} {L : List (B × V)} {c : Calculator K V} (hc : c = ⟨false, moment (points μ L) (0 : V), mass μ L⟩) {b : V}
    (hb : c.getPoint (0 : V) = .ok b) : IsBarycentre μ L b := by
  subst hc
  unfold Calculator.getPoint at hb
  by_cases h0 : mass μ L = 0
  · simp [h0] at hb
  · simp only [h0, if_false, Bool.false_eq_true] at hb
    injection hb with hb
    have := (balanced_result (V := V) (0 : V) (points μ L) (by rw [← mass_eq]; exact h0) b).2 (by rw [← hb, mass_eq])
    exact this

theorem Arranged.move {μ : B → K} {kepler : K → K → E → Option V} {s : System E B} {l : List (B × V)} (c : V) (h : Arranged μ kepler s l) :
    Arranged μ kepler s (move c l) := by
  induction h with
  | primary e p x => exact .primary _ _ _
  | satellite e p inner s l l' b b' h h' hb hb' hk ih ih' =>
    have := Arranged.satellite e p inner s _ _ (b + c) (b' + c) ih ih' (hb.move) (hb'.move) (by
      rw [mass_move, mass_move, hk, add_sub_add_right_eq_sub])
    simpa [Hierarchical.move] using this

theorem Arranged.ne_nil {μ : B → K} {kepler : K → K → E → Option V} {s : System E B} {l : List (B × V)} (h : Arranged μ kepler s l) : l ≠ [] := by
  induction h with
  | primary e p x => simp
  | satellite e p inner s l l' b b' h h' hb hb' hk ih ih' => simp [ih]

/-! ## The Jacobi coordinates of the subsystems -/

/-- The bodies of a subsystem with their positions. -/
def Subsystem.placed (s : Subsystem K V B) : List (B × V) := s.bodies.zip s.degreesOfFreedom

/-- The conversion of a subsystem is correct. -/
structure Good (μ : B → K) (kepler : K → K → E → Option V) (t : System E B) (s : Subsystem K V B) : Prop where
  length : s.degreesOfFreedom.length = s.bodies.length
  bodies : s.bodies = t.bodies
  arranged : Arranged μ kepler t s.placed
  barycentre : IsBarycentre μ s.placed 0
  mass : s.equivalent = mass μ s.placed

/-- The bodies of the subsystems placed at given points. -/
def spread (xs : List V) (l : List (E × Subsystem K V B)) : List (B × V) := (xs.zip l).flatMap fun x => Hierarchical.move x.1 x.2.2.placed

theorem spread_append (xs : List V) (l : List (E × Subsystem K V B)) (x : V) (s : E × Subsystem K V B) (h : xs.length = l.length) :
    spread (xs ++ [x]) (l ++ [s]) = spread xs l ++ Hierarchical.move x s.2.placed := by
  unfold spread
  rw [List.zip_append h, List.flatMap_append]
  simp

/-- The state after the addition of some subsystems. -/
structure Inv (μ : B → K) (kepler : K → K → E → Option V) (e : E) (p : B) (ts : List (System E B)) (l : List (E × Subsystem K V B))
    (j : Jacobi K V) (x : V) (xs : List V) : Prop where
  length : xs.length = l.length
  primocentric : j.primocentric = x :: xs
  calculator : j.barycentre = ⟨false, moment (points μ ((p, x) :: spread xs l)) (0 : V), mass μ ((p, x) :: spread xs l)⟩
  arranged : Arranged μ kepler ⟨e, p, ts⟩ ((p, x) :: spread xs l)

/-- The elements are those of the system, and the conversion is correct. -/
def Matches (μ : B → K) (kepler : K → K → E → Option V) (t : System E B) (s : E × Subsystem K V B) : Prop := s.1 = t.elements ∧ Good μ kepler t s.2

theorem mem_bodies_iff (e : E) (p : B) (s : List (System E B)) (b : B) :
    b ∈ (⟨e, p, s⟩ : System E B).bodies ↔ b = p ∨ ∃ t ∈ s, b ∈ t.bodies := by
  rw [System.bodies]; simp

theorem Good.mass_pos {μ : B → K} {kepler : K → K → E → Option V} {t : System E B} {s : Subsystem K V B} (h : Good μ kepler t s)
    (hμ : ∀ b ∈ t.bodies, 0 < μ b) : 0 < s.equivalent := by
  rw [h.mass, mass_eq]
  refine total_pos ?_ ?_
  · have := h.arranged.ne_nil
    simpa [points] using this
  · intro x hx
    simp only [points, List.mem_map] at hx
    obtain ⟨y, hy, rfl⟩ := hx
    refine hμ _ ?_
    rw [← h.bodies]
    exact (List.of_mem_zip hy).1

theorem inv_step {μ : B → K} {kepler : K → K → E → Option V} {e : E} {p : B} {ts : List (System E B)} {l : List (E × Subsystem K V B)}
    {j : Jacobi K V} {x : V} {xs : List V} (h : Inv μ kepler e p ts l j x xs) {t : System E B} {s : E × Subsystem K V B} {j' : Jacobi K V}
    (hs : Matches μ kepler t s) (hj : j.addElements kepler s.2.equivalent s.1 = some j') :
    ∃ x', Inv μ kepler e p (ts ++ [t]) (l ++ [s]) j' x (xs ++ [x']) := by
  obtain ⟨he, hs⟩ := hs
  unfold Jacobi.addElements at hj
  split at hj
  · exact absurd hj (by simp)
  rename_i d hd
  unfold Jacobi.add at hj
  split at hj
  · exact absurd hj (by simp)
  rename_i b hb
  injection hj with hj
  have hbal := getPoint_barycentre h.calculator hb
  refine ⟨b + d, ?_, ?_, ?_, ?_⟩
  · simp [h.length]
  · rw [← hj]; simp [h.primocentric]
  · have hsub : moment (points μ (move (b + d) s.2.placed)) (0 : V) = s.2.equivalent • (b + d) := by
      have h1 := hs.barycentre.move (c := b + d)
      rw [zero_add] at h1
      have h2 := (balanced_iff (points μ (move (b + d) s.2.placed)) (0 : V) (b + d)).1 h1
      rw [← h2, ← mass_eq, mass_move, hs.mass]
      simp
    rw [← hj, spread_append _ _ _ _ h.length, ← List.cons_append, points_append, moment_append, hsub, mass_eq, points_append, total_append,
      ← mass_eq, ← mass_eq, mass_move, ← hs.mass, h.calculator]
    simp [Calculator.addPoint, Calculator.accumulate]
  · rw [spread_append _ _ _ _ h.length, ← List.cons_append]
    refine .satellite e p ts t _ _ b (b + d) h.arranged (hs.arranged.move _) hbal ?_ ?_
    · have := hs.barycentre.move (c := b + d)
      rwa [zero_add] at this
    · rw [mass_move, ← hs.mass, add_sub_cancel_left, ← he, ← hd]
      simp [Jacobi.system, h.calculator]

theorem inv_fold {μ : B → K} {kepler : K → K → E → Option V} {e : E} {p : B} {ts' : List (System E B)} {l' : List (E × Subsystem K V B)}
    (hf : List.Forall₂ (Matches μ kepler) ts' l') {ts : List (System E B)} {l : List (E × Subsystem K V B)}
    {j : Jacobi K V} {x : V} {xs : List V} (h : Inv μ kepler e p ts l j x xs) {j' : Jacobi K V} (hj : jacobiCoordinates kepler j l' = some j') :
    ∃ xs', Inv μ kepler e p (ts ++ ts') (l ++ l') j' x xs' := by
  induction hf generalizing ts l j xs with
  | nil => simp only [jacobiCoordinates, Option.some.injEq] at hj; subst hj; exact ⟨xs, by simpa using h⟩
  | @cons t s ts₁ l₁ hs hf ih =>
    obtain ⟨e', s'⟩ := s
    rw [jacobiCoordinates, Option.bind_eq_some_iff] at hj
    obtain ⟨j₁, h1, h2⟩ := hj
    obtain ⟨x', h3⟩ := inv_step h hs h1
    obtain ⟨xs', h4⟩ := ih h3 h2
    exact ⟨xs', by simpa using h4⟩

theorem inv_init (μ : B → K) (kepler : K → K → E → Option V) (e : E) (p : B) : Inv μ kepler e p [] [] (Jacobi.init (μ p)) 0 [] := by
  refine ⟨rfl, rfl, ?_, .primary _ _ _⟩
  simp [Jacobi.init, Calculator.init, Calculator.addPoint, Calculator.accumulate, spread, points, moment, mass]

theorem zip_flatMap {A C : Type} (l : List A) (f : A → List B) (g : A → List V) (h : ∀ a ∈ l, (g a).length = (f a).length) :
    (l.flatMap f).zip (l.flatMap g) = l.flatMap fun a => (f a).zip (g a) := by
  induction l with
  | nil => rfl
  | cons a l ih =>
    rw [List.flatMap_cons, List.flatMap_cons, List.flatMap_cons, List.zip_append (h a (by simp)).symm, ih fun b hb => h b (List.mem_cons_of_mem _ hb)]

theorem flatMap_snd {A C D : Type} (xs : List A) (l : List C) (f : C → List D) (h : xs.length = l.length) :
    (xs.zip l).flatMap (fun x => f x.2) = l.flatMap f := by
  induction l generalizing xs with
  | nil => cases xs <;> simp_all
  | cons a l ih =>
    cases xs with
    | nil => simp at h
    | cons x xs => rw [List.zip_cons_cons, List.flatMap_cons, List.flatMap_cons, ih xs (by simpa using h)]

theorem combine_good {μ : B → K} {kepler : K → K → E → Option V} {e : E} {p : B} {ts : List (System E B)} {l : List (E × Subsystem K V B)}
    (hf : List.Forall₂ (Matches μ kepler) ts l) {r : Subsystem K V B} (h : combine μ kepler p l = some r) : Good μ kepler ⟨e, p, ts⟩ r := by
  unfold combine at h
  split at h
  · exact absurd h (by simp)
  rename_i j hj
  split at h
  · rename_i b bs hb
    injection h with h
    obtain ⟨xs, hi⟩ := inv_fold (e := e) hf (inv_init μ kepler e p) hj
    rw [List.nil_append, List.nil_append] at hi
    unfold Jacobi.barycentric at hb
    split at hb
    · exact absurd hb (by simp)
    rename_i c hc
    injection hb with hb
    rw [hi.primocentric, List.map_cons] at hb
    injection hb with hb1 hb2
    have hbal := getPoint_barycentre hi.calculator hc
    generalize hL : (p, (0 : V)) :: spread xs l = L at hi hbal
    have hlen : bs.length = l.length := by rw [← hb2, List.length_map, hi.length]
    have hgood : ∀ s ∈ l, s.2.degreesOfFreedom.length = s.2.bodies.length ∧ ∃ t ∈ ts, s.2.bodies = t.bodies := by
      clear hi hj hL hbal hlen hb2 h
      induction hf with
      | nil => simp
      | @cons t s ts' l' h1 h2 ih =>
        intro s' hs'
        rcases List.mem_cons.1 hs' with rfl | hs'
        · exact ⟨h1.2.length, t, by simp, h1.2.bodies⟩
        · obtain ⟨h3, t', ht', h4⟩ := ih s' hs'
          exact ⟨h3, t', List.mem_cons_of_mem _ ht', h4⟩
    -- The bodies and their positions.
    have hplaced : r.placed = move (-c) L := by
      rw [← h, Subsystem.placed]
      simp only [List.zip_cons_cons]
      rw [← hL, move, List.map_cons, ← hb1]
      congr 1
      · simp [sub_eq_add_neg]
      · rw [← flatMap_snd bs l (fun x => x.2.bodies) hlen, zip_flatMap (C := Unit)]
        · rw [← hb2]
          unfold spread
          rw [List.zip_map_left, List.flatMap_map, List.map_flatMap]
          congr 1
          funext x
          simp only [Prod.map, id, move, Subsystem.placed, List.map_map, List.zip_map_right, Function.comp_def]
          apply List.map_congr_left
          intro y _
          simp [Prod.map, sub_eq_add_neg, add_comm, add_left_comm, add_assoc]
        · intro a ha
          simpa using (hgood a.2 (List.of_mem_zip ha).2).1
    constructor
    · rw [← h]
      simp only [List.length_cons, List.length_flatMap]
      congr 1
      rw [← List.length_flatMap (f := fun a : E × Subsystem K V B => a.2.bodies), ← flatMap_snd bs l (fun x => x.2.bodies) hlen, List.length_flatMap]
      congr 1
      apply List.map_congr_left
      intro a ha
      simpa using (hgood a.2 (List.of_mem_zip ha).2).1
    · rw [← h, System.bodies]
      simp only [List.cons.injEq, true_and]
      clear hi hj hL hbal hlen hb2 h hplaced hgood
      induction hf with
      | nil => rfl
      | @cons t s ts' l' h1 h2 ih => rw [List.flatMap_cons, List.flatMap_cons, ih, h1.2.bodies]
    · rw [hplaced, ← hL]; exact hi.arranged.move _
    · rw [hplaced]
      have := hbal.move (c := -c)
      rwa [add_neg_cancel] at this
    · rw [hplaced, mass_move, ← h]
      simp [Jacobi.system, hi.calculator, hL]
  · exact absurd h (by simp)

/-! ## Sorting -/

theorem less_le {s s' : Size K} : s.less s' = some false ↔ s'.le s := by
  cases s <;> cases s' <;> simp [Size.less, Size.le]

theorem lt_split {a c : K} (h : a < c) (b : K) : a < b ∨ b < c := by
  rcases lt_or_ge a b with h' | h'
  · exact .inl h'
  · exact .inr (lt_of_le_of_lt h' h)

theorem strictWeakOrder_of {α : Type} {size : E → Size K} {l : List (E × α)} (hkey : ∀ x ∈ l, ∀ y ∈ l, ((size x.1).less (size y.1)).isSome) :
    StrictWeakOrder (fun x y : E × α => ((size x.1).less (size y.1)).getD false) l := by
  constructor
  · intro x hx
    cases size x.1 <;> simp [Size.less]
  · intro x hx y hy z hz
    have h1 := hkey x hx y hy
    have h2 := hkey y hy z hz
    revert h1 h2
    cases size x.1 <;> cases size y.1 <;> cases size z.1 <;> simp [Size.less] <;> intros <;> exact lt_trans (by assumption) (by assumption)
  · intro x hx y hy z hz
    have h1 := hkey x hx y hy
    have h2 := hkey y hy z hz
    revert h1 h2
    cases size x.1 <;> cases size y.1 <;> cases size z.1 <;> simp [Size.less] <;> intro h3
    · exact lt_split h3 _
    · exact (lt_split h3 _).symm
    · exact lt_split h3 _

theorem sort_spec {α : Type} {size : E → Size K} {sort : Sorter} (hs : Sorts sort) {l l' : List (E × α)} (h : sortSatellites size sort l = some l') :
    l'.Perm l ∧ l'.Pairwise fun x y => (size x.1).le (size y.1) := by
  unfold sortSatellites at h
  split at h
  · rename_i hl
    injection h with h
    subst h
    refine ⟨List.Perm.refl _, ?_⟩
    match l, hl with
    | [], _ => simp
    | [x], _ => simp
  · split at h
    · rename_i hall
      injection h with h
      subst h
      simp only [List.all_eq_true] at hall
      have hkey : ∀ x ∈ l, ∀ y ∈ l, ((size x.1).less (size y.1)).isSome := hall
      obtain ⟨h1, h2⟩ := hs _ (fun x y : E × α => ((size x.1).less (size y.1)).getD false) l (strictWeakOrder_of hkey)
      refine ⟨h1, ?_⟩
      refine (h2.imp_of_mem ?_)
      intro x y hx hy hxy
      have h3 := hkey y (h1.mem_iff.1 hy) x (h1.mem_iff.1 hx)
      rw [← less_le]
      cases h4 : (size y.1).less (size x.1) with
      | none => rw [h4] at h3; simp at h3
      | some b => rw [h4] at hxy; simpa using hxy
    · exact absurd h (by simp)

/-! ## Hierarchical systems -/

theorem sorted_elements {size : E → Size K} {s t : System E B} (h : Sorted size s t) : t.elements = s.elements := by cases h; rfl

mutual

theorem toBarycentric_good {μ : B → K} {size : E → Size K} {sort : Sorter} {kepler : K → K → E → Option V} (hs : Sorts sort) (s : System E B)
    {r : Subsystem K V B} (h : toBarycentric μ size sort kepler s = some r) : ∃ t, Sorted size s t ∧ Good μ kepler t r := by
  obtain ⟨e, p, satellites⟩ := s
  rw [toBarycentric, Option.bind_eq_some_iff] at h
  obtain ⟨l, h1, h⟩ := h
  rw [Option.bind_eq_some_iff] at h
  obtain ⟨l', h2, h3⟩ := h
  obtain ⟨ts, h4, h5⟩ := toBarycentricAll_good hs satellites h1
  obtain ⟨h6, h7⟩ := sort_spec hs h2
  have h8 : List.Forall₂ (fun s t => Matches μ kepler t s) l ts := List.Forall₂.flip h5
  obtain ⟨us, h9, h10⟩ := List.perm_comp_forall₂ h6 h8
  have h9' : List.Forall₂ (Matches μ kepler) us l' := List.Forall₂.flip h9
  refine ⟨⟨e, p, us⟩, .mk e p satellites ts us h4 h10.symm ?_, combine_good h9' h3⟩
  have h11 : us.map (·.elements) = l'.map (·.1) := by
    clear h10 h3 h7 h6 h2 h8 h9
    induction h9' with
    | nil => rfl
    | cons ha hb ih => rw [List.map_cons, List.map_cons, ih, ha.1]
  have h12 : (l'.map (·.1)).Pairwise fun x y => (size x).le (size y) := List.pairwise_map.2 h7
  rw [← h11] at h12
  exact (List.pairwise_map (R := fun x y => (size x).le (size y))).1 h12

theorem toBarycentricAll_good {μ : B → K} {size : E → Size K} {sort : Sorter} {kepler : K → K → E → Option V} (hs : Sorts sort)
    (s : List (System E B)) {l : List (E × Subsystem K V B)} (h : toBarycentricAll μ size sort kepler s = some l) :
    ∃ ts, SortedAll size s ts ∧ List.Forall₂ (Matches μ kepler) ts l := by
  match s with
  | [] => simp only [toBarycentricAll, Option.some.injEq] at h; subst h; exact ⟨[], .nil, .nil⟩
  | s :: s' =>
    rw [toBarycentricAll, Option.bind_eq_some_iff] at h
    obtain ⟨r, h1, h⟩ := h
    rw [Option.bind_eq_some_iff] at h
    obtain ⟨rs, h2, h⟩ := h
    injection h with h
    subst h
    obtain ⟨t, h3, h4⟩ := toBarycentric_good hs s h1
    obtain ⟨ts, h5, h6⟩ := toBarycentricAll_good hs s' h2
    exact ⟨t :: ts, .cons s t s' ts h3 h5, .cons ⟨(sorted_elements h3).symm, h4⟩ h6⟩

end

/-- C35: the bodies of a hierarchical system are listed in preorder, the satellites of each body being in increasing order; the barycentre of the
system is at the origin; and the displacement of each satellite and its satellites from the barycentre of its primary and of the inner satellites is
given by its elements. -/
theorem C35_hierarchical (μ : B → K) (size : E → Size K) (sort : Sorter) (kepler : K → K → E → Option V) (hs : Sorts sort) (s : System E B)
    (bodies : List B) (dof : List V) (h : consume μ size sort kepler s = some (bodies, dof)) :
    ∃ t, Sorted size s t ∧ bodies = t.bodies ∧ dof.length = bodies.length ∧ Arranged μ kepler t (bodies.zip dof) ∧
      IsBarycentre μ (bodies.zip dof) 0 := by
  unfold consume at h
  rw [Option.map_eq_some_iff] at h
  obtain ⟨r, h1, h2⟩ := h
  obtain ⟨t, h3, h4⟩ := toBarycentric_good hs s h1
  simp only [zero_add, List.map_id', Prod.mk.injEq] at h2
  obtain ⟨rfl, rfl⟩ := h2
  exact ⟨t, h3, h4.bodies, h4.length, h4.arranged, h4.barycentre⟩

end Principia.Physics.Hierarchical
