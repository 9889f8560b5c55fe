import Verif.Numerics.NearestNeighbourModel
import Verif.Geometry.FormsConvergence
import Verif.Geometry.RotationProps
import Mathlib.Tactic.Linarith
import Mathlib.Data.List.Sort

/-!
C42: the tree finds the nearest neighbour.
-/

set_option linter.unusedSimpArgs false
set_option linter.unusedVariables false
set_option linter.unusedSectionVars false

namespace Principia.Numerics.NearestNeighbour

open Geometry

/-! ## Specification -/

/-- The contract of `std::nth_element`: the range is permuted so that the element at the given position is not less than those that precede it and not greater than those
that follow it. -/
def IsNthElement (nth : NthElement) : Prop :=
  ∀ key l k, k < l.length → (nth key l k).Perm l ∧
    ∃ x, (nth key l k)[k]? = some x ∧ (∀ a ∈ (nth key l k).take k, key a ≤ key x) ∧ ∀ b ∈ (nth key l k).drop k, key x ≤ key b

/-- `found` is the nearest neighbour of `q` among the points `ps` that satisfy the filter. -/
def Found.IsNearest {P : Type} (deref : P → R3 ℝ) (ps : List P) (q : R3 ℝ) (filter : P → Prop) : Found P → Prop
  | .crash => False
  | .null => ∀ p ∈ ps, ¬filter p
  | .value p => p ∈ ps ∧ filter p ∧ ∀ p' ∈ ps, filter p' → (deref p - q).norm ≤ (deref p' - q).norm

/-! ## Lemmas -/

theorem maxElement_spec (key : Nat → ℝ) (first : Nat) (rest : List Nat) :
    maxElement key first rest ∈ first :: rest ∧ ∀ i ∈ first :: rest, key i ≤ key (maxElement key first rest) := by
  induction rest generalizing first with
  | nil => simp [maxElement]
  | cons a rest ih =>
    have h := ih (if key first < key a then a else first)
    have he : maxElement key first (a :: rest) = maxElement key (if key first < key a then a else first) rest := rfl
    rw [he]
    obtain ⟨h1, h2⟩ := h
    have h3 := h2 _ List.mem_cons_self
    by_cases hlt : key first < key a
    · rw [if_pos hlt] at h1 h2 h3 ⊢
      refine ⟨List.mem_cons_of_mem _ h1, ?_⟩
      intro i hi
      rcases List.mem_cons.1 hi with rfl | hi
      · exact hlt.le.trans h3
      · exact h2 i hi
    · rw [if_neg hlt] at h1 h2 h3 ⊢
      refine ⟨?_, ?_⟩
      · rcases List.mem_cons.1 h1 with h | h
        · rw [h]; exact List.mem_cons_self
        · exact List.mem_cons_of_mem _ (List.mem_cons_of_mem _ h)
      · intro i hi
        rcases List.mem_cons.1 hi with rfl | hi
        · exact h3
        · rcases List.mem_cons.1 hi with rfl | hi
          · exact (not_lt.1 hlt).trans h3
          · exact h2 i (List.mem_cons_of_mem _ hi)

theorem form_symmetric (ds : List (R3 ℝ)) (indices : List Nat) : (principalComponentForm ds indices).Symmetric := by
  have : ∀ (l : List Nat) (m : M3 ℝ), m.Symmetric → (l.foldl (fun result i => result + Form.symmetricSquare (displacement ds i)) m).Symmetric := by
    intro l
    induction l with
    | nil => exact fun m h => h
    | cons a l ih =>
      intro m h
      refine ih _ ?_
      simp only [M3.Symmetric, M3.transpose, M3.ext_iff, R3.ext_iff] at h ⊢
      obtain ⟨⟨-, h1, h2⟩, ⟨h3, -, h4⟩, h5, h6, -⟩ := h
      simp only [Form.symmetricSquare, M3.kronecker] at *
      refine ⟨⟨trivial, ?_, ?_⟩, ⟨?_, trivial, ?_⟩, ?_, ?_, trivial⟩
      all_goals simp_all [mul_comm]
  exact this _ _ (by simp [M3.Symmetric, M3.transpose, M3.ext_iff, R3.ext_iff])

/-- The principal axis always exists, and it is a unit vector. -/
theorem principalAxis_spec (ds : List (R3 ℝ)) (indices : List Nat) : ∃ axis, principalAxis ds indices = some axis ∧ axis.dot axis = 1 := by
  obtain ⟨d, r, h, hr, -⟩ := Form.C53_diagonalize _ (form_symmetric ds indices)
  refine ⟨r.apply ⟨0, 0, 1⟩, by rw [principalAxis, h]; rfl, ?_⟩
  rw [Rotation.C36_isometry r hr]
  simp [R3.dot]

/-- The indices of the leaves of a tree. -/
def Node.indices : Node → List Nat
  | .leaf indices => indices
  | .internal _ _ first second => first.indices ++ second.indices

/-- The invariant of the trees: no cell is empty or has too many values, and each internal node separates the values of its children. -/
def Node.Separates (maxValuesPerCell : Nat) (ds : List (R3 ℝ)) : Node → Prop
  | .leaf indices => indices ≠ [] ∧ indices.length ≤ maxValuesPerCell
  | .internal axis anchor first second =>
    axis.dot axis = 1 ∧ (∀ i ∈ first.indices, axis.dot (displacement ds i - anchor) ≤ 0) ∧ (∀ i ∈ second.indices, 0 ≤ axis.dot (displacement ds i - anchor)) ∧
      first.Separates maxValuesPerCell ds ∧ second.Separates maxValuesPerCell ds

theorem dot_sub (a u v : R3 ℝ) : a.dot (u - v) = a.dot u - a.dot v := by simp [R3.dot]; ring

theorem dot_mid (a u v : R3 ℝ) : a.dot ((1 / 2 : ℝ) • (u + v)) = (a.dot u + a.dot v) / 2 := by simp [R3.dot]; ring

theorem buildTree_spec {nth : NthElement} (hn : IsNthElement nth) {m : Nat} (hm : 0 < m) (ds : List (R3 ℝ)) :
    ∀ (fuel : Nat) (indices : List Nat), indices ≠ [] → indices.length < fuel →
      ∃ t, buildTree nth m ds fuel indices = some t ∧ t.indices.Perm indices ∧ t.Separates m ds ∧ (m < indices.length → ∃ a b c d, t = .internal a b c d) := by
  intro fuel
  induction fuel with
  | zero => intro l _ h; omega
  | succ fuel ih =>
    intro l hl hf
    rw [buildTree]
    by_cases hlen : l.length ≤ m
    · rw [if_pos hlen]
      exact ⟨_, rfl, List.Perm.refl _, ⟨hl, hlen⟩, fun h => by omega⟩
    · rw [if_neg hlen]
      obtain ⟨axis, ha, hu⟩ := principalAxis_spec ds l
      simp only [ha]
      obtain ⟨hp, x, hx, h1, h2⟩ := hn (fun i => axis.dot (displacement ds i)) l (l.length / 2) (by omega)
      generalize nth (fun i => axis.dot (displacement ds i)) l (l.length / 2) = l' at *
      have hlen' := hp.length_eq
      obtain ⟨rest, hd⟩ : ∃ rest, l'.drop (l.length / 2) = x :: rest := by
        have hlt : l.length / 2 < l'.length := by omega
        refine ⟨l'.drop (l.length / 2 + 1), ?_⟩
        rw [List.drop_eq_getElem_cons hlt]
        rw [List.getElem?_eq_getElem hlt] at hx
        rw [Option.some.inj hx]
      have htl : (l'.take (l.length / 2)).length = l.length / 2 := by rw [List.length_take]; omega
      have hdl : (l'.drop (l.length / 2)).length = l.length - l.length / 2 := by rw [List.length_drop, hlen']
      obtain ⟨a, rest', ht⟩ : ∃ a rest', l'.take (l.length / 2) = a :: rest' := by
        cases h : l'.take (l.length / 2) with
        | nil => rw [h] at htl; simp at htl; omega
        | cons a r => exact ⟨a, r, rfl⟩
      obtain ⟨t1, e1, p1, s1, -⟩ := ih (l'.take (l.length / 2)) (by rw [ht]; simp) (by rw [htl]; omega)
      obtain ⟨t2, e2, p2, s2, -⟩ := ih (l'.drop (l.length / 2)) (by rw [hd]; simp) (by rw [hdl]; omega)
      obtain ⟨hmem, hmax⟩ := maxElement_spec (fun i => axis.dot (displacement ds i)) a rest'
      rw [e1, e2, hd, ht]
      simp only [midLower]
      refine ⟨_, rfl, ?_, ⟨hu, ?_, ?_, s1, s2⟩, fun _ => ⟨_, _, _, _, rfl⟩⟩
      · refine ((p1.append p2).trans ?_)
        rw [List.take_append_drop]
        exact hp
      · intro i hi
        have hi' := p1.mem_iff.1 hi
        have h3 := hmax i (ht ▸ hi')
        have h4 := h1 _ (ht ▸ hmem)
        rw [dot_sub, dot_mid]
        linarith
      · intro i hi
        have hi' := p2.mem_iff.1 hi
        have h3 := h2 i hi'
        have h4 := h1 _ (ht ▸ hmem)
        rw [dot_sub, dot_mid]
        linarith

theorem addNode_spec {nth : NthElement} (hn : IsNthElement nth) {m : Nat} (hm : 0 < m) (ds : List (R3 ℝ)) (index : Nat) (t : Node) (ht : t.Separates m ds) :
    ∃ t', addNode nth m ds index t = some t' ∧ t'.indices.Perm (t.indices ++ [index]) ∧ t'.Separates m ds := by
  induction t with
  | leaf l =>
    rw [addNode]
    by_cases h : m < (l ++ [index]).length
    · obtain ⟨t', e, p, s, i⟩ := buildTree_spec hn hm ds ((l ++ [index]).length + 1) (l ++ [index]) (by simp) (by omega)
      obtain ⟨a, b, c, d, rfl⟩ := i h
      simp only [if_pos h, e]
      exact ⟨_, rfl, p, s⟩
    · simp only [if_neg h]
      exact ⟨_, rfl, List.Perm.refl _, by simp, not_lt.1 h⟩
  | internal axis anchor first second ih1 ih2 =>
    obtain ⟨hu, h1, h2, s1, s2⟩ := ht
    rw [addNode]
    by_cases h : axis.dot (displacement ds index - anchor) < 0
    · obtain ⟨t', e, p, s⟩ := ih1 s1
      rw [if_pos h, e]
      refine ⟨_, rfl, ?_, hu, ?_, h2, s, s2⟩
      · simp only [Node.indices]
        refine (p.append_right _).trans ?_
        rw [List.append_assoc, List.append_assoc]
        exact List.Perm.append_left _ List.perm_append_comm
      · intro i hi
        rcases List.mem_append.1 (p.mem_iff.1 hi) with hi | hi
        · exact h1 i hi
        · rw [List.mem_singleton.1 hi]; exact h.le
    · obtain ⟨t', e, p, s⟩ := ih2 s2
      rw [if_neg h, e]
      refine ⟨_, rfl, ?_, hu, h1, ?_, s1, s⟩
      · simp only [Node.indices]
        rw [List.append_assoc]
        exact List.Perm.append_left _ p
      · intro i hi
        rcases List.mem_append.1 (p.mem_iff.1 hi) with hi | hi
        · exact h2 i hi
        · rw [List.mem_singleton.1 hi]; exact not_lt.1 h

/-- `best` is the best of the given indices. -/
def Best.IsBest (ds : List (R3 ℝ)) (filter : Nat → Bool) (d : R3 ℝ) (l : List Nat) (best : Best) : Prop :=
  (∀ i ∈ l, filter i → best.distance2 ≤ ((displacement ds i - d).normSq : ℝ)) ∧
  ((best.distance2 = ⊤ ∧ best.index = none) ∨ ∃ i ∈ l, filter i ∧ best.index = some i ∧ best.distance2 = ((displacement ds i - d).normSq : ℝ))

theorem findLeaf_spec (ds : List (R3 ℝ)) (filter : Nat → Bool) (d : R3 ℝ) (l : List Nat) : (findLeaf ds filter d l).IsBest ds filter d l := by
  have : ∀ (l pre : List Nat) (b : Best), b.IsBest ds filter d pre →
      (l.foldl (fun best i =>
        let distance2 := (displacement ds i - d).normSq
        if (distance2 : WithTop ℝ) < best.distance2 ∧ filter i then ⟨distance2, some i⟩ else best) b : Best).IsBest ds filter d (pre ++ l) := by
    intro l
    induction l with
    | nil => intro pre b h; simpa using h
    | cons a l ih =>
      intro pre b h
      rw [List.foldl_cons, show pre ++ a :: l = (pre ++ [a]) ++ l by simp]
      apply ih
      obtain ⟨h1, h2⟩ := h
      dsimp only
      by_cases hc : (((displacement ds a - d).normSq : ℝ) : WithTop ℝ) < b.distance2 ∧ filter a = true
      · rw [if_pos hc]
        refine ⟨?_, Or.inr ⟨a, by simp, hc.2, rfl, rfl⟩⟩
        intro i hi hf
        rcases List.mem_append.1 hi with hi | hi
        · exact hc.1.le.trans (h1 i hi hf)
        · rw [List.mem_singleton.1 hi]
      · rw [if_neg hc]
        refine ⟨?_, ?_⟩
        · intro i hi hf
          rcases List.mem_append.1 hi with hi | hi
          · exact h1 i hi hf
          · rw [List.mem_singleton.1 hi] at hf ⊢
            exact not_lt.1 fun h => hc ⟨h, hf⟩
        · rcases h2 with h2 | ⟨i, hi, h⟩
          · exact Or.inl h2
          · exact Or.inr ⟨i, List.mem_append_left _ hi, h⟩
  have h := this l [] ⟨⊤, none⟩ ⟨by simp, Or.inl ⟨rfl, rfl⟩⟩
  rw [List.nil_append] at h
  exact h

/-- The distance of two points is at least that of their projections. -/
theorem projection_le {axis : R3 ℝ} (hu : axis.dot axis = 1) (w : R3 ℝ) : axis.dot w ^ 2 ≤ w.normSq := by
  have h : w.normSq = axis.dot w ^ 2 + (axis.cross w).normSq + (1 - axis.dot axis) * w.normSq := by
    simp [R3.dot, R3.cross, R3.normSq]; ring
  have : 0 ≤ (axis.cross w).normSq := Rotation.normSq_nonneg _
  rw [h, hu]; linarith

/-- The points on one side of a plane are at least as far as the plane from a point on the other side. -/
theorem far {axis anchor d x : R3 ℝ} (hu : axis.dot axis = 1) (h : axis.dot (d - anchor) * axis.dot (x - anchor) ≤ 0) :
    axis.dot (d - anchor) ^ 2 ≤ (x - d).normSq := by
  refine le_trans ?_ (projection_le hu (x - d))
  have e : axis.dot (x - d) = axis.dot (x - anchor) - axis.dot (d - anchor) := by rw [dot_sub, dot_sub, dot_sub]; ring
  rw [e]
  nlinarith [sq_nonneg (axis.dot (x - anchor))]

theorem Best.IsBest.perm {ds filter d} {l l' : List Nat} {b : Best} (h : b.IsBest ds filter d l) (hp : ∀ i, i ∈ l ↔ i ∈ l') : b.IsBest ds filter d l' := by
  refine ⟨fun i hi => h.1 i ((hp i).2 hi), ?_⟩
  rcases h.2 with h | ⟨i, hi, h⟩
  · exact Or.inl h
  · exact Or.inr ⟨i, (hp i).1 hi, h⟩

theorem Best.IsBest.combine {ds filter d} {l l' : List Nat} {b b' : Best} (h : b.IsBest ds filter d l) (h' : b'.IsBest ds filter d l') :
    (open Classical in if b'.distance2 < b.distance2 then b' else b).IsBest ds filter d (l ++ l') := by
  by_cases hlt : b'.distance2 < b.distance2
  · rw [if_pos hlt]
    refine ⟨fun i hi hf => ?_, ?_⟩
    · rcases List.mem_append.1 hi with hi | hi
      · exact hlt.le.trans (h.1 i hi hf)
      · exact h'.1 i hi hf
    · rcases h'.2 with h | ⟨i, hi, h⟩
      · exact Or.inl h
      · exact Or.inr ⟨i, List.mem_append_right _ hi, h⟩
  · rw [if_neg hlt]
    refine ⟨fun i hi hf => ?_, ?_⟩
    · rcases List.mem_append.1 hi with hi | hi
      · exact h.1 i hi hf
      · exact (not_lt.1 hlt).trans (h'.1 i hi hf)
    · rcases h.2 with h | ⟨i, hi, h⟩
      · exact Or.inl h
      · exact Or.inr ⟨i, List.mem_append_left _ hi, h⟩

theorem Best.IsBest.prune {ds filter d} {l l' : List Nat} {b : Best} (h : b.IsBest ds filter d l) {x : ℝ} (hx : b.distance2 ≤ x)
    (h' : ∀ i ∈ l', x ≤ (displacement ds i - d).normSq) : b.IsBest ds filter d (l ++ l') := by
  refine ⟨fun i hi hf => ?_, ?_⟩
  · rcases List.mem_append.1 hi with hi | hi
    · exact h.1 i hi hf
    · exact hx.trans (WithTop.coe_le_coe.2 (h' i hi))
  · rcases h.2 with h | ⟨i, hi, h⟩
    · exact Or.inl h
    · exact Or.inr ⟨i, List.mem_append_left _ hi, h⟩

/-- The search finds the best of the indices of a node, and tells the parent if it must look at the other side. -/
theorem find_spec {m : Nat} (ds : List (R3 ℝ)) (filter : Nat → Bool) (d : R3 ℝ) (t : Node) (ht : t.Separates m ds) (parent : Option (R3 ℝ × R3 ℝ)) (check : Bool) :
    ∃ best, find ds filter d parent check t = some (best, mustCheckOtherSide d parent check best) ∧ best.IsBest ds filter d t.indices := by
  induction t generalizing parent check with
  | leaf l =>
    rw [find, if_neg ht.1]
    exact ⟨_, rfl, findLeaf_spec ds filter d l⟩
  | internal axis anchor first second ih1 ih2 =>
    obtain ⟨hu, h1, h2, s1, s2⟩ := ht
    rw [find]
    -- The search of one side, then of the other.
    have key : ∀ (pref oth : Node) (hp : ∀ parent check, ∃ best, find ds filter d parent check pref = some (best, mustCheckOtherSide d parent check best) ∧
          best.IsBest ds filter d pref.indices)
        (ho : ∀ parent check, ∃ best, find ds filter d parent check oth = some (best, mustCheckOtherSide d parent check best) ∧ best.IsBest ds filter d oth.indices)
        (hfar : ∀ i ∈ oth.indices, axis.dot (d - anchor) * axis.dot (displacement ds i - anchor) ≤ 0),
        ∃ best, (match find ds filter d (some (axis, anchor)) true pref with
          | some (preferred, some true) =>
            match find ds filter d parent false oth with
            | some (other, _) =>
              let best := open Classical in if other.distance2 < preferred.distance2 then other else preferred
              some (best, mustCheckOtherSide d parent check best)
            | none => none
          | some (preferred, some false) => some (preferred, mustCheckOtherSide d parent check preferred)
          | _ => none) = some (best, mustCheckOtherSide d parent check best) ∧ best.IsBest ds filter d (pref.indices ++ oth.indices) := by
      intro pref oth hp ho hfar
      obtain ⟨b, e, hb⟩ := hp (some (axis, anchor)) true
      obtain ⟨b', e', hb'⟩ := ho parent false
      rw [e, e']
      simp only [mustCheckOtherSide]
      by_cases hc : ((axis.dot (d - anchor) ^ 2 : ℝ) : WithTop ℝ) < b.distance2
      · rw [decide_eq_true hc]
        exact ⟨_, rfl, hb.combine hb'⟩
      · rw [decide_eq_false hc]
        exact ⟨_, rfl, hb.prune (not_lt.1 hc) fun i hi => far hu (hfar i hi)⟩
    by_cases hneg : axis.dot (d - anchor) < 0
    · simp only [if_pos hneg]
      exact key first second (ih1 s1) (ih2 s2) fun i hi => mul_nonpos_of_nonpos_of_nonneg hneg.le (h2 i hi)
    · simp only [if_neg hneg]
      obtain ⟨b, e, hb⟩ := key second first (ih2 s2) (ih1 s1) fun i hi => mul_nonpos_of_nonneg_of_nonpos (not_lt.1 hneg) (h1 i hi)
      exact ⟨b, e, hb.perm fun i => by simp only [Node.indices, List.mem_append]; exact or_comm⟩

/-! ## Trees -/

variable {P : Type}

/-- The invariant of the trees. -/
structure Tree.Valid (deref : P → R3 ℝ) (t : Tree P) : Prop where
  displacements : t.displacements = t.values.map fun p => deref p - t.centroid
  root : t.values ≠ [] → ∃ root, t.root = some root ∧ root.indices.Perm (List.range t.values.length) ∧ root.Separates t.maxValuesPerCell t.displacements

theorem Tree.initialize_valid {nth : NthElement} (hn : IsNthElement nth) (deref : P → R3 ℝ) {t : Tree P} (hm : 0 < t.maxValuesPerCell) (hv : t.values ≠ []) (hd : t.displacements = []) :
    ∃ t', t.initialize nth deref = some t' ∧ t'.Valid deref ∧ t'.values = t.values ∧ t'.maxValuesPerCell = t.maxValuesPerCell := by
  rw [Tree.initialize, hd]
  rw [List.nil_append]
  generalize hc : (t.values.length : ℝ)⁻¹ • t.values.foldl (fun sum p => sum + deref p) 0 = c
  have hl : (t.values.map fun p => deref p - c).length = t.values.length := List.length_map _
  obtain ⟨root, e, p, s, -⟩ := buildTree_spec hn hm (t.values.map fun p => deref p - c) (t.values.length + 1) (List.range t.values.length)
    (by simpa using hv) (by simp)
  rw [hl, e]
  exact ⟨_, rfl, ⟨rfl, fun _ => ⟨root, rfl, p, s⟩⟩, rfl, rfl⟩

theorem displacement_append (ds l : List (R3 ℝ)) {i : Nat} (hi : i < ds.length) : displacement (ds ++ l) i = displacement ds i := by
  rw [displacement, displacement, List.getD_eq_getElem?_getD, List.getD_eq_getElem?_getD, List.getElem?_append_left hi]

theorem Node.Separates.append {m : Nat} {ds l : List (R3 ℝ)} {t : Node} (h : t.Separates m ds) (hi : ∀ i ∈ t.indices, i < ds.length) : t.Separates m (ds ++ l) := by
  induction t with
  | leaf _ => exact h
  | internal axis anchor first second ih1 ih2 =>
    obtain ⟨hu, h1, h2, s1, s2⟩ := h
    simp only [Node.indices, List.mem_append] at hi
    refine ⟨hu, fun i h => ?_, fun i h => ?_, ih1 s1 fun i h => hi i (.inl h), ih2 s2 fun i h => hi i (.inr h)⟩
    · rw [displacement_append _ _ (hi i (.inl h))]; exact h1 i h
    · rw [displacement_append _ _ (hi i (.inr h))]; exact h2 i h

theorem Tree.add_valid {nth : NthElement} (hn : IsNthElement nth) (deref : P → R3 ℝ) {t : Tree P} (hm : 0 < t.maxValuesPerCell) (ht : t.Valid deref) (p : P) :
    ∃ t', t.add nth deref p = some t' ∧ t'.Valid deref ∧ t'.values = t.values ++ [p] ∧ t'.maxValuesPerCell = t.maxValuesPerCell := by
  rw [add]
  dsimp only
  by_cases hv : t.values = []
  · rw [if_pos (by rw [hv]; rfl)]
    exact initialize_valid (t := { t with values := t.values ++ [p] }) hn deref hm (by simp) (by rw [ht.displacements, hv]; rfl)
  · rw [if_neg (by simpa using hv)]
    obtain ⟨root, er, pr, sr⟩ := ht.root hv
    have hl : t.displacements.length = t.values.length := by rw [ht.displacements, List.length_map]
    obtain ⟨root', e, p', s⟩ := addNode_spec hn hm (t.displacements ++ [deref p - t.centroid]) t.displacements.length root
      (sr.append fun i hi => by rw [hl]; exact List.mem_range.1 (pr.mem_iff.1 hi))
    rw [er]
    dsimp only
    rw [e]
    refine ⟨_, rfl, ⟨?_, fun _ => ⟨root', rfl, p'.trans ?_, s⟩⟩, rfl, rfl⟩
    · simp [ht.displacements]
    · simp only [List.length_append, List.length_singleton]
      rw [List.range_succ, hl]
      exact pr.append_right _

/-- A tree constructed from `values` to which the values `added` are then added. -/
noncomputable def Tree.build (nth : NthElement) (deref : P → R3 ℝ) (values added : List P) (maxValuesPerCell : Nat) : Option (Tree P) :=
  (Tree.new nth deref values maxValuesPerCell).bind fun t => added.foldlM (fun t p => t.add nth deref p) t

theorem Tree.build_valid {nth : NthElement} (hn : IsNthElement nth) (deref : P → R3 ℝ) (values added : List P) {m : Nat} (hm : 0 < m) (hl : values.length < 2 ^ 31) :
    ∃ t, Tree.build nth deref values added m = some t ∧ t.Valid deref ∧ t.values = values ++ added ∧ t.maxValuesPerCell = m := by
  have h0 : ∃ t, Tree.new nth deref values m = some t ∧ t.Valid deref ∧ t.values = values ∧ t.maxValuesPerCell = m := by
    rw [new, if_pos (by omega)]
    by_cases hv : values = []
    · rw [if_pos hv]
      exact ⟨_, rfl, ⟨by simp [hv], fun h => absurd hv h⟩, rfl, rfl⟩
    · rw [if_neg hv]
      exact initialize_valid (t := ⟨values, m, 0, [], none⟩) hn deref hm hv rfl
  have h1 : ∀ (added : List P) (t : Tree P), t.Valid deref → t.maxValuesPerCell = m → ∃ t', added.foldlM (fun t p => t.add nth deref p) t = some t' ∧ t'.Valid deref ∧
      t'.values = t.values ++ added ∧ t'.maxValuesPerCell = m := by
    intro added
    induction added with
    | nil => intro t ht hm'; exact ⟨t, rfl, ht, by simp, hm'⟩
    | cons p added ih =>
      intro t ht hm'
      obtain ⟨t1, e1, v1, l1, m1⟩ := add_valid hn deref (by rw [hm']; exact hm) ht p
      obtain ⟨t2, e2, v2, l2, m2⟩ := ih t1 v1 (m1.trans hm')
      refine ⟨t2, ?_, v2, by rw [l2, l1]; simp, m2⟩
      rw [List.foldlM_cons, e1]
      exact e2
  obtain ⟨t, e, v, l, mm⟩ := h0
  obtain ⟨t', e', v', l', mm'⟩ := h1 added t v mm
  exact ⟨t', by rw [build, e]; exact e', v', by rw [l', l], mm'⟩

theorem norm_le_norm {u v : R3 ℝ} (h : u.normSq ≤ v.normSq) : u.norm ≤ v.norm := Real.sqrt_le_sqrt h

theorem Tree.Valid.find {deref : P → R3 ℝ} {t : Tree P} (ht : t.Valid deref) (q : R3 ℝ) (filter : Option (P → Bool)) :
    (t.findNearestNeighbour q filter).IsNearest deref t.values q fun p => ∀ f, filter = some f → f p := by
  rw [findNearestNeighbour]
  by_cases hv : t.values = []
  · rw [if_pos (by rw [ht.displacements, hv]; rfl), hv]
    exact fun p hp => absurd hp (by simp)
  · rw [if_neg (by rw [ht.displacements]; simpa using hv)]
    obtain ⟨root, er, pr, sr⟩ := ht.root hv
    generalize hf : t.passes filter = fi
    obtain ⟨best, e, hb⟩ := find_spec t.displacements fi (q - t.centroid) root sr none false
    rw [er, Option.bind_some, e]
    dsimp only
    have hfi : ∀ i p, t.values[i]? = some p → (fi i = true ↔ ∀ f, filter = some f → f p = true) := by
      intro i p hi
      rw [← hf]
      simp only [passes, hi]
      cases filter with
      | none => simp
      | some f => simp
    have hdist : ∀ i p, t.values[i]? = some p → displacement t.displacements i - (q - t.centroid) = deref p - q := by
      intro i p hi
      rw [displacement, ht.displacements, List.getD_eq_getElem?_getD, List.getElem?_map, hi]
      ext <;> simp
    have hmem : ∀ p ∈ t.values, ∃ i ∈ root.indices, t.values[i]? = some p := by
      intro p hp
      obtain ⟨i, hi, h⟩ := List.getElem_of_mem hp
      exact ⟨i, pr.mem_iff.2 (List.mem_range.2 hi), by rw [List.getElem?_eq_getElem hi, h]⟩
    rcases hb with ⟨h1, ⟨h2, h3⟩ | ⟨i, hi, h2, h3, h4⟩⟩
    · rw [h3]
      intro p hp hfp
      obtain ⟨i, hi, h⟩ := hmem p hp
      have := h1 i hi ((hfi i p h).2 hfp)
      rw [h2] at this
      exact absurd this (by simp)
    · have hlt := List.mem_range.1 (pr.mem_iff.1 hi)
      have hget : t.values[i]? = some t.values[i] := List.getElem?_eq_getElem hlt
      rw [h3]
      dsimp only
      rw [hget]
      refine ⟨List.getElem_mem hlt, (hfi i _ hget).1 h2, ?_⟩
      intro p hp hfp
      obtain ⟨j, hj, h⟩ := hmem p hp
      have := h1 j hj ((hfi j p h).2 hfp)
      rw [h4, WithTop.coe_le_coe, hdist i _ hget, hdist j p h] at this
      exact norm_le_norm this

/-! ## The properties -/

/-- C42: a tree constructed from any values, to which any values are then added, finds the nearest neighbour of any point among all of these values that satisfy the filter
(all of them if the filter is null), or null if there is none; nothing fails. -/
theorem C42_nearest_neighbour {nth : NthElement} (hn : IsNthElement nth) (deref : P → R3 ℝ) (values added : List P) {maxValuesPerCell : Nat} (hm : 0 < maxValuesPerCell)
    (hl : values.length < 2 ^ 31) :
    ∃ t, Tree.build nth deref values added maxValuesPerCell = some t ∧ ∀ (q : R3 ℝ) (filter : Option (P → Bool)),
      (t.findNearestNeighbour q filter).IsNearest deref (values ++ added) q fun p => ∀ f, filter = some f → f p := by
  obtain ⟨t, e, v, l, -⟩ := Tree.build_valid hn deref values added hm hl
  exact ⟨t, e, fun q filter => l ▸ v.find q filter⟩

/-- C42: the tree holds each of the values once, and no cell is empty or has more values than requested. -/
theorem C42_indices {nth : NthElement} (hn : IsNthElement nth) (deref : P → R3 ℝ) (values added : List P) {maxValuesPerCell : Nat} (hm : 0 < maxValuesPerCell)
    (hl : values.length < 2 ^ 31) (hv : values ++ added ≠ []) :
    ∃ t root, Tree.build nth deref values added maxValuesPerCell = some t ∧ t.root = some root ∧ t.displacements.length = (values ++ added).length ∧
      root.indices.Perm (List.range (values ++ added).length) ∧ root.Separates maxValuesPerCell t.displacements := by
  obtain ⟨t, e, v, l, m⟩ := Tree.build_valid hn deref values added hm hl
  rw [← l] at hv ⊢
  obtain ⟨root, er, p, s⟩ := v.root hv
  exact ⟨t, root, e, er, by rw [v.displacements, List.length_map], p, m ▸ s⟩

/-- C42: if the cells may not have any values, the construction of the tree does not terminate: no amount of recursion is sufficient. -/
theorem C42_empty_cells_counterexample {nth : NthElement} (hn : IsNthElement nth) (ds : List (R3 ℝ)) (indices : List Nat) (h : indices ≠ []) (fuel : Nat) :
    buildTree nth 0 ds fuel indices = none := by
  induction fuel generalizing indices with
  | zero => rw [buildTree]
  | succ fuel ih =>
    have hpos : 0 < indices.length := List.length_pos_iff.2 h
    rw [buildTree, if_neg (by omega)]
    obtain ⟨axis, ha, hu⟩ := principalAxis_spec ds indices
    simp only [ha]
    obtain ⟨hp, x, hx, -⟩ := hn (fun i => axis.dot (displacement ds i)) indices (indices.length / 2) (by omega)
    have hlen := hp.length_eq
    split
    · rfl
    · rename_i y rest hd
      rw [ih (List.drop _ _) (by rw [hd]; simp)]
      split
      · rename_i h; cases h
      · rfl

/-! ## Examples -/

open Classical in
/-- A sort is an implementation of `std::nth_element`. -/
noncomputable def sortedNth : NthElement := fun key l _ => l.mergeSort fun a b => decide (key a ≤ key b)

theorem sortedNth_spec : IsNthElement sortedNth := by
  classical
  intro key l k hk
  have hp : (sortedNth key l k).Perm l := List.mergeSort_perm _ _
  have hs : (sortedNth key l k).Pairwise fun a b => key a ≤ key b := by
    have := List.pairwise_mergeSort (le := fun a b => decide (key a ≤ key b)) (fun a b c h1 h2 => by simp at h1 h2 ⊢; exact h1.trans h2)
      (fun a b => by simp; exact le_total _ _) l
    exact this.imp fun h => by simpa using h
  have hlt : k < (sortedNth key l k).length := by rw [hp.length_eq]; exact hk
  refine ⟨hp, (sortedNth key l k)[k], List.getElem?_eq_getElem hlt, ?_, ?_⟩
  · intro a ha
    obtain ⟨i, hi, h⟩ := List.getElem_of_mem ha
    rw [List.length_take] at hi
    rw [List.getElem_take] at h
    rw [← h]
    exact List.pairwise_iff_getElem.1 hs i k _ hlt (by omega)
  · intro b hb
    obtain ⟨i, hi, h⟩ := List.getElem_of_mem hb
    rw [List.getElem_drop] at h
    rw [← h]
    rcases Nat.eq_zero_or_pos i with rfl | hpos
    · simp
    · exact List.pairwise_iff_getElem.1 hs k (k + i) hlt _ (by omega)

/-- The theorem applies to a tree with cells of one value. -/
example : ∃ t, Tree.build sortedNth id [⟨1, 0, 0⟩, ⟨0, 2, 0⟩, ⟨0, 0, 3⟩] [⟨1, 1, 1⟩, ⟨1, 0, 0⟩] 1 = some t ∧
    (t.findNearestNeighbour ⟨0, 0, 2⟩ none).IsNearest id ([⟨1, 0, 0⟩, ⟨0, 2, 0⟩, ⟨0, 0, 3⟩] ++ [⟨1, 1, 1⟩, ⟨1, 0, 0⟩]) ⟨0, 0, 2⟩ fun _ => True := by
  obtain ⟨t, h1, h2⟩ := C42_nearest_neighbour sortedNth_spec id [⟨1, 0, 0⟩, ⟨0, 2, 0⟩, ⟨0, 0, 3⟩] [⟨1, 1, 1⟩, ⟨1, 0, 0⟩] one_pos (by simp)
  refine ⟨t, h1, ?_⟩
  have := h2 ⟨0, 0, 2⟩ none
  simpa using this

end Principia.Numerics.NearestNeighbour
