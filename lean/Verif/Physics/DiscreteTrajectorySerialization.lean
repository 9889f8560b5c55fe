import Verif.Physics.DiscreteTrajectorySerializationModel
import Verif.Physics.DiscreteTrajectoryIteratorLemmas

/-!
# Lemmas about the serialization of discrete trajectories
-/

set_option linter.unusedSimpArgs false
set_option linter.unusedVariables false
set_option linter.unusedSectionVars false

namespace Principia.DiscreteTrajectory

open Principia.SortedMap

variable {T D H E : Type} [LinearOrder T] [DecidableEq D] [AddCommGroup E] [LinearOrder E]

/-! ## Segments -/

theorem readLoop_spec (h : Hermite T D H E) (exact : List (T × D)) : ∀ (l : List (T × D × E)) (s : Seg T D H E), SegInv s →
    s.tolerance = none → s.timeline ≠ [] → (l.Pairwise fun a b => a.1 < b.1) → (∀ a ∈ s.timeline, ∀ b ∈ l, a.1 < b.1) →
    s.error = 0 →
    ∃ s', readLoop h exact l true s = some s' ∧ SegInv s' ∧ s'.tolerance = none ∧
      s'.points = s.points ++ l.map (fun a => (a.1, restoredDof exact a.1 a.2.1)) ∧
      s'.timeline.map (fun a => a.2.err) = s.timeline.map (fun a => a.2.err) ++ l.map (fun a => a.2.2) ∧ s'.error = 0 := by
  intro l
  induction l with
  | nil => intro s hs ht hne _ _ he; exact ⟨s, rfl, hs, ht, by simp, by simp, he⟩
  | cons a l ih =>
    intro s hs ht hne hp hlt he
    rw [List.pairwise_cons] at hp
    obtain ⟨last, hlast⟩ : ∃ x, s.timeline.getLast? = some x := by
      cases hg : s.timeline.getLast? with
      | none => simp at hg; exact absurd hg hne
      | some x => exact ⟨x, rfl⟩
    obtain ⟨first, hfirst⟩ : ∃ x, s.timeline.head? = some x := by
      cases hg : s.timeline.head? with
      | none => simp at hg; exact absurd hg hne
      | some x => exact ⟨x, rfl⟩
    have hl1 : last.1 < a.1 := hlt _ (List.mem_of_getLast? hlast) a (by simp)
    have hf1 : first.1 < a.1 := hlt _ (List.mem_of_head? hfirst) a (by simp)
    have happ : s.append h a.1 (restoredDof exact a.1 a.2.1) = some (s.push h last a.1 (restoredDof exact a.1 a.2.1)) := by
      unfold Seg.append
      rw [hfirst, hlast]
      simp only [ht]
      rw [if_neg hf1.ne, if_pos hl1]
    let s1 : Seg T D H E := { s with timeline := s.timeline ++ [(a.1, { dof := restoredDof exact a.1 a.2.1, interpolation := some { hermite := h.make (point last) (a.1, restoredDof exact a.1 a.2.1), error := a.2.2 } })], error := 0 }
    have hset : setLastError (s.push h last a.1 (restoredDof exact a.1 a.2.1)) a.2.2 = some s1 := by
      unfold setLastError Seg.push
      simp [s1]
    have hinv1 : SegInv s1 := by
      have := inv_concat hs.sorted hs.interpolations (t := a.1) (v := { dof := restoredDof exact a.1 a.2.1, interpolation := some { hermite := h.make (point last) (a.1, restoredDof exact a.1 a.2.1), error := a.2.2 } }) (fun b hb => hlt b hb a (by simp)) (by simp [hne])
      exact ⟨this.1, this.2⟩
    obtain ⟨s', h1, h2, h3, h4, h5, h6⟩ := ih s1 hinv1 ht (by simp [s1]) hp.2 (by
      intro b hb c hc
      simp only [s1, List.mem_append, List.mem_singleton] at hb
      rcases hb with hb | rfl
      · exact hlt b hb c (by simp [hc])
      · exact hp.1 c hc) rfl
    refine ⟨s', ?_, h2, h3, ?_, ?_, h6⟩
    · unfold readLoop
      rw [happ]
      simp only [Option.bind_eq_bind, Option.bind_some, if_true, hset]
      exact h1
    · rw [h4]; simp [s1, Seg.points, point]
    · rw [h5]; simp [s1, Val.err]

theorem readSegment_spec (h : Hermite T D H E) (m : SegMessage T D E) (hp : m.timeline.Pairwise fun a b => a.1 < b.1) :
    ∃ s', readSegment h m = some s' ∧ SegInv s' ∧ s'.tolerance = m.tolerance ∧
      s'.points = m.timeline.map (fun a => (a.1, restoredDof (m.exact.foldl (fun m p => emplace m p.1 p.2) []) a.1 a.2.1)) ∧
      (s'.timeline.map (fun a => a.2.err)).drop 1 = (m.timeline.map (fun a => a.2.2)).drop 1 ∧ s'.error = 0 := by
  unfold readSegment
  cases hl : m.timeline with
  | nil =>
    refine ⟨{ (Seg.new : Seg T D H E) with tolerance := m.tolerance }, rfl, ⟨sorted_nil, by simp [Seg.new]⟩, rfl, ?_, ?_, rfl⟩
    · simp [Seg.points, Seg.new]
    · simp [Seg.new]
  | cons a l =>
    rw [hl, List.pairwise_cons] at hp
    generalize hex : m.exact.foldl (fun m p => emplace m p.1 p.2) [] = exact
    let s1 : Seg T D H E := { (Seg.new : Seg T D H E) with timeline := [(a.1, { dof := restoredDof exact a.1 a.2.1, interpolation := none })] }
    have happ : (Seg.new : Seg T D H E).append h a.1 (restoredDof exact a.1 a.2.1) = some s1 := by
      unfold Seg.append
      simp [Seg.new, s1]
    have hinv1 : SegInv s1 := by
      refine ⟨?_, ?_⟩
      · simp [s1, Sorted]
      · intro k b hb
        have : k = 0 := by
          have := (List.getElem?_eq_some_iff.1 hb).1
          simp [s1] at this; exact this
        subst this
        simp [s1] at hb
        subst hb
        simp
    obtain ⟨s', h1, h2, h3, h4, h5, h6⟩ := readLoop_spec h exact l s1 hinv1 rfl (by simp [s1]) hp.2 (by
      intro b hb c hc
      simp only [s1, List.mem_singleton] at hb
      subst hb
      exact hp.1 c hc) rfl
    refine ⟨{ s' with tolerance := m.tolerance }, ?_, ⟨h2.1, h2.2⟩, rfl, ?_, ?_, h6⟩
    · unfold readLoop
      rw [happ]
      simp only [Option.bind_eq_bind, Option.bind_some, Bool.false_eq_true, if_false, h1]
    · have : ({ s' with tolerance := m.tolerance } : Seg T D H E).points = s'.points := rfl
      rw [this, h4]; simp [s1, Seg.points, point]
    · simp only [h5]; simp [s1]

/-! ## Ranges -/

/-- The index of the first point not before a possibly infinite time. -/
def lbo {V : Type} (l : List (T × V)) (t : Option T) : Nat :=
  match t with
  | none => l.length
  | some t => lowerBound l t

/-- Whether a time is in the range. -/
def InRange (bt et : Option T) (t : T) : Bool :=
  (match bt with
   | none => false
   | some b => decide (b ≤ t)) &&
  (match et with
   | none => true
   | some e => decide (t < e))

/-- The order of possibly infinite times. -/
def leInf (bt et : Option T) : Prop :=
  match bt, et with
  | _, none => True
  | none, some _ => False
  | some b, some e => b ≤ e

theorem drop_take_while {α : Type} (p q : α → Bool) (hpq : ∀ a, p a = true → q a = true) (l : List α) :
    (l.takeWhile q).drop (l.takeWhile p).length = (l.takeWhile q).dropWhile p := by
  induction l with
  | nil => rfl
  | cons a l ih =>
    cases hp : p a with
    | true => simp [List.takeWhile_cons, hp, hpq a hp, ih, List.dropWhile_cons]
    | false =>
      cases hq : q a <;> simp [List.takeWhile_cons, hp, hq, List.dropWhile_cons]

theorem range_eq_filter {V : Type} {l : List (T × V)} (h : Sorted l) {bt et : Option T} (hbe : leInf bt et) :
    (l.take (lbo l et)).drop (lbo l bt) = l.filter fun a => InRange bt et a.1 := by
  cases bt with
  | none =>
    have : (l.filter fun a => InRange none et a.1) = [] := by simp [InRange]
    rw [this]
    apply List.drop_eq_nil_of_le
    simp [lbo]
  | some b =>
    cases et with
    | none =>
      simp only [lbo, List.take_length, InRange, Bool.and_true]
      exact drop_lowerBound h b
    | some e =>
      have hbe' : b ≤ e := hbe
      simp only [lbo, lowerBound]
      rw [take_takeWhile, drop_take_while _ _ (fun a ha => by simp at ha ⊢; exact ha.trans_le hbe'),
        takeWhile_eq_filter h _ (lt_down e), dropWhile_eq_filter (h.filter _) _ (lt_down b), List.filter_filter]
      congr 1
      funext a
      rw [Bool.eq_iff_iff]
      simp [InRange]

theorem lbo_lt_iff {V : Type} {l : List (T × V)} (h : Sorted l) {bt : Option T} :
    lbo l bt < l.length ↔ ∃ a ∈ l, InRange bt none a.1 = true := by
  cases bt with
  | none => simp [lbo, InRange]
  | some b =>
    have h1 := lowerBound_eq_length h (t := b)
    have h2 := lowerBound_le l b
    simp only [lbo, InRange, Bool.and_true, decide_eq_true_eq]
    constructor
    · intro hlt
      by_contra hc
      push Not at hc
      have := h1.2 hc
      omega
    · rintro ⟨a, ha, hle⟩
      rcases Nat.lt_or_ge (lowerBound l b) l.length with hlt | hge
      · exact hlt
      · have := h1.1 (by omega) a ha
        exact absurd this hle.not_gt

theorem lbo_mono {V : Type} {l : List (T × V)} (h : Sorted l) {bt et : Option T} (hbe : leInf bt et) : lbo l bt ≤ lbo l et := by
  cases et with
  | none =>
    cases bt with
    | none => exact le_refl _
    | some b => exact lowerBound_le l b
  | some e =>
    cases bt with
    | none => exact absurd hbe id
    | some b =>
      have hbe' : b ≤ e := hbe
      simp only [lbo, lowerBound]
      rw [takeWhile_eq_filter h _ (lt_down b), takeWhile_eq_filter h _ (lt_down e)]
      rw [← List.countP_eq_length_filter, ← List.countP_eq_length_filter]
      apply List.countP_mono_left
      intro a _ ha
      simp at ha ⊢
      exact ha.trans_le hbe'

theorem lbo_le {V : Type} (l : List (T × V)) (bt : Option T) : lbo l bt ≤ l.length := by
  cases bt with
  | none => exact le_refl _
  | some b => exact lowerBound_le l b

theorem lbo_eq_iff {V : Type} {l : List (T × V)} (h : Sorted l) {bt et : Option T} (hbe : leInf bt et) :
    lbo l bt = lbo l et ↔ (l.filter fun a => InRange bt et a.1) = [] := by
  rw [← range_eq_filter h hbe]
  have h1 := lbo_mono h hbe
  have h2 := lbo_le l et
  rw [List.drop_eq_nil_iff, List.length_take]
  omega

theorem lbo_points (s : Seg T D H E) (t : Option T) : lbo s.timeline t = lbo s.points t := by
  cases t with
  | none => simp [lbo, Seg.points]
  | some t =>
    simp only [lbo, lowerBound, Seg.points]
    rw [List.takeWhile_map, List.length_map]
    rfl

/-! ## Exact points -/

theorem mem_fold_emplace {V : Type} (L : List (T × V)) : ∀ l : List (T × V),
    (∀ a, a ∈ mergeInto l L → a ∈ l ∨ a ∈ L) ∧ (∀ a, a ∈ l → a ∈ mergeInto l L) ∧ (∀ a ∈ L, ∃ b ∈ mergeInto l L, b.1 = a.1) := by
  induction L with
  | nil => intro l; simp [mergeInto]
  | cons c L ih =>
    intro l
    have e : mergeInto l (c :: L) = mergeInto (emplace l c.1 c.2) L := rfl
    rw [e]
    obtain ⟨i1, i2, i3⟩ := ih (emplace l c.1 c.2)
    refine ⟨?_, ?_, ?_⟩
    · intro a ha
      rcases i1 a ha with h | h
      · rcases mem_emplace.1 h with h | h
        · exact Or.inl h
        · exact Or.inr (by have := h.1; simp only [Prod.mk.eta] at this; simp [this])
      · exact Or.inr (by simp [h])
    · intro a ha
      exact i2 a (mem_emplace.2 (Or.inl ha))
    · intro a ha
      rcases List.mem_cons.1 ha with rfl | ha
      · by_cases hc : contains l a.1 = true
        · obtain ⟨b, hb, hba⟩ := contains_iff.1 hc
          exact ⟨b, i2 b (mem_emplace.2 (Or.inl hb)), hba⟩
        · have : a ∈ emplace l a.1 a.2 := mem_emplace.2 (Or.inr ⟨rfl, not_contains_iff.1 (by simpa using hc)⟩)
          exact ⟨a, i2 a this, rfl⟩
      · exact i3 a ha

theorem mergeInto_nil_self {V : Type} {L : List (T × V)} (h : Sorted L) : mergeInto [] L = L := by
  apply ext_mem (sorted_mergeInto sorted_nil L) h
  intro a
  rw [mem_mergeInto h]
  simp

theorem restoredDof_spec {L : List (T × D)} {p : T × D} (hp : ∀ q ∈ L, q.1 = p.1 → q = p) (d : D) :
    restoredDof (mergeInto [] L) p.1 d = if p ∈ L then p.2 else d := by
  have hs : Sorted (mergeInto [] L) := sorted_mergeInto sorted_nil L
  obtain ⟨i1, _, i3⟩ := mem_fold_emplace L []
  unfold restoredDof
  cases hf : find (mergeInto [] L) p.1 with
  | none =>
    rw [if_neg]
    intro hpL
    obtain ⟨b, hb, hbp⟩ := i3 p hpL
    have := (find_eq_some_iff hs).2 ⟨hb, hbp⟩
    rw [hf] at this
    simp at this
  | some q =>
    obtain ⟨hq1, hq2⟩ := (find_eq_some_iff hs).1 hf
    have hqL : q ∈ L := by
      rcases i1 q hq1 with h | h
      · simp at h
      · exact h
    have := hp q hqL hq2
    subst this
    rw [if_pos hqL]

/-- The compression preserves the number of points, is exact in the absence of downsampling, and otherwise returns degrees of freedom which
are close to those that were given, in the sense of an arbitrary relation. -/
structure CodecOk (codec : Codec T D E) (close : E → D → D → Prop) : Prop where
  length : ∀ tolerance l, (codec tolerance l).length = l.length
  lossless : ∀ l, codec none l = l.map Prod.snd
  close : ∀ ε (l : List (T × D)) (k : Nat) p d, l[k]? = some p → (codec (some ε) l)[k]? = some d → close ε p.2 d

/-- What is read back for a point: it is exact if it is the first or the last one of the segment in the message, if it was requested to be exact,
or if there is no downsampling. -/
def RestoredPoint (close : E → D → D → Prop) (exact : List (T × D)) (tolerance : Option E) (P : List (T × D)) (k : Nat) (p p' : T × D) : Prop :=
  p'.1 = p.1 ∧ (p ∈ exact ∨ k = 0 ∨ k + 1 = P.length ∨ tolerance = none → p' = p) ∧ (p' = p ∨ ∃ ε, tolerance = some ε ∧ close ε p.2 p'.2)

/-- The points of a segment that are in a range of times. -/
def Seg.range (s : Seg T D H E) (bt et : Option T) : List (T × D) := s.points.filter fun p => InRange bt et p.1

/-- What is read back for a segment whose points in a range of times were written. -/
structure RestoredSeg (close : E → D → D → Prop) (exact : List (T × D)) (bt et : Option T) (s s' : Seg T D H E) : Prop where
  inv : SegInv s'
  tolerance : s'.tolerance = s.tolerance
  length : s'.points.length = (s.range bt et).length
  points : ∀ (k : Nat) p p', (s.range bt et)[k]? = some p → s'.points[k]? = some p' →
    RestoredPoint close exact s.tolerance (s.range bt et) k p p'
  errors : (s'.timeline.map fun a => a.2.err).drop 1 = ((s.timeline.filter fun a => InRange bt et a.1).map fun a => a.2.err).drop 1

section

variable {close : E → D → D → Prop} {exact : List (T × D)} {bt et : Option T} {s s' : Seg T D H E}

theorem restored_times (h : RestoredSeg close exact bt et s s') : s'.points.map Prod.fst = (s.range bt et).map Prod.fst := by
  apply List.ext_getElem?
  intro k
  rw [List.getElem?_map, List.getElem?_map]
  rcases Nat.lt_or_ge k (s.range bt et).length with hk | hk
  · have h1 := List.getElem?_eq_getElem hk
    have h2 := List.getElem?_eq_getElem (show k < s'.points.length by rw [h.length]; exact hk)
    rw [h1, h2]
    simp [(h.points k _ _ h1 h2).1]
  · rw [List.getElem?_eq_none hk, List.getElem?_eq_none (by rw [h.length]; exact hk)]

theorem restored_head (h : RestoredSeg close exact bt et s s') : s'.points.head? = (s.range bt et).head? := by
  rw [List.head?_eq_getElem?, List.head?_eq_getElem?]
  rcases Nat.eq_zero_or_pos (s.range bt et).length with hk | hk
  · rw [List.getElem?_eq_none (by rw [h.length]; omega), List.getElem?_eq_none (by omega)]
  · have h1 := List.getElem?_eq_getElem hk
    have h2 := List.getElem?_eq_getElem (show 0 < s'.points.length by rw [h.length]; exact hk)
    rw [h1, h2, (h.points 0 _ _ h1 h2).2.1 (Or.inr (Or.inl rfl))]

theorem restored_last (h : RestoredSeg close exact bt et s s') : s'.points.getLast? = (s.range bt et).getLast? := by
  rw [List.getLast?_eq_getElem?, List.getLast?_eq_getElem?, h.length]
  rcases Nat.eq_zero_or_pos (s.range bt et).length with hk | hk
  · rw [List.getElem?_eq_none (by rw [h.length]; omega), List.getElem?_eq_none (by omega)]
  · have h1 := List.getElem?_eq_getElem (show (s.range bt et).length - 1 < (s.range bt et).length by omega)
    have h2 := List.getElem?_eq_getElem (show (s.range bt et).length - 1 < s'.points.length by rw [h.length]; omega)
    rw [h1, h2, (h.points _ _ _ h1 h2).2.1 (Or.inr (Or.inr (Or.inl (by omega))))]

end

theorem read_write_segment (h : Hermite T D H E) {codec : Codec T D E} {close : E → D → D → Prop} (hcodec : CodecOk codec close)
    {s : Seg T D H E} (hs : SegInv s) {bt et : Option T} (hbe : leInf bt et) {exact : List (T × D)}
    (hexact : ∀ q ∈ exact, ∀ p ∈ s.points, q.1 = p.1 → q = p) :
    ∃ s', readSegment h (writeSegment codec s (lbo s.timeline bt) (lbo s.timeline et) exact) = some s' ∧
      RestoredSeg close exact bt et s s' := by
  have hrange := range_eq_filter hs.sorted hbe
  generalize hF : (s.timeline.filter fun a => InRange bt et a.1) = F at hrange
  have hFs : Sorted F := by rw [← hF]; exact hs.sorted.filter _
  have hP : F.map point = s.range bt et := by
    unfold Seg.range Seg.points
    rw [List.filter_map, ← hF]
    rfl
  generalize hPP : s.range bt et = P at hP
  have hPsub : ∀ p ∈ P, p ∈ s.points := by
    intro p hp
    rw [← hPP] at hp
    exact (List.mem_filter.1 hp).1
  have hlen : (codec s.tolerance P).length = F.length := by rw [hcodec.length, ← hP, List.length_map]
  have hFl : F.length = P.length := by rw [← hP, List.length_map]
  have hm : writeSegment codec s (lbo s.timeline bt) (lbo s.timeline et) exact =
      ⟨s.tolerance, mergeInto [] (exact ++ P.head?.toList ++ P.getLast?.toList),
        List.zipWith (fun a d => (a.1, d, a.2.err)) F (codec s.tolerance P)⟩ := by
    unfold writeSegment
    simp only [hrange, hP]
    rfl
  rw [hm]
  have hzip : ∀ {β : Type} (f : T × D × E → β) (g : T × Val D H E → β), (∀ a d, f (a.1, d, a.2.err) = g a) →
      (List.zipWith (fun (a : T × Val D H E) (d : D) => (a.1, d, a.2.err)) F (codec s.tolerance P)).map f = F.map g := by
    intro β f g hfg
    apply List.ext_getElem?
    intro k
    simp only [List.getElem?_map, List.getElem?_zipWith]
    rcases Nat.lt_or_ge k F.length with hk | hk
    · rw [List.getElem?_eq_getElem hk, List.getElem?_eq_getElem (show k < (codec s.tolerance P).length by omega)]
      simp [hfg]
    · rw [List.getElem?_eq_none hk]; simp
  obtain ⟨s', h1, h2, h3, h4, h5, h6⟩ := readSegment_spec h (⟨s.tolerance, mergeInto [] (exact ++ P.head?.toList ++ P.getLast?.toList),
        List.zipWith (fun a d => (a.1, d, a.2.err)) F (codec s.tolerance P)⟩ : SegMessage T D E) (by
    have : List.Pairwise (· < ·) (F.map Prod.fst) := List.pairwise_map.2 hFs
    rw [← hzip Prod.fst Prod.fst (fun _ _ => rfl), List.pairwise_map] at this
    exact this)
  have hfold : (mergeInto [] (exact ++ P.head?.toList ++ P.getLast?.toList)).foldl (fun m p => emplace m p.1 p.2) [] =
      mergeInto [] (exact ++ P.head?.toList ++ P.getLast?.toList) := mergeInto_nil_self (sorted_mergeInto sorted_nil _)
  simp only at h3 h4 h5
  rw [hfold] at h4
  refine ⟨s', h1, h2, h3, ?_, ?_, ?_⟩
  · rw [h4, hPP]; simp [hlen, hFl]
  · intro k p p' hp hp'
    rw [hPP] at hp ⊢
    rw [h4, List.getElem?_map, List.getElem?_zipWith] at hp'
    have hk := (List.getElem?_eq_some_iff.1 hp).1
    obtain ⟨fk, hFk⟩ : ∃ x, F[k]? = some x := ⟨_, List.getElem?_eq_getElem (by omega)⟩
    obtain ⟨ck, hck⟩ : ∃ x, (codec s.tolerance P)[k]? = some x := ⟨_, List.getElem?_eq_getElem (by omega)⟩
    have hpF : point fk = p := by
      have : P[k]? = some (point fk) := by rw [← hP, List.getElem?_map, hFk]; rfl
      rw [hp] at this
      exact (Option.some.inj this).symm
    rw [hFk, hck] at hp'
    simp only [Option.map_some, Option.some.injEq] at hp'
    have hpt : p.1 = fk.1 := by rw [← hpF]; rfl
    rw [← hpt] at hp'
    have hpm := List.mem_of_getElem? hp
    rw [restoredDof_spec (p := p) (by
      intro q hq e
      simp only [List.mem_append, Option.mem_toList] at hq
      rcases hq with (hq | hq) | hq
      · exact hexact q hq p (hPsub p hpm) e
      · exact eq_of_key (sorted_seg_points hs) (hPsub q (List.mem_of_head? hq)) (hPsub p hpm) e
      · exact eq_of_key (sorted_seg_points hs) (hPsub q (List.mem_of_getLast? hq)) (hPsub p hpm) e)] at hp'
    have hnone : s.tolerance = none → ck = p.2 := by
      intro htol
      rw [htol, hcodec.lossless, List.getElem?_map, hp] at hck
      simpa using hck.symm
    subst hp'
    refine ⟨rfl, ?_, ?_⟩
    · intro hex
      split
      · rfl
      · rename_i hnot
        simp only [List.mem_append, Option.mem_toList, not_or] at hnot
        rcases hex with h | h | h | h
        · exact absurd h hnot.1.1
        · subst h
          exact absurd (by rw [List.head?_eq_getElem?, hp]) hnot.1.2
        · exact absurd (by rw [List.getLast?_eq_getElem?, show P.length - 1 = k by omega, hp]) hnot.2
        · rw [hnone h]
    · split
      · exact Or.inl rfl
      · cases htol : s.tolerance with
        | none =>
          left
          rw [hnone htol]
        | some ε =>
          right
          refine ⟨ε, rfl, ?_⟩
          rw [htol] at hck
          exact hcodec.close ε P k p _ hp hck
  · rw [h5, hzip (fun a => a.2.2) (fun a => a.2.err) (fun _ _ => rfl), hF]

/-! ## The loop over the segments -/

theorem lowerBoundIt_spec {segs : List (Seg T D H E)} (hs : ∀ s ∈ segs, SegInv s) (hc : Chain segs) {i : Nat} {s : Seg T D H E}
    (hi : segs[i]? = some s) :
    ∃ fin n, segEnd segs i = some fin ∧ At segs fin (n + s.timeline.length) ∧
      ∀ t, ∃ it, lowerBoundIt segs i t = some it ∧ At segs it (n + lbo s.timeline t) ∧ timelineIt segs i it fin = lbo s.timeline t := by
  obtain ⟨fin, n, h1, h2, h3, _⟩ := segment_range hs hc hi
  have hl : s.points.length = s.timeline.length := by simp [Seg.points]
  rw [hl] at h3
  have hfin : timelineIt segs i fin fin = s.timeline.length := by
    unfold timelineIt
    rw [if_pos ((eq_spec h3 h3).2 rfl), len_eq hi, hl]
  refine ⟨fin, n, h1, h3, fun t => ?_⟩
  cases t with
  | none => exact ⟨fin, h1, h3, hfin⟩
  | some t =>
    by_cases hlb : lowerBound s.timeline t = s.timeline.length
    · refine ⟨fin, ?_, ?_, ?_⟩
      · simp only [lowerBoundIt, segLowerBound, lowerBoundOrNullopt, hi]
        rw [if_pos hlb]
        exact h1
      · simp only [lbo]; rw [hlb]; exact h3
      · simp only [lbo]; rw [hlb]; exact hfin
    · have hlt : lowerBound s.timeline t < s.timeline.length := by
        have := lowerBound_le s.timeline t
        omega
      have hlen : len segs i = s.timeline.length := by rw [len_eq hi, hl]
      obtain ⟨p, hp⟩ := deref_isSome (show lowerBound s.timeline t < len segs i by rw [hlen]; exact hlt)
      obtain ⟨p0, hp0⟩ := deref_isSome (show 0 < len segs i by omega)
      rw [← hd_eq_deref] at hp0
      have hbeg := (segBegin_spec hs hc hp0).1
      rw [hbeg] at h2
      have hat := at_add hs hc h2 (lowerBound s.timeline t) (by rw [hlen]; omega)
      rw [Nat.zero_add] at hat
      refine ⟨{ seg := i, pt := some (lowerBound s.timeline t) }, ?_, hat, ?_⟩
      · simp only [lowerBoundIt, segLowerBound, lowerBoundOrNullopt, hi]
        rw [if_neg hlb]
        simp only [mk'_self hp]
      · unfold timelineIt
        rw [if_neg]
        · rfl
        · intro he
          have := (eq_spec hat h3).1 he
          omega

section

variable {codec : Codec T D E} {segs : List (Seg T D H E)} {bt et : Option T} {exact : List (T × D)}

/-- The message for a segment. -/
def msgOf (codec : Codec T D E) (bt et : Option T) (exact : List (T × D)) (s : Seg T D H E) : SegMessage T D E :=
  writeSegment codec s (lbo s.timeline bt) (lbo s.timeline et) exact

/-- One iteration of the loop. -/
theorem writeLoop_cons (hs : ∀ s ∈ segs, SegInv s) (hc : Chain segs) {i : Nat} {s : Seg T D H E} (hi : segs[i]? = some s)
    (rest : List (Seg T D H E)) (st : WriteState T D E) :
    writeLoop codec segs bt et exact i (s :: rest) st =
      if st.intersect = true ∧ lbo s.timeline bt = lbo s.timeline et then some (st, i)
      else if lbo s.timeline bt < s.timeline.length then
        writeLoop codec segs bt et exact (i + 1) rest
          { st with segments := st.segments ++ [msgOf codec bt et exact s], intersect := true, intersecting := st.intersecting ++ [i] }
      else writeLoop codec segs bt et exact (i + 1) rest { st.addEmpty s.tolerance with intersect := false } := by
  obtain ⟨fin, n, h1, h2, h3⟩ := lowerBoundIt_spec hs hc hi
  obtain ⟨bit, b1, b2, b3⟩ := h3 bt
  obtain ⟨eit, e1, e2, e3⟩ := h3 et
  have hle := lbo_le s.timeline bt
  have c1 : bit.eq segs eit = true ↔ lbo s.timeline bt = lbo s.timeline et := by rw [eq_spec b2 e2]; omega
  have c2 : bit.eq segs fin = true ↔ ¬ lbo s.timeline bt < s.timeline.length := by rw [eq_spec b2 h2]; omega
  rw [writeLoop.eq_2]
  simp only [b1, e1, h1, b3, e3]
  by_cases k1 : st.intersect = true ∧ lbo s.timeline bt = lbo s.timeline et
  · rw [if_pos k1, if_pos (by rw [Bool.and_eq_true]; exact ⟨k1.1, c1.2 k1.2⟩)]
  · rw [if_neg k1, if_neg (by rw [Bool.and_eq_true, c1]; exact k1)]
    by_cases k2 : lbo s.timeline bt < s.timeline.length
    · rw [if_pos k2, if_pos]
      · rfl
      · cases hb : bit.eq segs fin with
        | false => rfl
        | true => exact absurd k2 (c2.1 hb)
    · rw [if_neg k2, if_neg]
      rw [c2.2 k2]; simp

/-- The iterations that follow the first intersecting segment. -/
theorem writeLoop_inter (hs : ∀ s ∈ segs, SegInv s) (hc : Chain segs) : ∀ (rest : List (Seg T D H E)) (i : Nat) (st : WriteState T D E),
    segs.drop i = rest → i ≤ segs.length → st.intersect = true → (∀ s ∈ rest, lbo s.timeline bt < s.timeline.length) →
    ∃ m, i ≤ m ∧ m ≤ segs.length ∧ (∀ (j : Nat) s, i ≤ j → j < m → segs[j]? = some s → lbo s.timeline bt ≠ lbo s.timeline et) ∧
      (∀ s, segs[m]? = some s → lbo s.timeline bt = lbo s.timeline et) ∧
      writeLoop codec segs bt et exact i rest st =
        some ({ st with segments := st.segments ++ (rest.take (m - i)).map (msgOf codec bt et exact),
                        intersecting := st.intersecting ++ List.range' i (m - i) }, m) := by
  intro rest
  induction rest with
  | nil =>
    intro i st hd hi hint hlt
    have hi' : i = segs.length := by
      have := congrArg List.length hd
      simp at this; omega
    refine ⟨i, le_refl _, hi, by intro j s h1 h2; omega, ?_, ?_⟩
    · intro s hsm
      rw [List.getElem?_eq_none (by omega)] at hsm
      simp at hsm
    · simp [writeLoop]
  | cons s rest ih =>
    intro i st hd hi hint hlt
    have hg : segs[i]? = some s := by
      have : (segs.drop i)[0]? = some s := by rw [hd]; rfl
      rwa [List.getElem?_drop, Nat.add_zero] at this
    have hil := (List.getElem?_eq_some_iff.1 hg).1
    rw [writeLoop_cons hs hc hg]
    by_cases k1 : lbo s.timeline bt = lbo s.timeline et
    · refine ⟨i, le_refl _, hi, by intro j s h1 h2; omega, ?_, ?_⟩
      · intro s' hs'
        rw [hg] at hs'
        simp only [Option.some.injEq] at hs'
        subst hs'
        exact k1
      · rw [if_pos ⟨hint, k1⟩]; simp
    · rw [if_neg (fun h => k1 h.2), if_pos (hlt s (by simp))]
      obtain ⟨m, m1, m2, m3, m4, m5⟩ := ih (i + 1)
        ⟨st.leading, st.count, st.tolerance, st.segments ++ [msgOf codec bt et exact s], true, st.intersecting ++ [i]⟩ (by rw [← List.drop_drop, hd]; rfl) hil rfl
        (fun s' hs' => hlt s' (by simp [hs']))
      refine ⟨m, by omega, m2, ?_, m4, ?_⟩
      · intro j s' h1 h2 h3
        rcases Nat.eq_or_lt_of_le h1 with rfl | h1
        · rw [hg] at h3
          simp only [Option.some.injEq] at h3
          subst h3
          exact k1
        · exact m3 j s' h1 h2 h3
      · rw [m5]
        obtain ⟨k, hk⟩ : ∃ k, m - i = k + 1 := ⟨m - i - 1, by omega⟩
        have hk' : m - (i + 1) = k := by omega
        rw [hk, hk']
        obtain ⟨l1, l2, l3, l4, l5, l6⟩ := st
        simp only at hint
        subst hint
        simp [List.range'_succ]

/-- The tolerances of the empty segments that have been recorded so far. -/
def recorded (leading : List (Nat × Option E)) (count : Nat) (tolerance : Option E) : List (Option E) :=
  (leading.flatMap fun e => List.replicate e.1 e.2) ++ List.replicate count tolerance

theorem recorded_addEmpty (st : WriteState T D E) (tolerance : Option E) :
    recorded (st.addEmpty tolerance).leading (st.addEmpty tolerance).count (st.addEmpty tolerance).tolerance =
      recorded st.leading st.count st.tolerance ++ [tolerance] := by
  unfold WriteState.addEmpty recorded
  split
  · rename_i hne
    simp only
    split
    · simp
    · rename_i h0
      have : st.count = 0 := by omega
      simp [this]
  · rename_i he
    have he' : tolerance = st.tolerance := by simpa using he
    subst he'
    simp [List.replicate_succ']

/-- The iterations that precede the first intersecting segment. -/
theorem writeLoop_lead (hs : ∀ s ∈ segs, SegInv s) (hc : Chain segs) : ∀ (rest : List (Seg T D H E)) (i : Nat) (st : WriteState T D E),
    segs.drop i = rest → i ≤ segs.length → st.intersect = false → st.segments = [] → st.intersecting = [] →
    recorded st.leading st.count st.tolerance = (segs.take i).map Seg.tolerance →
    ∃ a st', i ≤ a ∧ a ≤ segs.length ∧ (∀ (j : Nat) s, i ≤ j → j < a → segs[j]? = some s → ¬ lbo s.timeline bt < s.timeline.length) ∧
      st'.segments = [] ∧ st'.intersecting = [] ∧
      recorded st'.leading st'.count st'.tolerance = (segs.take a).map Seg.tolerance ∧
      ((a = segs.length ∧ writeLoop codec segs bt et exact i rest st = some (st', a)) ∨
       ∃ s, segs[a]? = some s ∧ lbo s.timeline bt < s.timeline.length ∧
         writeLoop codec segs bt et exact i rest st = writeLoop codec segs bt et exact (a + 1) (segs.drop (a + 1))
           { st' with segments := [msgOf codec bt et exact s], intersect := true, intersecting := [a] }) := by
  intro rest
  induction rest with
  | nil =>
    intro i st hd hi hint h1 h2 h3
    have hi' : i = segs.length := by
      have := congrArg List.length hd
      simp at this; omega
    exact ⟨i, st, le_refl _, hi, by intro j s h1 h2; omega, h1, h2, h3, Or.inl ⟨hi', by simp [writeLoop]⟩⟩
  | cons s rest ih =>
    intro i st hd hi hint h1 h2 h3
    have hg : segs[i]? = some s := by
      have : (segs.drop i)[0]? = some s := by rw [hd]; rfl
      rwa [List.getElem?_drop, Nat.add_zero] at this
    have hil := (List.getElem?_eq_some_iff.1 hg).1
    have hd' : segs.drop (i + 1) = rest := by rw [← List.drop_drop, hd]; rfl
    rw [writeLoop_cons hs hc hg, if_neg (by simp [hint])]
    by_cases k : lbo s.timeline bt < s.timeline.length
    · refine ⟨i, st, le_refl _, hi, by intro j s h1 h2; omega, h1, h2, h3, Or.inr ⟨s, hg, k, ?_⟩⟩
      rw [if_pos k, h1, h2, hd']; rfl
    · rw [if_neg k]
      have hf1 : (st.addEmpty s.tolerance).segments = st.segments := by unfold WriteState.addEmpty; split <;> rfl
      have hf2 : (st.addEmpty s.tolerance).intersecting = st.intersecting := by unfold WriteState.addEmpty; split <;> rfl
      obtain ⟨a, st', a1, a2, a3, a4, a5, a6, a7⟩ := ih (i + 1) { st.addEmpty s.tolerance with intersect := false } hd' hil rfl
        (by simp only [hf1, h1]) (by simp only [hf2, h2])
        (by
          simp only
          rw [recorded_addEmpty, h3, List.take_succ, hg]
          simp)
      refine ⟨a, st', by omega, a2, ?_, a4, a5, a6, a7⟩
      intro j s' h1 h2 h3
      rcases Nat.eq_or_lt_of_le h1 with rfl | h1
      · rw [hg] at h3
        simp only [Option.some.injEq] at h3
        subst h3
        exact k
      · exact a3 j s' h1 h2 h3

end

/-! ## Reading -/

theorem readSegments_spec (h : Hermite T D H E) {R : SegMessage T D E → Seg T D H E → Prop} : ∀ l : List (SegMessage T D E),
    (∀ m ∈ l, ∃ s, readSegment h m = some s ∧ R m s) →
    ∃ segs, readSegments h l = some segs ∧ segs.length = l.length ∧ ∀ (k : Nat) m s, l[k]? = some m → segs[k]? = some s → R m s := by
  intro l
  induction l with
  | nil => intro _; exact ⟨[], rfl, rfl, by simp⟩
  | cons m l ih =>
    intro hl
    obtain ⟨s, hs1, hs2⟩ := hl m (by simp)
    obtain ⟨segs, h1, h2, h3⟩ := ih (fun m' hm' => hl m' (by simp [hm']))
    refine ⟨s :: segs, ?_, by simp [h2], ?_⟩
    · simp [readSegments, hs1, h1]
    · intro k m' s' hm' hs'
      cases k with
      | zero =>
        simp at hm' hs'
        subst hm' hs'
        exact hs2
      | succ k =>
        simp at hm' hs'
        exact h3 k m' s' hm' hs'

theorem readTracked_spec (n : Nat) : ∀ l : List (Option Nat), (∀ i, some i ∈ l → i < n) → readTracked n l = some (l.map fun o => o.getD n) := by
  intro l
  induction l with
  | nil => intro _; rfl
  | cons o l ih =>
    intro hl
    have := ih (fun i hi => hl i (by simp [hi]))
    cases o with
    | none => simp [readTracked, this]
    | some i => simp [readTracked, this, hl i (by simp)]

theorem addEndpoint_eq {l : List (T × Nat)} (h : Sorted l) {t : T} (hle : ∀ e ∈ l, e.1 ≤ t) (i : Nat) :
    addEndpoint l t i = insertOrAssign l t i := by
  have hsorted : ∀ l' : List (T × Nat), Sorted l' → (∀ e ∈ l', e.1 < t) → Sorted (l' ++ [(t, i)]) := by
    intro l' h1 h2
    unfold Sorted
    rw [List.pairwise_append]
    refine ⟨h1, by simp, ?_⟩
    intro a ha b hb
    simp at hb
    subst hb
    exact h2 a ha
  unfold addEndpoint
  cases hl : l.getLast? with
  | none =>
    simp at hl
    subst hl
    rfl
  | some e =>
    obtain ⟨ys, rfl⟩ := List.getLast?_eq_some_iff.1 hl
    have hys : ∀ a ∈ ys, a.1 < e.1 := by
      intro a ha
      exact (List.pairwise_append.1 h).2.2 a ha e (by simp)
    simp only [List.dropLast_concat]
    split
    · rename_i he
      apply ext_mem
      · exact hsorted ys (List.pairwise_append.1 h).1 (fun a ha => by rw [← he]; exact hys a ha)
      · exact sorted_insertOrAssign h t i
      · intro a
        rw [mem_insertOrAssign h]
        simp only [List.mem_append, List.mem_singleton]
        constructor
        · rintro (ha | rfl)
          · exact Or.inr ⟨Or.inl ha, by rw [← he]; exact (hys a ha).ne⟩
          · exact Or.inl rfl
        · rintro (rfl | ⟨ha | rfl, hne⟩)
          · exact Or.inr rfl
          · exact Or.inl ha
          · exact absurd he hne
    · rename_i hne
      have hlt : ∀ a ∈ ys ++ [e], a.1 < t := by
        intro a ha
        have hle' := hle e (by simp)
        have hlt : e.1 < t := lt_of_le_of_ne hle' hne
        rcases List.mem_append.1 ha with ha | ha
        · exact (hys a ha).trans hlt
        · simp at ha; subst ha; exact hlt
      apply ext_mem
      · exact hsorted _ h hlt
      · exact sorted_insertOrAssign h t i
      · intro a
        rw [mem_insertOrAssign h, List.mem_append, List.mem_singleton]
        constructor
        · rintro (ha | rfl)
          · exact Or.inr ⟨ha, (hlt a ha).ne⟩
          · exact Or.inl rfl
        · rintro (rfl | ⟨ha, _⟩)
          · exact Or.inr rfl
          · exact Or.inl ha

/-- The left endpoints that are written: they are sorted, and each one comes from the last entry of the map that yields its time. -/
theorem writeEndpoints_spec {b : T} {intersecting : List Nat} (map : List (T × Nat)) (h : Sorted map) :
    Sorted (writeEndpoints map (some b) intersecting) ∧
    (∀ u j, (u, j) ∈ writeEndpoints map (some b) intersecting → j ∈ intersecting ∧ ∃ t, (t, j) ∈ map ∧ u = max t b ∧
      ∀ t' j', (t', j') ∈ map → j' ∈ intersecting → t < t' → max t' b ≠ u) ∧
    (∀ t j, (t, j) ∈ map → j ∈ intersecting → (∀ t' j', (t', j') ∈ map → j' ∈ intersecting → t < t' → max t' b ≠ max t b) →
      (max t b, j) ∈ writeEndpoints map (some b) intersecting) := by
  induction map using List.reverseRecOn with
  | nil => simp [writeEndpoints, sorted_nil]
  | append_singleton map e ih =>
    obtain ⟨h1, _, h3⟩ := List.pairwise_append.1 h
    have hlt : ∀ a ∈ map, a.1 < e.1 := fun a ha => h3 a ha e (by simp)
    obtain ⟨i1, i2, i3⟩ := ih h1
    have hstep : writeEndpoints (map ++ [e]) (some b) intersecting =
        if e.2 ∈ intersecting then addEndpoint (writeEndpoints map (some b) intersecting) (max e.1 b) e.2
        else writeEndpoints map (some b) intersecting := by
      simp [writeEndpoints, List.foldl_append]
    rw [hstep]
    by_cases he : e.2 ∈ intersecting
    · rw [if_pos he, addEndpoint_eq i1 (by
        rintro ⟨u, j⟩ hu
        obtain ⟨_, t, ht, rfl, _⟩ := i2 u j hu
        exact max_le_max_right b (hlt _ ht).le)]
      refine ⟨sorted_insertOrAssign i1 _ _, ?_, ?_⟩
      · intro u j hu
        rcases (mem_insertOrAssign i1).1 hu with hu | ⟨hu, hne⟩
        · simp only [Prod.mk.injEq] at hu
          obtain ⟨rfl, rfl⟩ := hu
          refine ⟨he, e.1, by simp, rfl, ?_⟩
          intro t' j' hm hj' hlt'
          rcases List.mem_append.1 hm with hm | hm
          · exact absurd (hlt _ hm) hlt'.not_gt
          · simp at hm
            rw [← hm] at hlt'
            exact absurd hlt' (lt_irrefl _)
        · obtain ⟨hj, t, ht, rfl, hall⟩ := i2 u j hu
          refine ⟨hj, t, by simp [ht], rfl, ?_⟩
          intro t' j' hm hj' hlt'
          rcases List.mem_append.1 hm with hm | hm
          · exact hall t' j' hm hj' hlt'
          · simp at hm
            rw [← hm] at hne
            exact fun h => hne h.symm
      · intro t j hm hj hall
        rw [mem_insertOrAssign i1]
        rcases List.mem_append.1 hm with hm | hm
        · right
          refine ⟨i3 t j hm hj (fun t' j' hm' => hall t' j' (by simp [hm'])), ?_⟩
          exact (hall e.1 e.2 (by simp) he (hlt _ hm)).symm
        · left
          simp at hm
          rw [← hm]
    · rw [if_neg he]
      refine ⟨i1, ?_, ?_⟩
      · intro u j hu
        obtain ⟨hj, t, ht, rfl, hall⟩ := i2 u j hu
        refine ⟨hj, t, by simp [ht], rfl, ?_⟩
        intro t' j' hm hj' hlt'
        rcases List.mem_append.1 hm with hm | hm
        · exact hall t' j' hm hj' hlt'
        · simp at hm
          rw [← hm] at he
          exact absurd hj' he
      · intro t j hm hj hall
        rcases List.mem_append.1 hm with hm | hm
        · exact i3 t j hm hj (fun t' j' hm' => hall t' j' (by simp [hm']))
        · simp at hm
          rw [← hm] at he
          exact absurd hj he

theorem readEndpoints_spec (n : Nat) : ∀ (l : List (T × Nat)) (i : Nat) (map : List (T × Nat)), Sorted (map ++ l) →
    (∀ e ∈ l, i ≤ e.2 ∧ e.2 < n) → (l.Pairwise fun a b => a.2 ≤ b.2) → readEndpoints n l i map = some (map ++ l) := by
  intro l
  induction l with
  | nil => intro i map _ _ _; simp [readEndpoints]
  | cons e l ih =>
    intro i map hs hl hp
    rw [List.pairwise_cons] at hp
    have hms : Sorted map := (List.pairwise_append.1 hs).1
    have hlt : ∀ a ∈ map, a.1 < e.1 := fun a ha => (List.pairwise_append.1 hs).2.2 a ha e (by simp)
    have hins : insertOrAssign map e.1 e.2 = map ++ [e] := by
      apply ext_mem (sorted_insertOrAssign hms _ _)
      · unfold Sorted
        rw [List.pairwise_append]
        exact ⟨hms, by simp, fun a ha b hb => by simp at hb; subst hb; exact hlt a ha⟩
      · intro a
        rw [mem_insertOrAssign hms, List.mem_append, List.mem_singleton]
        constructor
        · rintro (rfl | ⟨ha, _⟩)
          · exact Or.inr rfl
          · exact Or.inl ha
        · rintro (ha | rfl)
          · exact Or.inr ⟨ha, (hlt a ha).ne⟩
          · exact Or.inl rfl
    unfold readEndpoints
    rw [if_pos (hl e (by simp)), hins, ih e.2 (map ++ [e]) (by rw [List.append_assoc]; exact hs)
      (fun a ha => ⟨hp.1 a ha, (hl a (by simp [ha])).2⟩) hp.2]
    simp

end Principia.DiscreteTrajectory
