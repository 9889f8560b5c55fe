import Verif.Physics.DiscreteTrajectoryIteratorModel
import Verif.Physics.DiscreteTrajectorySplice

/-!
# Iterators and lookups
-/

set_option linter.unusedSimpArgs false
set_option linter.unusedVariables false
set_option linter.unusedSectionVars false

namespace Principia.SortedMap

variable {K V : Type} [LinearOrder K]

theorem sorted_idx {l : List (K × V)} (h : Sorted l) {n m : Nat} {a b : K × V} (ha : l[n]? = some a) (hb : l[m]? = some b) :
    (n < m ↔ a.1 < b.1) ∧ (n = m ↔ a.1 = b.1) ∧ (n ≤ m ↔ a.1 ≤ b.1) := by
  obtain ⟨hn, rfl⟩ := List.getElem?_eq_some_iff.1 ha
  obtain ⟨hm, rfl⟩ := List.getElem?_eq_some_iff.1 hb
  have hlt : ∀ {i j : Nat} (hi : i < l.length) (hj : j < l.length), i < j → l[i].1 < l[j].1 := fun hi hj hij =>
    List.pairwise_iff_getElem.1 h _ _ hi hj hij
  rcases Nat.lt_trichotomy n m with h1 | h1 | h1
  · have := hlt hn hm h1
    exact ⟨⟨fun _ => this, fun _ => h1⟩, ⟨fun e => by omega, fun e => absurd e this.ne⟩, ⟨fun _ => this.le, fun _ => h1.le⟩⟩
  · subst h1
    simp
  · have := hlt hm hn h1
    refine ⟨⟨fun _ => by omega, fun e => absurd this (not_lt.2 e.le)⟩, ⟨fun e => by omega, fun e => absurd e this.ne'⟩, ⟨fun _ => by omega, fun e => absurd this (not_lt.2 e)⟩⟩

theorem idx_next {l : List (K × V)} (h : Sorted l) {n : Nat} {a b : K × V} (ha : l[n]? = some a) (hb : b ∈ l) (hab : a.1 < b.1)
    (hc : ∀ c ∈ l, c.1 ≤ a.1 ∨ b.1 ≤ c.1) : l[n + 1]? = some b := by
  obtain ⟨m, hm⟩ := List.mem_iff_getElem?.1 hb
  have h1 := (sorted_idx h ha hm).1.2 hab
  have hml := (List.getElem?_eq_some_iff.1 hm).1
  have hg : l[n + 1]? = some l[n + 1] := List.getElem?_eq_getElem (by omega)
  have h2 := (sorted_idx h ha hg).1.1 (by omega)
  rcases hc l[n + 1] (List.getElem_mem _) with h3 | h3
  · exact absurd h2 (not_lt.2 h3)
  · have h4 := (sorted_idx h hm hg).2.2.2 h3
    have e : m = n + 1 := by omega
    rw [← e]; exact hm

theorem idx_last {l : List (K × V)} (h : Sorted l) {n : Nat} {a : K × V} (ha : l[n]? = some a) (hc : ∀ c ∈ l, c.1 ≤ a.1) : n + 1 = l.length := by
  have hn := (List.getElem?_eq_some_iff.1 ha).1
  by_contra hcn
  have hlt : n + 1 < l.length := by omega
  have hg : l[n + 1]? = some l[n + 1] := List.getElem?_eq_getElem hlt
  exact absurd ((sorted_idx h ha hg).1.1 (by omega)) (not_lt.2 (hc _ (List.getElem_mem _)))

theorem idx_first {l : List (K × V)} (h : Sorted l) {n : Nat} {a : K × V} (ha : l[n]? = some a) (hc : ∀ c ∈ l, a.1 ≤ c.1) : n = 0 := by
  have hn := (List.getElem?_eq_some_iff.1 ha).1
  have hg : l[0]? = some l[0] := List.getElem?_eq_getElem (by omega)
  have := (sorted_idx h ha hg).2.2.2 (hc _ (List.getElem_mem _))
  omega

theorem idx_lowerBound {l : List (K × V)} (h : Sorted l) {a : K × V} (ha : a ∈ l) {t : K} (hta : t ≤ a.1) (hc : ∀ c ∈ l, c.1 < t ∨ a.1 ≤ c.1) :
    l[lowerBound l t]? = some a := by
  rw [getElem?_lowerBound h]
  have hm : a ∈ l.filter fun c => t ≤ c.1 := List.mem_filter.2 ⟨ha, by simpa using hta⟩
  cases hf : l.filter fun c => t ≤ c.1 with
  | nil => rw [hf] at hm; simp at hm
  | cons b l' =>
    have hb : b ∈ l.filter fun c => t ≤ c.1 := by rw [hf]; exact List.mem_cons_self
    obtain ⟨hb1, hb2⟩ := List.mem_filter.1 hb
    have hs : Sorted (b :: l') := by rw [← hf]; exact h.filter _
    rw [hf] at hm
    rcases List.mem_cons.1 hm with e | h1
    · rw [e]; rfl
    · have h2 := (List.pairwise_cons.1 hs).1 a h1
      rcases hc b hb1 with h3 | h3
      · exact absurd h3 (not_lt.2 (by simpa using hb2))
      · exact absurd h2 (not_lt.2 h3)

theorem idx_upperBound {l : List (K × V)} (h : Sorted l) {a : K × V} (ha : a ∈ l) {t : K} (hta : t < a.1) (hc : ∀ c ∈ l, c.1 ≤ t ∨ a.1 ≤ c.1) :
    l[upperBound l t]? = some a := by
  rw [getElem?_upperBound h]
  have hm : a ∈ l.filter fun c => t < c.1 := List.mem_filter.2 ⟨ha, by simpa using hta⟩
  cases hf : l.filter fun c => t < c.1 with
  | nil => rw [hf] at hm; simp at hm
  | cons b l' =>
    have hb : b ∈ l.filter fun c => t < c.1 := by rw [hf]; exact List.mem_cons_self
    obtain ⟨hb1, hb2⟩ := List.mem_filter.1 hb
    have hs : Sorted (b :: l') := by rw [← hf]; exact h.filter _
    rw [hf] at hm
    rcases List.mem_cons.1 hm with e | h1
    · rw [e]; rfl
    · have h2 := (List.pairwise_cons.1 hs).1 a h1
      rcases hc b hb1 with h3 | h3
      · exact absurd (lt_of_le_of_lt h3 (by simpa using hb2)) (lt_irrefl _)
      · exact absurd h2 (not_lt.2 h3)

theorem lowerBound_eq_length {l : List (K × V)} (h : Sorted l) {t : K} : lowerBound l t = l.length ↔ ∀ c ∈ l, c.1 < t := by
  constructor
  · intro e c hc
    have : c ∈ l.take (lowerBound l t) := by rw [e, List.take_length]; exact hc
    exact ((mem_take_lowerBound h).1 this).2
  · intro hc
    have h1 := congrArg List.length (drop_lowerBound h t)
    have h2 : (l.filter fun a => t ≤ a.1) = [] := by
      rw [List.filter_eq_nil_iff]
      intro a ha
      simpa using hc a ha
    rw [h2, List.length_drop, List.length_nil] at h1
    have := lowerBound_le l t
    omega

theorem upperBound_eq_length {l : List (K × V)} (h : Sorted l) {t : K} : upperBound l t = l.length ↔ ∀ c ∈ l, c.1 ≤ t := by
  constructor
  · intro e c hc
    have : c ∈ l.take (upperBound l t) := by rw [e, List.take_length]; exact hc
    exact ((mem_take_upperBound h).1 this).2
  · intro hc
    have h1 := congrArg List.length (drop_upperBound h t)
    have h2 : (l.filter fun a => t < a.1) = [] := by
      rw [List.filter_eq_nil_iff]
      intro a ha
      simpa using hc a ha
    rw [h2, List.length_drop, List.length_nil] at h1
    have := upperBound_le l t
    omega

theorem lowerBound_eq_zero {l : List (K × V)} (h : Sorted l) {t : K} (hc : ∀ c ∈ l, t ≤ c.1) : lowerBound l t = 0 := by
  have h1 := congrArg List.length (take_lowerBound h t)
  have h2 : (l.filter fun a => a.1 < t) = [] := by
    rw [List.filter_eq_nil_iff]
    intro a ha
    simpa using hc a ha
  rw [h2, List.length_take, List.length_nil] at h1
  have := lowerBound_le l t
  omega

end Principia.SortedMap

namespace Principia.DiscreteTrajectory

open Principia.SortedMap

variable {T D H E : Type} [LinearOrder T] [DecidableEq D] [AddCommGroup E] [LinearOrder E]

/-! ## The points of a trajectory -/

theorem points_concat (segs : List (Seg T D H E)) (s : Seg T D H E) : points (segs ++ [s]) = mergeInto (points segs) s.points := by
  simp [points, List.foldl_append]

theorem sorted_points {segs : List (Seg T D H E)} : Sorted (points segs) := by
  induction segs using List.reverseRecOn with
  | nil => exact sorted_nil
  | append_singleton segs s ih =>
    rw [points_concat]
    exact sorted_mergeInto ih _

theorem sorted_seg_points {s : Seg T D H E} (h : SegInv s) : Sorted s.points := sorted_iff_points.1 h.sorted

theorem pt_append {a b : List (Seg T D H E)} {i : Nat} {p : T × D} :
    pt (a ++ b) i p ↔ if i < a.length then pt a i p else pt b (i - a.length) p := by
  unfold pt
  rw [List.getElem?_append]
  split <;> rfl

theorem mem_points {segs : List (Seg T D H E)} (hs : ∀ s ∈ segs, SegInv s) (hc : Chain segs) {p : T × D} :
    p ∈ points segs ↔ ∃ i, pt segs i p := by
  induction segs using List.reverseRecOn generalizing p with
  | nil => simp [points, pt]
  | append_singleton segs s ih =>
    have hs1 : ∀ x ∈ segs, SegInv x := fun x hx => hs x (by simp [hx])
    have hc1 : Chain segs := by
      have := chain_take hc segs.length
      simpa using this
    have hsi := hs s (by simp)
    rw [points_concat, mem_mergeInto (sorted_seg_points hsi), ih hs1 hc1]
    have hlast : ∀ q, q ∈ s.points → pt (segs ++ [s]) segs.length q := by
      intro q hq
      rw [pt_append, if_neg (lt_irrefl _), Nat.sub_self]
      exact ⟨s, rfl, hq⟩
    have hfirst : ∀ j q, pt segs j q → pt (segs ++ [s]) j q := by
      intro j q hq
      rw [pt_append, if_pos (pt_lt_length hq)]; exact hq
    constructor
    · rintro (⟨i, hi⟩ | ⟨h1, _⟩)
      · exact ⟨i, hfirst i p hi⟩
      · exact ⟨segs.length, hlast p h1⟩
    · rintro ⟨i, hi⟩
      by_cases hil : i < segs.length
      · rw [pt_append, if_pos hil] at hi
        exact Or.inl ⟨i, hi⟩
      · have hi' := hi
        rw [pt_append, if_neg hil] at hi
        obtain ⟨x, hx, hp⟩ := hi
        have e : x = s := by
          have h0 : i - segs.length = 0 := by
            by_contra hn
            rw [List.getElem?_eq_none (by simp; omega)] at hx
            simp at hx
          rw [h0] at hx
          simpa using hx.symm
        subst e
        by_cases hex : ∃ q ∈ points segs, q.1 = p.1
        · obtain ⟨q, hq, e⟩ := hex
          obtain ⟨j, hj⟩ := (ih hs1 hc1).1 hq
          have := pt_unique hs hc (hfirst j q hj) hi' e
          exact Or.inl ⟨j, by rw [← this]; exact hj⟩
        · refine Or.inr ⟨hp, ?_⟩
          intro b hb e
          exact hex ⟨b, hb, e⟩

theorem mem_points_iff_isPoint {tr : Trajectory T D H E} (h : Inv tr) {t : T} {d : D} : (t, d) ∈ points tr.segs ↔ IsPoint tr t d := by
  rw [mem_points h.segs h.chain, isPoint_iff]

/-! ## Dereferencing -/

theorem deref_some {segs : List (Seg T D H E)} {s k : Nat} {p : T × D} :
    deref segs { seg := s, pt := some k } = some p ↔ ∃ seg, segs[s]? = some seg ∧ seg.points[k]? = some p := by
  unfold deref Seg.points
  cases hs : segs[s]? with
  | none => simp [hs]
  | some seg =>
    simp only [hs, Option.bind_eq_bind, Option.bind_some, Option.some.injEq, exists_eq_left', List.getElem?_map]
    cases seg.timeline[k]? <;> simp

theorem len_eq {segs : List (Seg T D H E)} {s : Nat} {seg : Seg T D H E} (h : segs[s]? = some seg) : len segs s = seg.points.length := by
  simp [len, h, Seg.points]

theorem pt_of_deref {segs : List (Seg T D H E)} {s k : Nat} {p : T × D} (h : deref segs { seg := s, pt := some k } = some p) : pt segs s p := by
  obtain ⟨seg, h1, h2⟩ := deref_some.1 h
  exact ⟨seg, h1, List.mem_of_getElem? h2⟩

/-- The iterator denotes the `n`-th point of the trajectory, or its end. -/
def At (segs : List (Seg T D H E)) (it : Iter) (n : Nat) : Prop :=
  match it.pt with
  | none => it.seg = segs.length ∧ n = (points segs).length
  | some _ => ∃ p, deref segs it = some p ∧ (points segs)[n]? = some p

theorem at_some {segs : List (Seg T D H E)} {s k n : Nat} :
    At segs { seg := s, pt := some k } n ↔ ∃ p, deref segs { seg := s, pt := some k } = some p ∧ (points segs)[n]? = some p := Iff.rfl

theorem at_le {segs : List (Seg T D H E)} {it : Iter} {n : Nat} (h : At segs it n) : n ≤ (points segs).length := by
  obtain ⟨s, _ | k⟩ := it
  · exact h.2.le
  · obtain ⟨p, _, hp⟩ := h
    exact (List.getElem?_eq_some_iff.1 hp).1.le

theorem at_end_iff {segs : List (Seg T D H E)} {it : Iter} {n : Nat} (h : At segs it n) : it.pt = none ↔ n = (points segs).length := by
  obtain ⟨s, _ | k⟩ := it
  · simp [h.2]
  · obtain ⟨p, _, hp⟩ := h
    have := (List.getElem?_eq_some_iff.1 hp).1
    simp
    omega

/-- The next point in the same segment. -/
theorem at_succ {segs : List (Seg T D H E)} (hs : ∀ s ∈ segs, SegInv s) (hc : Chain segs) {s k n : Nat} {p q : T × D}
    (hp : deref segs { seg := s, pt := some k } = some p) (hn : (points segs)[n]? = some p)
    (hq : deref segs { seg := s, pt := some (k + 1) } = some q) : p.1 < q.1 ∧ (points segs)[n + 1]? = some q := by
  obtain ⟨seg, h1, h2⟩ := deref_some.1 hp
  obtain ⟨seg', h1', h3⟩ := deref_some.1 hq
  rw [h1] at h1'
  simp only [Option.some.injEq] at h1'
  subst h1'
  have hsort := sorted_seg_points (hs seg (List.mem_of_getElem? h1))
  have hlt : p.1 < q.1 := (sorted_idx hsort h2 h3).1.1 (by omega)
  refine ⟨hlt, idx_next sorted_points hn ((mem_points hs hc).2 ⟨s, pt_of_deref hq⟩) hlt ?_⟩
  intro c hcm
  obtain ⟨j, hj⟩ := (mem_points hs hc).1 hcm
  rcases Nat.lt_trichotomy j s with h | h | h
  · exact Or.inl (pt_mono hs hc h hj (pt_of_deref hp))
  · subst h
    obtain ⟨x, hx, hcx⟩ := hj
    rw [h1] at hx
    simp only [Option.some.injEq] at hx
    subst hx
    obtain ⟨m, hm⟩ := List.mem_iff_getElem?.1 hcx
    by_cases hmk : m ≤ k
    · exact Or.inl ((sorted_idx hsort hm h2).2.2.1 hmk)
    · exact Or.inr ((sorted_idx hsort h3 hm).2.2.1 (by omega))
  · exact Or.inr (pt_mono hs hc h (pt_of_deref hq) hj)

theorem deref_isSome {segs : List (Seg T D H E)} {s k : Nat} (h : k < len segs s) : ∃ p, deref segs { seg := s, pt := some k } = some p := by
  unfold len at h
  cases hs : segs[s]? with
  | none => simp [hs] at h
  | some seg =>
    simp only [hs] at h
    exact ⟨_, deref_some.2 ⟨seg, hs, List.getElem?_eq_getElem (by simpa [Seg.points] using h)⟩⟩

theorem deref_lt {segs : List (Seg T D H E)} {s k : Nat} {p : T × D} (h : deref segs { seg := s, pt := some k } = some p) :
    k < len segs s ∧ s < segs.length := by
  obtain ⟨seg, h1, h2⟩ := deref_some.1 h
  rw [len_eq h1]
  exact ⟨(List.getElem?_eq_some_iff.1 h2).1, (List.getElem?_eq_some_iff.1 h1).1⟩

/-- Several points further in the same segment. -/
theorem at_add {segs : List (Seg T D H E)} (hs : ∀ s ∈ segs, SegInv s) (hc : Chain segs) {s k n : Nat}
    (h : At segs { seg := s, pt := some k } n) : ∀ j, k + j < len segs s → At segs { seg := s, pt := some (k + j) } (n + j) := by
  intro j
  induction j with
  | zero => intro _; exact h
  | succ j ih =>
    intro hj
    obtain ⟨p, h1, h2⟩ := ih (by omega)
    obtain ⟨q, hq⟩ := deref_isSome (show k + j + 1 < len segs s by omega)
    exact ⟨q, hq, (at_succ hs hc h1 h2 hq).2⟩

theorem hd_eq_deref {segs : List (Seg T D H E)} {s : Nat} : hd segs s = deref segs { seg := s, pt := some 0 } := by
  unfold hd deref
  cases segs[s]? with
  | none => rfl
  | some seg =>
    simp only [Option.bind_eq_bind, Option.bind_some, List.head?_eq_getElem?]
    cases seg.timeline[0]? <;> rfl

theorem lst_eq_deref {segs : List (Seg T D H E)} {s : Nat} : lst segs s = deref segs { seg := s, pt := some (len segs s - 1) } := by
  unfold lst deref len
  cases segs[s]? with
  | none => rfl
  | some seg =>
    simp only [Option.bind_eq_bind, Option.bind_some, List.getLast?_eq_getElem?]
    cases seg.timeline[seg.timeline.length - 1]? <;> rfl

/-! ## `skipEmpty` -/

theorem skipEmpty_spec (segs : List (Seg T D H E)) (s : Nat) (h : s ≤ segs.length) :
    s ≤ skipEmpty segs s ∧ skipEmpty segs s ≤ segs.length ∧ (∀ j, s ≤ j → j < skipEmpty segs s → hd segs j = none) ∧
      (skipEmpty segs s < segs.length → ∃ p, hd segs (skipEmpty segs s) = some p) := by
  have hle := (List.takeWhile_sublist (fun s : Seg T D H E => s.isEmpty) (l := segs.drop s)).length_le
  rw [List.length_drop] at hle
  refine ⟨by unfold skipEmpty; omega, by unfold skipEmpty; omega, ?_, ?_⟩
  · intro j h1 h2
    unfold skipEmpty at h2
    have hj : j - s < ((segs.drop s).takeWhile fun s => s.isEmpty).length := by omega
    have hmem := List.getElem_mem hj
    have hemp := List.all_eq_true.1 (List.all_takeWhile (p := fun s : Seg T D H E => s.isEmpty) (l := segs.drop s)) _ hmem
    have hpre := List.takeWhile_prefix (fun s : Seg T D H E => s.isEmpty) (l := segs.drop s)
    have hg : (segs.drop s)[j - s]? = some ((segs.drop s).takeWhile fun s => s.isEmpty)[j - s] := by
      rw [← List.getElem?_eq_getElem hj]
      exact (List.prefix_iff_getElem?.1 hpre (j - s) hj).trans (List.getElem?_eq_getElem hj).symm
    rw [List.getElem?_drop, show s + (j - s) = j by omega] at hg
    rw [hd_eq_none_iff hg]
    exact isEmpty_iff.1 hemp
  · intro hlt
    unfold skipEmpty at hlt ⊢
    have hg : segs[s + ((segs.drop s).takeWhile fun s => s.isEmpty).length]? = some segs[s + ((segs.drop s).takeWhile fun s => s.isEmpty).length] :=
      List.getElem?_eq_getElem hlt
    cases hh : hd segs (s + ((segs.drop s).takeWhile fun s => s.isEmpty).length) with
    | some p => exact ⟨p, rfl⟩
    | none =>
      exfalso
      have he := isEmpty_iff.2 ((hd_eq_none_iff hg).1 hh)
      have h1 := List.takeWhile_append_dropWhile (p := fun s : Seg T D H E => s.isEmpty) (l := segs.drop s)
      have h2 : (segs.drop s)[((segs.drop s).takeWhile fun s => s.isEmpty).length]? =
          ((segs.drop s).dropWhile fun s => s.isEmpty)[0]? := by
        conv_lhs => rw [← h1]
        rw [List.getElem?_append_right (by simp)]
        simp
      rw [List.getElem?_drop, hg] at h2
      cases hd' : (segs.drop s).dropWhile fun s => s.isEmpty with
      | nil => rw [hd'] at h2; simp at h2
      | cons x l =>
        have := List.head_dropWhile_not (fun s : Seg T D H E => s.isEmpty) (l := segs.drop s) (by rw [hd']; simp)
        simp only [hd', List.head_cons] at this
        rw [hd'] at h2
        simp only [List.getElem?_cons_zero, Option.some.injEq] at h2
        rw [h2, this] at he
        simp at he

theorem skipEmpty_self {segs : List (Seg T D H E)} {s : Nat} {p : T × D} (h : hd segs s = some p) : skipEmpty segs s = s := by
  obtain ⟨h1, h2, h3, h4⟩ := skipEmpty_spec segs s (hd_lt_length h).le
  by_contra hne
  have := h3 s (le_refl _) (by omega)
  rw [h] at this
  simp at this

theorem mk'_self {segs : List (Seg T D H E)} {s k : Nat} {p : T × D} (h : deref segs { seg := s, pt := some k } = some p) :
    Iter.mk' segs s (some k) = { seg := s, pt := some k } := by
  obtain ⟨h1, h2⟩ := deref_lt h
  obtain ⟨q, hq⟩ := deref_isSome (show 0 < len segs s by omega)
  rw [← hd_eq_deref] at hq
  unfold Iter.mk'
  simp only [skipEmpty_self hq]
  rw [if_neg (by omega), if_neg (by simp)]

/-! ## Increment -/

theorem incrLoop_spec {segs : List (Seg T D H E)} (hs : ∀ s ∈ segs, SegInv s) (hc : Chain segs) :
    ∀ fuel s k p n, deref segs { seg := s, pt := some k } = some p → (points segs)[n]? = some p → segs.length ≤ s + fuel →
      ∃ it', incrLoop segs p.1 fuel s k = some it' ∧ At segs it' (n + 1) := by
  intro fuel
  induction fuel with
  | zero =>
    intro s k p n hp hn hf
    have := (deref_lt hp).2
    omega
  | succ fuel ih =>
    intro s k p n hp hn hf
    obtain ⟨hk, hsl⟩ := deref_lt hp
    unfold incrLoop
    by_cases hlast : k + 1 = len segs s
    · simp only [if_pos hlast]
      have hlst : lst segs s = some p := by rw [lst_eq_deref, ← hlast]; exact hp
      obtain ⟨h1, h2, h3, h4⟩ := skipEmpty_spec segs (s + 1) hsl
      by_cases hend : segs.length ≤ skipEmpty segs (s + 1)
      · rw [if_pos hend]
        refine ⟨_, rfl, ?_, ?_⟩
        · simp only; omega
        · apply idx_last sorted_points hn
          intro c hcm
          obtain ⟨j, hj⟩ := (mem_points hs hc).1 hcm
          have hjl := pt_lt_length hj
          obtain ⟨a, b, ha, hb, _, hcb, _⟩ := pt_bounds hs hj
          rcases Nat.lt_trichotomy j s with h | h | h
          · exact pt_mono hs hc h hj (pt_of_deref hp)
          · subst h
            rw [hlst] at hb
            simp only [Option.some.injEq] at hb
            rw [hb]; exact hcb
          · have := h3 j h (by omega)
            rw [ha] at this
            simp at this
      · rw [if_neg hend]
        obtain ⟨q, hq⟩ := h4 (not_le.1 hend)
        have hq' := hq
        rw [hd_eq_deref] at hq'
        simp only [hq']
        have hnext := hc s (by omega) p hlst
        have e : skipEmpty segs (s + 1) = s + 1 := skipEmpty_self hnext
        rw [e, hnext] at hq
        simp only [Option.some.injEq] at hq
        subst hq
        simp only [if_true]
        exact ih _ _ p n hq' hn (by omega)
    · simp only [if_neg hlast]
      rw [if_neg (by omega)]
      obtain ⟨q, hq⟩ := deref_isSome (show k + 1 < len segs s by omega)
      simp only [hq]
      obtain ⟨h1, h2⟩ := at_succ hs hc hp hn hq
      rw [if_neg h1.ne']
      exact ⟨_, rfl, q, hq, h2⟩

theorem incr_spec {segs : List (Seg T D H E)} (hs : ∀ s ∈ segs, SegInv s) (hc : Chain segs) {it : Iter} {n : Nat} (h : At segs it n)
    (hn : n < (points segs).length) : ∃ it', it.incr segs = some it' ∧ At segs it' (n + 1) := by
  obtain ⟨s, _ | k⟩ := it
  · have := h.2; omega
  · obtain ⟨p, h1, h2⟩ := h
    obtain ⟨it', h3, h4⟩ := incrLoop_spec hs hc segs.length s k p n h1 h2 (by omega)
    exact ⟨it', by simp only [Iter.incr, h1, Option.bind_eq_bind, Option.bind_some]; exact h3, h4⟩

theorem incr_none {segs : List (Seg T D H E)} {it : Iter} (h : At segs it (points segs).length) : it.incr segs = none := by
  have := (at_end_iff h).2 rfl
  unfold Iter.incr
  rw [this]

/-! ## Decrement -/

theorem decrLoop_spec {segs : List (Seg T D H E)} (hs : ∀ s ∈ segs, SegInv s) (hc : Chain segs) :
    ∀ fuel s k p n, deref segs { seg := s, pt := some k } = some p → (points segs)[n]? = some p → s < fuel →
      (n = 0 → decrLoop segs (some p.1) fuel s k = none) ∧
      (0 < n → ∃ it', decrLoop segs (some p.1) fuel s k = some it' ∧ At segs it' (n - 1)) := by
  intro fuel
  induction fuel with
  | zero => intro s k p n hp hn hf; omega
  | succ fuel ih =>
    intro s k p n hp hn hf
    obtain ⟨hk, hsl⟩ := deref_lt hp
    unfold decrLoop
    by_cases hk0 : k = 0
    · subst hk0
      simp only [if_true]
      have hhd : hd segs s = some p := by rw [hd_eq_deref]; exact hp
      -- If there is an earlier point, it is in an earlier segment.
      have hearlier : 0 < n → ∃ j, j < s ∧ ∃ q, hd segs j = some q := by
        intro hn0
        have hl := (List.getElem?_eq_some_iff.1 hn).1
        have hg : (points segs)[n - 1]? = some (points segs)[n - 1] := List.getElem?_eq_getElem (by omega)
        have hlt := (sorted_idx sorted_points hg hn).1.1 (by omega)
        obtain ⟨j, hj⟩ := (mem_points hs hc).1 (List.mem_of_getElem? hg)
        obtain ⟨a, _, ha, _⟩ := pt_bounds hs hj
        refine ⟨j, ?_, a, ha⟩
        by_contra hcn
        exact absurd hlt (not_lt.2 (hd_zero_min hs hc (not_lt.1 hcn) hhd hj))
      by_cases hs0 : s = 0
      · simp only [if_pos hs0]
        refine ⟨by simp, ?_⟩
        intro hn0
        obtain ⟨j, hj, _⟩ := hearlier hn0
        omega
      · simp only [if_neg hs0]
        by_cases hl0 : len segs (s - 1) = 0
        · simp only [if_pos hl0]
          refine ⟨by simp, ?_⟩
          intro hn0
          obtain ⟨j, hj, q, hq⟩ := hearlier hn0
          obtain ⟨r, hr, _⟩ := mono_hd hs hc (show j ≤ s - 1 by omega) (by omega) hq
          rw [hd_eq_deref] at hr
          have := (deref_lt hr).1
          omega
        · simp only [if_neg hl0]
          obtain ⟨q, hq⟩ := deref_isSome (show len segs (s - 1) - 1 < len segs (s - 1) by omega)
          simp only [hq]
          have hlst : lst segs (s - 1) = some q := by rw [lst_eq_deref]; exact hq
          have hnext := hc (s - 1) (by omega) q hlst
          rw [show s - 1 + 1 = s by omega, hhd] at hnext
          simp only [Option.some.injEq] at hnext
          subst hnext
          simp only [if_true]
          exact ih _ _ p n hq hn (by omega)
    · simp only [if_neg hk0]
      obtain ⟨q, hq⟩ := deref_isSome (show k - 1 < len segs s by omega)
      simp only [hq]
      obtain ⟨m, hm⟩ := List.mem_iff_getElem?.1 ((mem_points hs hc).2 ⟨s, pt_of_deref hq⟩)
      have hp' : deref segs { seg := s, pt := some (k - 1 + 1) } = some p := by
        rw [show k - 1 + 1 = k by omega]; exact hp
      obtain ⟨h1, h2⟩ := at_succ hs hc hq hm hp'
      have e : m + 1 = n := (sorted_idx sorted_points h2 hn).2.1.2 rfl
      rw [if_neg (by simpa using h1.ne)]
      refine ⟨fun h0 => by omega, fun _ => ⟨_, rfl, q, hq, ?_⟩⟩
      rw [← e]; exact hm

theorem points_nil_of {segs : List (Seg T D H E)} (hs : ∀ s ∈ segs, SegInv s) (hc : Chain segs) (h : ∀ i, hd segs i = none) : points segs = [] := by
  by_contra hne
  obtain ⟨p, hp⟩ := List.exists_mem_of_ne_nil _ hne
  obtain ⟨i, hi⟩ := (mem_points hs hc).1 hp
  obtain ⟨a, _, ha, _⟩ := pt_bounds hs hi
  rw [h i] at ha
  simp at ha

/-- The last segment contains the last point. -/
theorem last_seg {segs : List (Seg T D H E)} (hs : ∀ s ∈ segs, SegInv s) (hc : Chain segs) (hne : points segs ≠ []) :
    0 < segs.length ∧ 0 < len segs (segs.length - 1) ∧
      ∀ p, deref segs { seg := segs.length - 1, pt := some (len segs (segs.length - 1) - 1) } = some p →
        (points segs)[(points segs).length - 1]? = some p := by
  obtain ⟨p, hp⟩ := List.exists_mem_of_ne_nil _ hne
  obtain ⟨i, hi⟩ := (mem_points hs hc).1 hp
  have hil := pt_lt_length hi
  obtain ⟨a, _, ha, _⟩ := pt_bounds hs hi
  obtain ⟨r, hr, _⟩ := mono_hd hs hc (show i ≤ segs.length - 1 by omega) (by omega) ha
  rw [hd_eq_deref] at hr
  refine ⟨by omega, (deref_lt hr).1, ?_⟩
  intro q hq
  have hlst : lst segs (segs.length - 1) = some q := by rw [lst_eq_deref]; exact hq
  obtain ⟨m, hm⟩ := List.mem_iff_getElem?.1 ((mem_points hs hc).2 ⟨_, pt_of_deref hq⟩)
  have := idx_last sorted_points hm (by
    intro c hcm
    obtain ⟨j, hj⟩ := (mem_points hs hc).1 hcm
    have hjl := pt_lt_length hj
    rcases Nat.eq_or_lt_of_le (show j ≤ segs.length - 1 by omega) with e | hlt
    · subst e
      obtain ⟨x, b, _, hb, _, hcb, _⟩ := pt_bounds hs hj
      rw [hlst] at hb
      simp only [Option.some.injEq] at hb
      rw [hb]; exact hcb
    · exact pt_mono hs hc hlt hj (pt_of_deref hq))
  rw [← this, Nat.add_sub_cancel]
  exact hm

theorem decr_spec {segs : List (Seg T D H E)} (hs : ∀ s ∈ segs, SegInv s) (hc : Chain segs) {it : Iter} {n : Nat} (h : At segs it n)
    (hn : 0 < n) : ∃ it', it.decr segs = some it' ∧ At segs it' (n - 1) := by
  obtain ⟨s, _ | k⟩ := it
  · obtain ⟨_, h2⟩ := h
    have hne : points segs ≠ [] := by intro e; rw [e] at h2; simp at h2; omega
    obtain ⟨h3, h4, h5⟩ := last_seg hs hc hne
    obtain ⟨p, hp⟩ := deref_isSome (show len segs (segs.length - 1) - 1 < len segs (segs.length - 1) by omega)
    refine ⟨{ seg := segs.length - 1, pt := some (len segs (segs.length - 1) - 1) }, ?_, p, hp, by rw [h2]; exact h5 p hp⟩
    unfold Iter.decr
    simp only
    rw [if_neg (by omega)]
    unfold decrLoop
    simp only [if_neg (show ¬ len segs (segs.length - 1) = 0 by omega), hp]
    simp
  · obtain ⟨p, h1, h2⟩ := h
    obtain ⟨it', h3, h4⟩ := (decrLoop_spec hs hc (segs.length + 1) s k p n h1 h2 (by have := (deref_lt h1).2; omega)).2 hn
    exact ⟨it', by simp only [Iter.decr, h1, Option.bind_eq_bind, Option.bind_some]; exact h3, h4⟩

theorem decr_none {segs : List (Seg T D H E)} (hs : ∀ s ∈ segs, SegInv s) (hc : Chain segs) {it : Iter} (h : At segs it 0) : it.decr segs = none := by
  obtain ⟨s, _ | k⟩ := it
  · obtain ⟨_, h2⟩ := h
    have hnil : points segs = [] := List.eq_nil_of_length_eq_zero h2.symm
    have hno : ∀ i k, deref segs { seg := i, pt := some k } = none := by
      intro i k
      cases hh : deref segs { seg := i, pt := some k } with
      | none => rfl
      | some p =>
        have := (mem_points hs hc).2 ⟨i, pt_of_deref hh⟩
        rw [hnil] at this
        simp at this
    have hlen : ∀ i, len segs i = 0 := by
      intro i
      by_contra hne
      obtain ⟨p, hp⟩ := deref_isSome (show 0 < len segs i by omega)
      rw [hno] at hp
      simp at hp
    unfold Iter.decr
    simp only
    split
    · rfl
    · unfold decrLoop
      simp only [hlen, if_true]
      split
      · rfl
      · rename_i h; split at h <;> simp at h
  · obtain ⟨p, h1, h2⟩ := h
    have := (decrLoop_spec hs hc (segs.length + 1) s k p 0 h1 h2 (by have := (deref_lt h1).2; omega)).1 rfl
    simp only [Iter.decr, h1, Option.bind_eq_bind, Option.bind_some]; exact this

/-! ## Random access -/

theorem advance_spec {segs : List (Seg T D H E)} (hs : ∀ s ∈ segs, SegInv s) (hc : Chain segs) :
    ∀ fuel m it n, At segs it n → m ≤ fuel →
      (n + m ≤ (points segs).length → ∃ it', advance segs fuel it m = some it' ∧ At segs it' (n + m)) ∧
      ((points segs).length < n + m → advance segs fuel it m = none) := by
  intro fuel
  induction fuel with
  | zero =>
    intro m it n h hm
    have e : m = 0 := by omega
    subst e
    have := at_le h
    exact ⟨fun _ => ⟨it, rfl, h⟩, fun h1 => by omega⟩
  | succ fuel ih =>
    intro m it n h hm
    have hle := at_le h
    cases m with
    | zero => exact ⟨fun _ => ⟨it, rfl, h⟩, fun h1 => by omega⟩
    | succ m =>
      unfold advance
      cases hpt : it.pt with
      | none =>
        have := (at_end_iff h).1 hpt
        exact ⟨fun _ => by omega, fun _ => rfl⟩
      | some k =>
        obtain ⟨s, pt⟩ := it
        simp only at hpt
        subst hpt
        simp only
        split
        · rename_i hcond
          obtain ⟨h1, h2, h3⟩ := hcond
          subst h3
          have h4 := at_add hs hc h (len segs s - 2) (by omega)
          rw [show 1 + (len segs s - 2) = len segs s - 1 by omega] at h4
          have := ih (m + 1 - (len segs s - 2)) _ _ h4 (by omega)
          rw [show n + (len segs s - 2) + (m + 1 - (len segs s - 2)) = n + (m + 1) by omega] at this
          exact this
        · have hne : n ≠ (points segs).length := fun e => by
            have := (at_end_iff h).2 e
            simp at this
          obtain ⟨it', h1, h2⟩ := incr_spec hs hc h (by omega)
          simp only [h1, Option.bind_eq_bind, Option.bind_some]
          have := ih m it' (n + 1) h2 (by omega)
          rw [show n + 1 + m = n + (m + 1) by omega] at this
          exact this

theorem at_sub {segs : List (Seg T D H E)} (hs : ∀ s ∈ segs, SegInv s) (hc : Chain segs) {s k n : Nat}
    (h : At segs { seg := s, pt := some k } n) : k ≤ n ∧ At segs { seg := s, pt := some 0 } (n - k) := by
  obtain ⟨p, h1, h2⟩ := h
  obtain ⟨hk, hsl⟩ := deref_lt h1
  obtain ⟨q, hq⟩ := deref_isSome (show 0 < len segs s by omega)
  obtain ⟨m, hm⟩ := List.mem_iff_getElem?.1 ((mem_points hs hc).2 ⟨s, pt_of_deref hq⟩)
  have h0 : At segs { seg := s, pt := some 0 } m := ⟨q, hq, hm⟩
  have h3 := at_add hs hc h0 k (by omega)
  rw [Nat.zero_add] at h3
  obtain ⟨p', h4, h5⟩ := h3
  rw [h1] at h4
  simp only [Option.some.injEq] at h4
  subst h4
  have e : m + k = n := (sorted_idx sorted_points h5 h2).2.1.2 rfl
  refine ⟨by omega, ?_⟩
  rw [show n - k = m by omega]
  exact h0

theorem retreat_spec {segs : List (Seg T D H E)} (hs : ∀ s ∈ segs, SegInv s) (hc : Chain segs) :
    ∀ fuel m it n, At segs it n → it.pt ≠ none → m ≤ fuel →
      (m ≤ n → ∃ it', retreat segs fuel it m = some it' ∧ At segs it' (n - m)) ∧
      (n < m → retreat segs fuel it m = none) := by
  intro fuel
  induction fuel with
  | zero =>
    intro m it n h hpt hm
    have e : m = 0 := by omega
    subst e
    exact ⟨fun _ => ⟨it, rfl, h⟩, fun h1 => by omega⟩
  | succ fuel ih =>
    intro m it n h hpt hm
    cases m with
    | zero => exact ⟨fun _ => ⟨it, rfl, h⟩, fun h1 => by omega⟩
    | succ m =>
      unfold retreat
      obtain ⟨s, _ | k⟩ := it
      · simp at hpt
      · simp only
        split
        · rename_i hcond
          obtain ⟨h1, h2, h3⟩ := hcond
          subst h3
          obtain ⟨h4, h5⟩ := at_sub hs hc h
          have := ih (m + 1 - (len segs s - 2)) _ _ h5 (by simp) (by omega)
          refine ⟨fun h6 => ?_, fun h6 => this.2 (by omega)⟩
          have h7 := this.1 (by omega)
          rw [show n - (len segs s - 2) - (m + 1 - (len segs s - 2)) = n - (m + 1) by omega] at h7
          exact h7
        · by_cases hn : n = 0
          · subst hn
            rw [decr_none hs hc h]
            exact ⟨fun h6 => by omega, fun _ => rfl⟩
          · obtain ⟨it', h1, h2⟩ := decr_spec hs hc h (by omega)
            simp only [h1, Option.bind_eq_bind, Option.bind_some]
            have hle := at_le h
            have hpt' : it'.pt ≠ none := by
              intro e
              have := (at_end_iff h2).1 e
              omega
            have := ih m it' (n - 1) h2 hpt' (by omega)
            refine ⟨fun h6 => ?_, fun h6 => this.2 (by omega)⟩
            have h7 := this.1 (by omega)
            rw [show n - 1 - m = n - (m + 1) by omega] at h7
            exact h7

theorem retreatFrom_spec {segs : List (Seg T D H E)} (hs : ∀ s ∈ segs, SegInv s) (hc : Chain segs) {it : Iter} {n : Nat} (h : At segs it n) (m : Nat) :
    (m ≤ n → ∃ it', retreatFrom segs it m = some it' ∧ At segs it' (n - m)) ∧ (n < m → retreatFrom segs it m = none) := by
  unfold retreatFrom
  by_cases hcond : 0 < m ∧ it.pt = none
  · rw [if_pos hcond]
    by_cases hn : n = 0
    · subst hn
      rw [decr_none hs hc h]
      exact ⟨fun h6 => by omega, fun _ => rfl⟩
    · obtain ⟨it', h1, h2⟩ := decr_spec hs hc h (by omega)
      simp only [h1, Option.bind_eq_bind, Option.bind_some]
      have hle := at_le h
      have hpt' : it'.pt ≠ none := by
        intro e
        have := (at_end_iff h2).1 e
        omega
      have := retreat_spec hs hc (m - 1) (m - 1) it' (n - 1) h2 hpt' (le_refl _)
      refine ⟨fun h6 => ?_, fun h6 => this.2 (by omega)⟩
      have h7 := this.1 (by omega)
      rw [show n - 1 - (m - 1) = n - m by omega] at h7
      exact h7
  · rw [if_neg hcond]
    by_cases hm : m = 0
    · subst hm
      refine ⟨fun _ => ⟨it, by unfold retreat; rfl, h⟩, fun h6 => by omega⟩
    · exact retreat_spec hs hc m m it n h (fun e => hcond ⟨by omega, e⟩) (le_refl _)

theorem plus_spec {segs : List (Seg T D H E)} (hs : ∀ s ∈ segs, SegInv s) (hc : Chain segs) {it : Iter} {n : Nat} (h : At segs it n) (m : Int) :
    (0 ≤ n + m → n + m ≤ (points segs).length → ∃ it', it.plus segs m = some it' ∧ At segs it' (n + m).toNat) ∧
    (n + m < 0 ∨ (points segs).length < n + m → it.plus segs m = none) := by
  unfold Iter.plus
  have hle := at_le h
  split
  · have := retreatFrom_spec hs hc h (-m).toNat
    refine ⟨fun h1 h2 => ?_, fun h1 => this.2 (by omega)⟩
    have h3 := this.1 (by omega)
    rw [show n - (-m).toNat = (n + m).toNat by omega] at h3
    exact h3
  · have := advance_spec hs hc m.toNat m.toNat it n h (le_refl _)
    refine ⟨fun h1 h2 => ?_, fun h1 => this.2 (by omega)⟩
    have h3 := this.1 (by omega)
    rw [show n + m.toNat = (n + m).toNat by omega] at h3
    exact h3

theorem minus_spec {segs : List (Seg T D H E)} (hs : ∀ s ∈ segs, SegInv s) (hc : Chain segs) {it : Iter} {n : Nat} (h : At segs it n) (m : Int) :
    (0 ≤ n - m → n - m ≤ (points segs).length → ∃ it', it.minus segs m = some it' ∧ At segs it' (n - m).toNat) ∧
    (n - m < 0 ∨ (points segs).length < n - m → it.minus segs m = none) := by
  unfold Iter.minus
  have hle := at_le h
  split
  · have := advance_spec hs hc (-m).toNat (-m).toNat it n h (le_refl _)
    refine ⟨fun h1 h2 => ?_, fun h1 => this.2 (by omega)⟩
    have h3 := this.1 (by omega)
    rw [show n + (-m).toNat = (n - m).toNat by omega] at h3
    exact h3
  · have := retreatFrom_spec hs hc h m.toNat
    refine ⟨fun h1 h2 => ?_, fun h1 => this.2 (by omega)⟩
    have h3 := this.1 (by omega)
    rw [show n - m.toNat = (n - m).toNat by omega] at h3
    exact h3

/-! ## Comparisons -/

theorem eq_spec {segs : List (Seg T D H E)} {it other : Iter} {n m : Nat} (h : At segs it n) (h' : At segs other m) :
    it.eq segs other = true ↔ n = m := by
  have e1 := at_end_iff h
  have e2 := at_end_iff h'
  obtain ⟨s, _ | k⟩ := it <;> obtain ⟨s', _ | k'⟩ := other
  · have a1 := h.1
    have a2 := h'.1
    simp only at a1 a2
    simp [Iter.eq, a1, a2, h.2, h'.2]
  · simp only [Iter.eq, Bool.false_eq_true, false_iff]
    simp at e1 e2
    omega
  · simp only [Iter.eq, Bool.false_eq_true, false_iff]
    simp at e1 e2
    omega
  · obtain ⟨p, h1, h2⟩ := h
    obtain ⟨q, h3, h4⟩ := h'
    simp only [Iter.eq, h1, h3, Option.map_some, Option.some.injEq, decide_eq_true_eq]
    exact (sorted_idx sorted_points h2 h4).2.1.symm

theorem lt_spec {segs : List (Seg T D H E)} {it other : Iter} {n m : Nat} (h : At segs it n) (h' : At segs other m) :
    it.lt segs other = true ↔ n < m := by
  have e1 := at_end_iff h
  have e2 := at_end_iff h'
  have l1 := at_le h
  have l2 := at_le h'
  obtain ⟨s, _ | k⟩ := it <;> obtain ⟨s', _ | k'⟩ := other
  · simp [Iter.lt]
    simp at e1 e2
    omega
  · simp [Iter.lt]
    simp at e1 e2
    omega
  · simp [Iter.lt]
    simp at e1 e2
    omega
  · obtain ⟨p, h1, h2⟩ := h
    obtain ⟨q, h3, h4⟩ := h'
    simp only [Iter.lt, h1, h3, decide_eq_true_eq]
    exact (sorted_idx sorted_points h2 h4).1.symm

theorem gt_spec {segs : List (Seg T D H E)} {it other : Iter} {n m : Nat} (h : At segs it n) (h' : At segs other m) :
    it.gt segs other = true ↔ m < n := by
  have e1 := at_end_iff h
  have e2 := at_end_iff h'
  have l1 := at_le h
  have l2 := at_le h'
  obtain ⟨s, _ | k⟩ := it <;> obtain ⟨s', _ | k'⟩ := other
  · simp [Iter.gt]
    simp at e1 e2
    omega
  · simp [Iter.gt]
    simp at e1 e2
    omega
  · simp [Iter.gt]
    simp at e1 e2
    omega
  · obtain ⟨p, h1, h2⟩ := h
    obtain ⟨q, h3, h4⟩ := h'
    simp only [Iter.gt, h1, h3, decide_eq_true_eq]
    exact (sorted_idx sorted_points h4 h2).1.symm

/-! ## Difference -/

theorem distanceLoop_spec {segs : List (Seg T D H E)} (hs : ∀ s ∈ segs, SegInv s) (hc : Chain segs) {left : Iter} {l : Nat} (hl : At segs left l) :
    ∀ fuel it n m, At segs it n → (points segs).length < n + fuel →
      (n ≤ l → distanceLoop segs left fuel it m = some (m + (l - n))) ∧ (l < n → distanceLoop segs left fuel it m = none) := by
  intro fuel
  induction fuel with
  | zero =>
    intro it n m h hf
    have := at_le h
    omega
  | succ fuel ih =>
    intro it n m h hf
    have hle := at_le h
    have hll := at_le hl
    unfold distanceLoop
    by_cases heq : it.eq segs left = true
    · have e := (eq_spec h hl).1 heq
      rw [if_pos heq]
      refine ⟨fun _ => by simp; omega, fun h1 => by omega⟩
    · have hne : n ≠ l := fun e => heq ((eq_spec h hl).2 e)
      rw [if_neg heq]
      obtain ⟨s, _ | k⟩ := it
      · have := h.2
        exact ⟨fun _ => by omega, fun _ => rfl⟩
      · simp only
        split
        · rename_i hcond
          obtain ⟨h1, h2, h3⟩ := hcond
          subst h3
          have h4 := at_add hs hc h (len segs s - 2) (by omega)
          rw [show 1 + (len segs s - 2) = len segs s - 1 by omega] at h4
          -- The last point of the segment is not after `left`.
          have hle' : n + (len segs s - 2) ≤ l := by
            obtain ⟨p, hp1, hp2⟩ := h4
            unfold lastNotAfter at h2
            simp only [hp1] at h2
            obtain ⟨s', _ | k'⟩ := left
            · have := hl.2
              have := (List.getElem?_eq_some_iff.1 hp2).1
              omega
            · obtain ⟨q, hq1, hq2⟩ := hl
              simp only [hq1, decide_eq_true_eq] at h2
              exact (sorted_idx sorted_points hp2 hq2).2.2.2 h2
          have := ih _ _ (m + (len segs s - 2)) h4 (by omega)
          refine ⟨fun h5 => ?_, fun h5 => by omega⟩
          rw [this.1 hle']
          congr 1; omega
        · have hlt : n < (points segs).length := by
            by_contra hcn
            have e : n = (points segs).length := by omega
            have := (at_end_iff h).2 e
            simp at this
          obtain ⟨it', h1, h2⟩ := incr_spec hs hc h hlt
          simp only [h1]
          have := ih it' (n + 1) (m + 1) h2 (by omega)
          refine ⟨fun h5 => ?_, fun h5 => this.2 (by omega)⟩
          rw [this.1 (by omega)]
          congr 1; omega

theorem length_mergeInto_le {K V : Type} [LinearOrder K] (l l' : List (K × V)) : (mergeInto l l').length ≤ l.length + l'.length := by
  unfold mergeInto
  induction l' generalizing l with
  | nil => simp
  | cons a l' ih =>
    simp only [List.foldl_cons, List.length_cons]
    have h1 := ih (emplace l a.1 a.2)
    have h2 : (emplace l a.1 a.2).length ≤ l.length + 1 := by
      unfold emplace
      split
      · omega
      · have := congrArg List.length (List.takeWhile_append_dropWhile (p := fun b : K × V => decide (b.1 < a.1)) (l := l))
        simp only [List.length_append, List.length_cons] at this ⊢
        omega
    omega

theorem length_points_le (segs : List (Seg T D H E)) : (points segs).length ≤ (segs.map fun s => s.timeline.length).sum := by
  induction segs using List.reverseRecOn with
  | nil => simp [points]
  | append_singleton segs s ih =>
    rw [points_concat]
    have := length_mergeInto_le (points segs) s.points
    have e : s.points.length = s.timeline.length := by simp [Seg.points]
    simp only [List.map_append, List.sum_append, List.map_cons, List.map_nil, List.sum_cons, List.sum_nil]
    omega

theorem distance_spec {segs : List (Seg T D H E)} (hs : ∀ s ∈ segs, SegInv s) (hc : Chain segs) {left right : Iter} {l r : Nat}
    (hl : At segs left l) (hr : At segs right r) :
    (r ≤ l → left.distance segs right = some (l - r)) ∧ (l < r → left.distance segs right = none) := by
  unfold Iter.distance
  have := distanceLoop_spec hs hc hl ((segs.map fun s => s.timeline.length).sum + 1) right r 0 hr (by
    have := length_points_le segs
    omega)
  simpa using this

/-! ## `begin`, `end`, `size` -/

theorem endIt_spec (tr : Trajectory T D H E) : At tr.segs tr.endIt (points tr.segs).length := by
  have : skipEmpty tr.segs tr.segs.length = tr.segs.length := by simp [skipEmpty]
  unfold Trajectory.endIt Iter.mk' At
  simp [this]

theorem segBegin_spec {segs : List (Seg T D H E)} (hs : ∀ s ∈ segs, SegInv s) (hc : Chain segs) {s : Nat} {p : T × D} (h : hd segs s = some p) :
    segBegin segs s = { seg := s, pt := some 0 } ∧ ∃ n, At segs (segBegin segs s) n ∧ (points segs)[n]? = some p := by
  have h' := h
  rw [hd_eq_deref] at h'
  have e : segBegin segs s = { seg := s, pt := some 0 } := mk'_self h'
  refine ⟨e, ?_⟩
  obtain ⟨n, hn⟩ := List.mem_iff_getElem?.1 ((mem_points hs hc).2 ⟨s, pt_hd h⟩)
  exact ⟨n, by rw [e]; exact ⟨p, h', hn⟩, hn⟩

theorem beginIt_spec {tr : Trajectory T D H E} (h : Inv tr) : At tr.segs tr.beginIt 0 := by
  unfold Trajectory.beginIt
  cases hm : tr.map with
  | nil =>
    have := points_nil_of h.segs h.chain (fun i => by
      have := (map_eq_nil_iff h.canon).1 hm i
      unfold tm at this
      simpa using this)
    have h1 := endIt_spec tr
    rw [this] at h1
    exact h1
  | cons e m =>
    simp only
    have hlast := (h.canon.mem e.1 e.2).1 (by rw [hm]; exact List.mem_cons_self)
    obtain ⟨d, hhd⟩ := hd_of_tm hlast.1
    obtain ⟨h1, n, h2, h3⟩ := segBegin_spec h.segs h.chain hhd
    have hf : tr.front = some (e.1, d) := by
      unfold Trajectory.front
      have hl := tm_lt_length hlast.1
      have hg : tr.segs[e.2]? = some tr.segs[e.2] := List.getElem?_eq_getElem hl
      rw [hd_of_getElem? hg] at hhd
      rw [hm]
      simp only [List.head?_cons, Option.bind_eq_bind, Option.bind_some, hg]
      cases hx : (tr.segs[e.2]).timeline.head? with
      | none => simp [hx] at hhd
      | some a => simpa [hx] using hhd
    have hmin := (front_spec h hf).2
    have e0 : n = 0 := idx_first sorted_points h3 (by
      intro c hcm
      obtain ⟨j, hj⟩ := (mem_points h.segs h.chain).1 hcm
      exact hmin j c hj)
    rw [e0] at h2
    exact h2

theorem length_points {segs : List (Seg T D H E)} (hs : ∀ s ∈ segs, SegInv s) (hc : Chain segs) :
    ((points segs).length : Int) = (if points segs = [] then 0 else 1) +
      ((segs.filter fun s => !s.isEmpty).map fun s => (s.timeline.length : Int)).sum - (segs.filter fun s => !s.isEmpty).length := by
  induction segs using List.reverseRecOn with
  | nil => simp [points]
  | append_singleton segs s ih =>
    have hs1 : ∀ x ∈ segs, SegInv x := fun x hx => hs x (by simp [hx])
    have hc1 : Chain segs := by
      have := chain_take hc segs.length
      simpa using this
    have hsi := hs s (by simp)
    have ih := ih hs1 hc1
    rw [List.filter_append]
    cases hse : s.isEmpty with
    | true =>
      have e : s.points = [] := by unfold Seg.points; rw [isEmpty_iff.1 hse]; rfl
      have e2 : points (segs ++ [s]) = points segs := by rw [points_concat, e]; rfl
      rw [e2, ih]
      simp [hse]
    | false =>
      have hne := isEmpty_false_iff.1 hse
      have hlen : s.points.length = s.timeline.length := by simp [Seg.points]
      have hpos : 0 < s.timeline.length := List.length_pos_iff.2 hne
      by_cases hp : points segs = []
      · have e2 : points (segs ++ [s]) = s.points := by
          rw [points_concat, hp]
          apply ext_mem (sorted_mergeInto sorted_nil _) (sorted_seg_points hsi)
          intro a
          rw [mem_mergeInto (sorted_seg_points hsi)]
          simp
        have hne2 : s.points ≠ [] := by
          intro e
          rw [e] at hlen
          simp at hlen
          omega
        rw [hp] at ih
        simp only [List.length_nil, if_true] at ih
        rw [e2, if_neg hne2]
        simp [hse, hlen]
        omega
      · obtain ⟨h3, h4, h5⟩ := last_seg hs1 hc1 hp
        obtain ⟨p, hp1⟩ := deref_isSome (show len segs (segs.length - 1) - 1 < len segs (segs.length - 1) by omega)
        have hlst : lst segs (segs.length - 1) = some p := by rw [lst_eq_deref]; exact hp1
        have hlp := h5 p hp1
        have hhd : hd (segs ++ [s]) segs.length = some p := by
          have := hc (segs.length - 1) (by simp; omega) p (by rw [lst_append, if_pos (by omega)]; exact hlst)
          rw [show segs.length - 1 + 1 = segs.length by omega] at this
          exact this
        have hsp : ∃ tl, s.points = p :: tl := by
          rw [hd_append, if_neg (lt_irrefl _), Nat.sub_self] at hhd
          simp only [hd, List.getElem?_cons_zero, Option.bind_some] at hhd
          unfold Seg.points
          cases hst : s.timeline with
          | nil => exact absurd hst hne
          | cons a l =>
            rw [hst] at hhd
            simp only [List.head?_cons, Option.map_some, Option.some.injEq] at hhd
            exact ⟨l.map point, by rw [← hhd]; rfl⟩
        obtain ⟨tl, htl⟩ := hsp
        have hsort := sorted_seg_points hsi
        rw [htl] at hsort
        have hcons := List.pairwise_cons.1 hsort
        have hmax : ∀ c ∈ points segs, c.1 ≤ p.1 := by
          intro c hcm
          obtain ⟨m, hm⟩ := List.mem_iff_getElem?.1 hcm
          exact (sorted_idx sorted_points hm hlp).2.2.1 (by have := (List.getElem?_eq_some_iff.1 hm).1; omega)
        have e2 : points (segs ++ [s]) = points segs ++ tl := by
          rw [points_concat, htl]
          apply ext_mem (sorted_mergeInto sorted_points _)
          · rw [Sorted, List.pairwise_append]
            refine ⟨sorted_points, hcons.2, ?_⟩
            intro a ha b hb
            exact (hmax a ha).trans_lt (hcons.1 b hb)
          · intro a
            rw [mem_mergeInto hsort, List.mem_append, List.mem_cons]
            constructor
            · rintro (h1 | ⟨rfl | h1, h2⟩)
              · exact Or.inl h1
              · exact absurd rfl (h2 a (List.mem_of_getElem? hlp))
              · exact Or.inr h1
            · rintro (h1 | h1)
              · exact Or.inl h1
              · refine Or.inr ⟨Or.inr h1, ?_⟩
                intro b hb
                exact ((hmax b hb).trans_lt (hcons.1 a h1)).ne
        have hlen' : s.timeline.length = tl.length + 1 := by rw [← hlen, htl]; simp
        have hne3 : ¬ (points segs ++ tl = []) := by simp [hp]
        rw [if_neg hp] at ih
        rw [e2, if_neg hne3, List.length_append]
        simp [hse, hlen']
        omega

theorem points_eq_nil_iff {tr : Trajectory T D H E} (h : Inv tr) : points tr.segs = [] ↔ tr.isEmpty = true := by
  rw [isEmpty_iff_tm h.canon]
  constructor
  · intro e i
    unfold tm
    cases hh : hd tr.segs i with
    | none => rfl
    | some p =>
      have := (mem_points h.segs h.chain).2 ⟨i, pt_hd hh⟩
      rw [e] at this
      simp at this
  · intro e
    apply points_nil_of h.segs h.chain
    intro i
    have := e i
    unfold tm at this
    simpa using this

theorem size_spec {tr : Trajectory T D H E} (h : Inv tr) : tr.size = (points tr.segs).length := by
  rw [length_points h.segs h.chain]
  unfold Trajectory.size
  cases he : tr.isEmpty with
  | true =>
    have hp := (points_eq_nil_iff h).2 he
    have := length_points h.segs h.chain
    rw [hp] at this
    simp only [List.length_nil, if_true] at this
    simp only [if_true, hp]
    exact this
  | false =>
    have hp : ¬ points tr.segs = [] := by rw [points_eq_nil_iff h, he]; simp
    simp only [Bool.false_eq_true, if_false, if_neg hp]

/-! ## Lookups -/

theorem seg_points_lowerBound (s : Seg T D H E) (t : T) : lowerBound s.timeline t = lowerBound s.points t := by
  unfold lowerBound Seg.points
  generalize s.timeline = l
  induction l with
  | nil => rfl
  | cons a l ih =>
    simp only [List.map_cons, List.takeWhile_cons, point]
    split
    · simp [ih]
    · rfl

theorem seg_points_upperBound (s : Seg T D H E) (t : T) : upperBound s.timeline t = upperBound s.points t := by
  unfold upperBound Seg.points
  generalize s.timeline = l
  induction l with
  | nil => rfl
  | cons a l ih =>
    simp only [List.map_cons, List.takeWhile_cons, point]
    split
    · simp [ih]
    · rfl

/-- The segment found by `FindSegment` is the last one whose first point is not after `t`. -/
theorem found {tr : Trajectory T D H E} (h : Inv tr) {t : T} {leit : Nat} (hf : findSegment tr.map t = some leit) :
    ∃ e s p, tr.map[leit]? = some e ∧ tr.segs[e.2]? = some s ∧ SegInv s ∧ hd tr.segs e.2 = some p ∧ p.1 ≤ t ∧
      (∀ j q, e.2 < j → hd tr.segs j = some q → t < q.1) ∧ ∀ q, IsPoint tr q.1 q.2 → q ∈ s.points ∨ q.1 ≤ p.1 ∨ (t < q.1 ∧ ∃ r ∈ s.points, t < r.1 ∧ r.1 ≤ q.1) := by
  obtain ⟨t0, i, hg, hub, hlb, hle, hlast, hmax, hafter⟩ := findSegment_spec h hf
  obtain ⟨d, hhd⟩ := hd_of_tm hlast.1
  have hil := hd_lt_length hhd
  have hgs : tr.segs[i]? = some tr.segs[i] := List.getElem?_eq_getElem hil
  have hafter' : ∀ j q, i < j → hd tr.segs j = some q → t < q.1 := by
    intro j q hj hq
    by_contra hcn
    have h1 := hmax j q.1 (tm_of_hd hq) (not_lt.1 hcn)
    have h2 := mono_tm h.segs h.chain hj.le hlast.1 (tm_of_hd hq)
    exact hlast.2 j hj (by rw [tm_of_hd hq, le_antisymm h1 h2])
  refine ⟨(t0, i), tr.segs[i], (t0, d), hg, hgs, h.segs _ (List.getElem_mem hil), hhd, hle, hafter', ?_⟩
  intro q hq
  obtain ⟨j, hj⟩ := isPoint_iff.1 hq
  rcases Nat.lt_trichotomy j i with h1 | h1 | h1
  · exact Or.inr (Or.inl (pt_mono h.segs h.chain h1 hj (pt_hd hhd)))
  · subst h1
    obtain ⟨x, hx, hp⟩ := hj
    rw [hgs] at hx
    simp only [Option.some.injEq] at hx
    subst hx
    exact Or.inl hp
  · obtain ⟨a, b, ha, _, hap, _⟩ := pt_bounds h.segs hj
    have ht := hafter' j a h1 ha
    refine Or.inr (Or.inr ⟨ht.trans_le hap, ?_⟩)
    obtain ⟨l, hl, _⟩ := lst_of_hd h.segs hhd
    have hnext := h.chain i (by have := hd_lt_length ha; omega) l hl
    have hpl := pt_lst hl
    obtain ⟨x, hx, hpx⟩ := hpl
    rw [hgs] at hx
    simp only [Option.some.injEq] at hx
    subst hx
    exact ⟨l, hpx, hafter' (i + 1) l (by omega) hnext, pt_mono h.segs h.chain h1 (pt_lst hl) hj⟩

theorem seg_sub_points {tr : Trajectory T D H E} (h : Inv tr) {i : Nat} {s : Seg T D H E} (hs : tr.segs[i]? = some s) {q : T × D}
    (hq : q ∈ s.points) : q ∈ points tr.segs := (mem_points h.segs h.chain).2 ⟨i, s, hs, hq⟩

theorem lowerBound_spec {tr : Trajectory T D H E} (h : Inv tr) (t : T) :
    ∃ it, tr.lowerBound t = some it ∧ At tr.segs it (SortedMap.lowerBound (points tr.segs) t) := by
  unfold Trajectory.lowerBound
  cases hf : findSegment tr.map t with
  | none =>
    refine ⟨_, rfl, ?_⟩
    rw [lowerBound_eq_zero sorted_points (by
      intro c hcm
      obtain ⟨j, hj⟩ := (mem_points h.segs h.chain).1 hcm
      obtain ⟨a, _, ha, _, hac, _⟩ := pt_bounds h.segs hj
      exact ((findSegment_none h).1 hf j _ (tm_of_hd ha)).le.trans hac)]
    exact beginIt_spec h
  | some leit =>
    obtain ⟨e, s, p, hg, hgs, hsi, hhd, hpt, hafter, hall⟩ := found h hf
    simp only [hg, Option.bind_eq_bind, Option.bind_some]
    refine ⟨_, rfl, ?_⟩
    unfold lowerBoundOrNullopt
    simp only [hgs]
    have hsort := sorted_seg_points hsi
    have hp_mem : p ∈ s.points := by
      obtain ⟨x, hx, hpx⟩ := pt_hd hhd
      rw [hgs] at hx
      simp only [Option.some.injEq] at hx
      rw [hx]; exact hpx
    have hlen : s.timeline.length = s.points.length := by simp [Seg.points]
    rw [seg_points_lowerBound, hlen]
    split
    · rename_i hend
      simp only [Option.getD_none]
      rw [lowerBound_eq_length hsort] at hend
      have := (lowerBound_eq_length (sorted_points (segs := tr.segs)) (t := t)).2 (by
        intro c hcm
        rcases hall c ((mem_points_iff_isPoint h).1 hcm) with h1 | h1 | ⟨_, r, hr, h2, _⟩
        · exact hend c h1
        · exact h1.trans_lt (hend p hp_mem)
        · exact absurd (hend r hr) (not_lt.2 h2.le))
      rw [this]
      exact endIt_spec tr
    · rename_i hend
      simp only [Option.getD_some]
      have hlt : SortedMap.lowerBound s.points t < s.points.length := lt_of_le_of_ne (lowerBound_le _ _) hend
      have hga : s.points[SortedMap.lowerBound s.points t]? = some s.points[SortedMap.lowerBound s.points t] := List.getElem?_eq_getElem hlt
      have hder : deref tr.segs { seg := e.2, pt := some (SortedMap.lowerBound s.points t) } = some s.points[SortedMap.lowerBound s.points t] :=
        deref_some.2 ⟨s, hgs, hga⟩
      rw [mk'_self hder]
      refine ⟨_, hder, ?_⟩
      generalize ha : s.points[SortedMap.lowerBound s.points t] = a at *
      have hmem : a ∈ s.points := List.mem_of_getElem? hga
      have hta : t ≤ a.1 := by
        have h1 : a ∈ s.points.drop (SortedMap.lowerBound s.points t) := by
          rw [List.drop_eq_getElem_cons hlt, ha]; exact List.mem_cons_self
        exact ((mem_drop_lowerBound hsort).1 h1).2
      have hfirst : ∀ c ∈ s.points, c.1 < t ∨ a.1 ≤ c.1 := by
        intro c hcm
        obtain ⟨m, hm⟩ := List.mem_iff_getElem?.1 hcm
        by_cases hmm : m < SortedMap.lowerBound s.points t
        · left
          have h1 : c ∈ s.points.take (SortedMap.lowerBound s.points t) := by
            rw [List.mem_iff_getElem?]
            exact ⟨m, by rw [List.getElem?_take, if_pos hmm]; exact hm⟩
          exact ((mem_take_lowerBound hsort).1 h1).2
        · exact Or.inr ((sorted_idx hsort hga hm).2.2.1 (by omega))
      apply idx_lowerBound sorted_points (seg_sub_points h hgs hmem) hta
      intro c hcm
      rcases hall c ((mem_points_iff_isPoint h).1 hcm) with h1 | h1 | ⟨_, r, hr, h2, h3⟩
      · exact hfirst c h1
      · rcases hfirst p hp_mem with h2 | h2
        · exact Or.inl (h1.trans_lt h2)
        · rcases lt_or_eq_of_le (h1.trans hpt) with h3 | h3
          · exact Or.inl h3
          · right
            -- `c` is at time `t`, as is `p`.
            rw [h3]
            exact h2.trans hpt
      · rcases hfirst r hr with h4 | h4
        · exact absurd h4 (not_lt.2 h2.le)
        · exact Or.inr (h4.trans h3)

theorem upperBound_spec {tr : Trajectory T D H E} (h : Inv tr) (t : T) :
    ∃ it, tr.upperBound t = some it ∧ At tr.segs it (SortedMap.upperBound (points tr.segs) t) := by
  unfold Trajectory.upperBound
  cases hf : findSegment tr.map t with
  | none =>
    refine ⟨_, rfl, ?_⟩
    rw [(upperBound_eq_zero sorted_points).2 (by
      intro c hcm
      obtain ⟨j, hj⟩ := (mem_points h.segs h.chain).1 hcm
      obtain ⟨a, _, ha, _, hac, _⟩ := pt_bounds h.segs hj
      exact ((findSegment_none h).1 hf j _ (tm_of_hd ha)).trans_le hac)]
    exact beginIt_spec h
  | some leit =>
    obtain ⟨e, s, p, hg, hgs, hsi, hhd, hpt, hafter, hall⟩ := found h hf
    simp only [hg, Option.bind_eq_bind, Option.bind_some]
    refine ⟨_, rfl, ?_⟩
    unfold upperBoundOrNullopt
    simp only [hgs]
    have hsort := sorted_seg_points hsi
    have hlen : s.timeline.length = s.points.length := by simp [Seg.points]
    rw [seg_points_upperBound, hlen]
    split
    · rename_i hend
      simp only [Option.getD_none]
      rw [upperBound_eq_length hsort] at hend
      have := (upperBound_eq_length (sorted_points (segs := tr.segs)) (t := t)).2 (by
        intro c hcm
        rcases hall c ((mem_points_iff_isPoint h).1 hcm) with h1 | h1 | ⟨_, r, hr, h2, _⟩
        · exact hend c h1
        · exact h1.trans hpt
        · exact absurd (hend r hr) (not_le.2 h2))
      rw [this]
      exact endIt_spec tr
    · rename_i hend
      simp only [Option.getD_some]
      have hlt : SortedMap.upperBound s.points t < s.points.length := lt_of_le_of_ne (upperBound_le _ _) hend
      have hga : s.points[SortedMap.upperBound s.points t]? = some s.points[SortedMap.upperBound s.points t] := List.getElem?_eq_getElem hlt
      have hder : deref tr.segs { seg := e.2, pt := some (SortedMap.upperBound s.points t) } = some s.points[SortedMap.upperBound s.points t] :=
        deref_some.2 ⟨s, hgs, hga⟩
      rw [mk'_self hder]
      refine ⟨_, hder, ?_⟩
      generalize ha : s.points[SortedMap.upperBound s.points t] = a at *
      have hmem : a ∈ s.points := List.mem_of_getElem? hga
      have hta : t < a.1 := by
        have h1 : a ∈ s.points.drop (SortedMap.upperBound s.points t) := by
          rw [List.drop_eq_getElem_cons hlt, ha]; exact List.mem_cons_self
        exact ((mem_drop_upperBound hsort).1 h1).2
      have hfirst : ∀ c ∈ s.points, c.1 ≤ t ∨ a.1 ≤ c.1 := by
        intro c hcm
        obtain ⟨m, hm⟩ := List.mem_iff_getElem?.1 hcm
        by_cases hmm : m < SortedMap.upperBound s.points t
        · left
          have h1 : c ∈ s.points.take (SortedMap.upperBound s.points t) := by
            rw [List.mem_iff_getElem?]
            exact ⟨m, by rw [List.getElem?_take, if_pos hmm]; exact hm⟩
          exact ((mem_take_upperBound hsort).1 h1).2
        · exact Or.inr ((sorted_idx hsort hga hm).2.2.1 (by omega))
      apply idx_upperBound sorted_points (seg_sub_points h hgs hmem) hta
      intro c hcm
      rcases hall c ((mem_points_iff_isPoint h).1 hcm) with h1 | h1 | ⟨_, r, hr, h2, h3⟩
      · exact hfirst c h1
      · exact Or.inl (h1.trans hpt)
      · rcases hfirst r hr with h4 | h4
        · exact absurd h2 (not_lt.2 h4)
        · exact Or.inr (h4.trans h3)

theorem find_spec {tr : Trajectory T D H E} (h : Inv tr) (t : T) :
    ∃ it, tr.find t = some it ∧ ((∃ d, IsPoint tr t d ∧ deref tr.segs it = some (t, d) ∧ At tr.segs it (SortedMap.lowerBound (points tr.segs) t)) ∨
      ((∀ d, ¬ IsPoint tr t d) ∧ it = tr.endIt)) := by
  unfold Trajectory.find
  cases hf : findSegment tr.map t with
  | none =>
    refine ⟨_, rfl, Or.inr ⟨?_, rfl⟩⟩
    intro d hd'
    obtain ⟨j, hj⟩ := isPoint_iff.1 hd'
    obtain ⟨a, _, ha, _, hac, _⟩ := pt_bounds h.segs hj
    exact absurd ((findSegment_none h).1 hf j _ (tm_of_hd ha)) (not_lt.2 hac)
  | some leit =>
    obtain ⟨e, s, p, hg, hgs, hsi, hhd, hpt, hafter, hall⟩ := found h hf
    simp only [hg, Option.bind_eq_bind, Option.bind_some]
    refine ⟨_, rfl, ?_⟩
    have hsort := sorted_seg_points hsi
    have hp_mem : p ∈ s.points := by
      obtain ⟨x, hx, hpx⟩ := pt_hd hhd
      rw [hgs] at hx
      simp only [Option.some.injEq] at hx
      rw [hx]; exact hpx
    have hin : ∀ d, IsPoint tr t d → (t, d) ∈ s.points := by
      intro d hd'
      rcases hall (t, d) hd' with h1 | h1 | ⟨h1, _⟩
      · exact h1
      · have e1 : p.1 = t := le_antisymm hpt h1
        have : p = (t, d) := by
          obtain ⟨j, hj⟩ := isPoint_iff.1 hd'
          exact pt_unique h.segs h.chain (pt_hd hhd) hj e1
        rw [← this]; exact hp_mem
      · exact absurd h1 (lt_irrefl _)
    unfold findOrNullopt
    simp only [hgs, seg_points_lowerBound]
    have hpt' : ∀ k : Nat, s.points[k]? = (s.timeline[k]?).map point := by intro k; simp [Seg.points]
    by_cases hex : ∃ d, IsPoint tr t d
    · obtain ⟨d, hd'⟩ := hex
      have hg' := idx_lowerBound hsort (hin d hd') (le_refl t) (by
        intro c _
        exact lt_or_ge _ _)
      have hder : deref tr.segs { seg := e.2, pt := some (SortedMap.lowerBound s.points t) } = some (t, d) := deref_some.2 ⟨s, hgs, hg'⟩
      rw [hpt'] at hg'
      cases hx : s.timeline[SortedMap.lowerBound s.points t]? with
      | none => rw [hx] at hg'; simp at hg'
      | some a =>
        rw [hx] at hg'
        have ea : a.1 = t := by
          simp only [Option.map_some, Option.some.injEq, point, Prod.mk.injEq] at hg'
          exact hg'.1
        simp only [if_pos ea, Option.getD_some]
        rw [mk'_self hder]
        refine Or.inl ⟨d, hd', hder, (t, d), hder, ?_⟩
        apply idx_lowerBound sorted_points ((mem_points_iff_isPoint h).2 hd') (le_refl t)
        intro c _
        exact lt_or_ge _ _
    · right
      refine ⟨fun d hd' => hex ⟨d, hd'⟩, ?_⟩
      cases hx : s.timeline[SortedMap.lowerBound s.points t]? with
      | none => rfl
      | some a =>
        have : a.1 ≠ t := by
          intro ea
          apply hex
          refine ⟨a.2.dof, s, List.mem_of_getElem? hgs, ?_⟩
          have : s.points[SortedMap.lowerBound s.points t]? = some (t, a.2.dof) := by rw [hpt', hx]; simp [point, ea]
          exact List.mem_of_getElem? this
        simp only [if_neg this, Option.getD_none]

/-! ## The iterators of a segment -/

/-- Iterating over a segment. -/
theorem segment_range {segs : List (Seg T D H E)} (hs : ∀ s ∈ segs, SegInv s) (hc : Chain segs) {i : Nat} {s : Seg T D H E} (hi : segs[i]? = some s) :
    ∃ it n, segEnd segs i = some it ∧ At segs (segBegin segs i) n ∧ At segs it (n + s.points.length) ∧
      ((points segs).drop n).take s.points.length = s.points := by
  have hil := (List.getElem?_eq_some_iff.1 hi).1
  have hlen := len_eq hi
  by_cases hne : s.points = []
  · have hl0 : len segs i = 0 := by rw [hlen, hne]; rfl
    have hat : ∃ n, At segs (Iter.mk' segs i (some 0)) n := by
      obtain ⟨h1, h2, h3, h4⟩ := skipEmpty_spec segs i hil.le
      unfold Iter.mk'
      simp only
      split
      · exact ⟨_, (show skipEmpty segs i = segs.length by omega), rfl⟩
      · rename_i hlt
        obtain ⟨p, hp⟩ := h4 (not_le.1 hlt)
        obtain ⟨n, hn⟩ := List.mem_iff_getElem?.1 ((mem_points hs hc).2 ⟨_, pt_hd hp⟩)
        have : At segs { seg := skipEmpty segs i, pt := some 0 } n := ⟨p, by rw [← hd_eq_deref]; exact hp, hn⟩
        split
        · exact ⟨n, this⟩
        · rename_i e; exact ⟨n, this⟩
    obtain ⟨n, hn⟩ := hat
    refine ⟨Iter.mk' segs i (some 0), n, by simp [segEnd, hl0], hn, ?_, ?_⟩
    · rw [hne]; exact hn
    · rw [hne]; simp
  · have hpos : 0 < len segs i := by rw [hlen]; exact List.length_pos_iff.2 hne
    obtain ⟨p, hp⟩ := deref_isSome hpos
    have hhd : hd segs i = some p := by rw [hd_eq_deref]; exact hp
    obtain ⟨e, n, hn, hnp⟩ := segBegin_spec hs hc hhd
    have hadd := at_add hs hc (by rw [← e]; exact hn : At segs { seg := i, pt := some 0 } n)
    have hlast := hadd (len segs i - 1) (by omega)
    rw [Nat.zero_add] at hlast
    obtain ⟨q, hq, hnq⟩ := hlast
    have hmk := mk'_self hq
    have hlt := (List.getElem?_eq_some_iff.1 hnq).1
    have hatl : At segs { seg := i, pt := some (len segs i - 1) } (n + (len segs i - 1)) := ⟨q, hq, hnq⟩
    obtain ⟨it, h1, h2⟩ := incr_spec hs hc hatl hlt
    refine ⟨it, n, ?_, hn, ?_, ?_⟩
    · unfold segEnd
      rw [if_neg (by omega), hmk]
      exact h1
    · rw [show n + s.points.length = n + (len segs i - 1) + 1 by omega]; exact h2
    · apply List.ext_getElem?
      intro k
      rw [List.getElem?_take]
      split
      · rename_i hk
        rw [List.getElem?_drop]
        obtain ⟨r, hr, hnr⟩ := hadd k (by omega)
        rw [hnr]
        rw [Nat.zero_add] at hr
        obtain ⟨x, hx, hxr⟩ := deref_some.1 hr
        rw [hi] at hx
        simp only [Option.some.injEq] at hx
        rw [hx]; exact hxr.symm
      · rename_i hk
        rw [List.getElem?_eq_none (by omega)]

end Principia.DiscreteTrajectory
