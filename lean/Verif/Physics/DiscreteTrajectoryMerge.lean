import Verif.Physics.DiscreteTrajectorySplice

/-!
# `Merge`
-/

set_option linter.unusedSimpArgs false
set_option linter.unusedVariables false
set_option linter.unusedSectionVars false

namespace Principia.DiscreteTrajectory

open Principia.SortedMap

variable {T D H E : Type} [LinearOrder T] [DecidableEq D] [AddCommGroup E] [LinearOrder E]

/-- The segments with the same index, merged, followed by those of the longest list. -/
def combine (h : Hermite T D H E) : List (Seg T D H E) → List (Seg T D H E) → Option (List (Seg T D H E))
  | a, [] => some a
  | [], b => some b
  | x :: a, y :: b => do
    let z ← x.merge h y
    let c ← combine h a b
    some (z :: c)

theorem mergeStep_eq {h : Hermite T D H E} {tr tr' : Trajectory T D H E} {i : Nat} {s y : Seg T D H E} (hs : tr.segs[i]? = some s)
    (hst : mergeStep h tr i y = some tr') : ∃ z, s.merge h y = some z ∧ tr'.segs = tr.segs.set i z := by
  unfold mergeStep at hst
  simp only [hs, Option.bind_eq_bind, Option.bind_some] at hst
  cases hz : s.merge h y with
  | none => simp [hz] at hst
  | some z =>
    simp only [hz, Option.bind_some, Option.some.injEq] at hst
    subst hst
    exact ⟨z, rfl, rfl⟩

theorem mergeStep_isSome {h : Hermite T D H E} {tr : Trajectory T D H E} {i : Nat} {s y z : Seg T D H E} (hs : tr.segs[i]? = some s)
    (hz : s.merge h y = some z) : ∃ tr', mergeStep h tr i y = some tr' := by
  unfold mergeStep
  simp only [hs, Option.bind_eq_bind, Option.bind_some, hz]
  exact ⟨_, rfl⟩

theorem mergeStep_sorted {h : Hermite T D H E} {tr tr' : Trajectory T D H E} {i : Nat} {y : Seg T D H E} (hm : Sorted tr.map)
    (hst : mergeStep h tr i y = some tr') : Sorted tr'.map := by
  unfold mergeStep at hst
  simp only [Option.bind_eq_bind] at hst
  cases hs : tr.segs[i]? with
  | none => simp [hs] at hst
  | some s =>
    simp only [hs, Option.bind_some] at hst
    cases hz : s.merge h y with
    | none => simp [hz] at hst
    | some z =>
      simp only [hz, Option.bind_some, Option.some.injEq] at hst
      subst hst
      have h1 : Sorted (match s.timeline.head?, z.timeline.head? with
          | some leftEndpoint, some front =>
            if front.1 < leftEndpoint.1 then
              match find tr.map leftEndpoint.1 with
              | some e => if e.2 = i then eraseKey tr.map leftEndpoint.1 else tr.map
              | none => tr.map
            else tr.map
          | _, _ => tr.map) := by
        split
        · split
          · split
            · split
              · exact sorted_eraseKey hm _
              · exact hm
            · exact hm
          · exact hm
        · exact hm
      simp only
      split
      · exact sorted_insertOrAssign h1 _ _
      · exact h1

/-- The effect of a step on the time-to-segment map. -/
theorem mergeStep_map {h : Hermite T D H E} {tr tr' : Trajectory T D H E} {i : Nat} {s y : Seg T D H E} (hm : Sorted tr.map)
    (hs : tr.segs[i]? = some s) (hsi : SegInv s) (hyi : SegInv y) (hst : mergeStep h tr i y = some tr')
    (hi : ∀ t, (t, i) ∈ tr.map → tm tr.segs i = some t) (t : T) (j : Nat) :
    (t, j) ∈ tr'.map ↔ (tm tr'.segs i = some t ∧ j = i) ∨ ((t, j) ∈ tr.map ∧ j ≠ i ∧ tm tr'.segs i ≠ some t) := by
  obtain ⟨z, hz, hsegs⟩ := mergeStep_eq hs hst
  have hil := (List.getElem?_eq_some_iff.1 hs).1
  have hg' : tr'.segs[i]? = some z := by rw [hsegs, List.getElem?_set_self hil]
  obtain ⟨hzi, hzp⟩ := segMerge_spec hsi hyi hz
  have htm : tm tr.segs i = s.timeline.head?.map Prod.fst := by
    unfold tm; rw [hd_of_getElem? hs]; cases s.timeline.head? <;> rfl
  have htm' : tm tr'.segs i = z.timeline.head?.map Prod.fst := by
    unfold tm; rw [hd_of_getElem? hg']; cases z.timeline.head? <;> rfl
  unfold mergeStep at hst
  simp only [hs, Option.bind_eq_bind, Option.bind_some, hz, Option.some.injEq] at hst
  rw [htm']
  clear htm' hg' hsegs
  subst hst
  simp only
  cases hzh : z.timeline.head? with
  | none =>
    have hz0 : z.timeline = [] := by simpa using hzh
    have hs0 : s.timeline = [] := by
      by_contra hc
      cases hst : s.timeline with
      | nil => exact hc hst
      | cons a l =>
        have h1 : point a ∈ z.points := (hzp _).2 (Or.inl (by simp [Seg.points, hst]))
        simp [Seg.points, hz0] at h1
    simp only [hs0, List.head?_nil, Option.map_none]
    constructor
    · intro h1
      right
      refine ⟨h1, ?_, by simp⟩
      intro e
      subst e
      have := hi t h1
      rw [htm, hs0] at this
      simp at this
    · rintro (⟨h1, _⟩ | ⟨h1, _⟩)
      · simp at h1
      · exact h1
  | some f =>
    cases hsh : s.timeline.head? with
    | none =>
      simp only [Option.map_some, Option.some.injEq]
      rw [mem_insertOrAssign hm]
      simp only [Prod.mk.injEq]
      constructor
      · rintro (⟨h1, h2⟩ | ⟨h1, h2⟩)
        · exact Or.inl ⟨h1.symm, h2⟩
        · refine Or.inr ⟨h1, ?_, fun e => h2 (by simpa using e.symm)⟩
          intro e
          subst e
          have := hi t h1
          rw [htm, hsh] at this
          simp at this
      · rintro (⟨h1, h2⟩ | ⟨h1, _, h2⟩)
        · exact Or.inl ⟨h1.symm, h2⟩
        · exact Or.inr ⟨h1, fun e => h2 (by simpa using e.symm)⟩
    | some l =>
      have hle : f.1 ≤ l.1 := by
        have h1 : point l ∈ z.points := (hzp _).2 (Or.inl (by
          rw [mem_points_iff]; exact ⟨l, List.mem_of_mem_head? hsh, rfl⟩))
        obtain ⟨a, ha, e⟩ := mem_points_iff.1 h1
        have h2 := head?_min hzi.sorted hzh a ha
        have : a.1 = l.1 := congrArg (Prod.fst (α := T) (β := D)) e
        rw [← this]; exact h2
      have hil' : ∀ u, (u, i) ∈ tr.map → u = l.1 := by
        intro u hu
        have := hi u hu
        rw [htm, hsh] at this
        simpa using this.symm
      simp only [Option.map_some, Option.some.injEq]
      by_cases hlt : f.1 < l.1
      · simp only [if_pos hlt]
        have key : ∀ u k, (u, k) ∈ (match find tr.map l.1 with
              | some e => if e.2 = i then eraseKey tr.map l.1 else tr.map
              | none => tr.map) ↔ (u, k) ∈ tr.map ∧ k ≠ i := by
          intro u k
          cases hfind : find tr.map l.1 with
          | none =>
            simp only
            constructor
            · intro h1
              refine ⟨h1, ?_⟩
              intro e
              subst e
              have e1 := hil' u h1
              have := (find_eq_some_iff hm (t := l.1) (a := (u, k))).2 ⟨h1, e1⟩
              rw [hfind] at this
              simp at this
            · exact fun h1 => h1.1
          | some e =>
            obtain ⟨h1, h2⟩ := (find_eq_some_iff hm).1 hfind
            simp only
            by_cases hei : e.2 = i
            · rw [if_pos hei, mem_eraseKey]
              constructor
              · rintro ⟨h3, h4⟩
                refine ⟨h3, ?_⟩
                intro e5
                subst e5
                exact h4 (hil' u h3)
              · rintro ⟨h3, h4⟩
                refine ⟨h3, ?_⟩
                intro e5
                have := eq_of_key hm h3 h1 (by simp only at e5; rw [h2]; exact e5)
                rw [← this] at hei
                exact h4 hei
            · rw [if_neg hei]
              constructor
              · intro h3
                refine ⟨h3, ?_⟩
                intro e5
                subst e5
                have := eq_of_key hm h3 h1 (by rw [h2]; exact hil' u h3)
                exact hei (by rw [← this])
              · exact fun h3 => h3.1
        have hsort : Sorted (match find tr.map l.1 with
              | some e => if e.2 = i then eraseKey tr.map l.1 else tr.map
              | none => tr.map) := by
          split
          · split
            · exact sorted_eraseKey hm _
            · exact hm
          · exact hm
        refine (mem_insertOrAssign hsort).trans ?_
        rw [key]
        simp only [Prod.mk.injEq]
        constructor
        · rintro (⟨h1, h2⟩ | ⟨⟨h1, h3⟩, h2⟩)
          · exact Or.inl ⟨h1.symm, h2⟩
          · exact Or.inr ⟨h1, h3, fun e => h2 (by simpa using e.symm)⟩
        · rintro (⟨h1, h2⟩ | ⟨h1, h3, h2⟩)
          · exact Or.inl ⟨h1.symm, h2⟩
          · exact Or.inr ⟨⟨h1, h3⟩, fun e => h2 (by simpa using e.symm)⟩
      · simp only [if_neg hlt]
        have e : f.1 = l.1 := le_antisymm hle (not_lt.1 hlt)
        rw [mem_insertOrAssign hm]
        simp only [Prod.mk.injEq]
        constructor
        · rintro (⟨h1, h2⟩ | ⟨h1, h2⟩)
          · exact Or.inl ⟨h1.symm, h2⟩
          · refine Or.inr ⟨h1, ?_, fun e => h2 (by simpa using e.symm)⟩
            intro e1
            subst e1
            exact h2 (by rw [e]; exact hil' t h1)
        · rintro (⟨h1, h2⟩ | ⟨h1, _, h2⟩)
          · exact Or.inl ⟨h1.symm, h2⟩
          · exact Or.inr ⟨h1, fun e => h2 (by simpa using e.symm)⟩

/-- The state of the time-to-segment map when the segments with index less than `i` have been processed; `old` is the original map. -/
structure MInv (old : List (T × Nat)) (tr : Trajectory T D H E) (i : Nat) : Prop where
  sorted : Sorted tr.map
  mem : ∀ t j, (t, j) ∈ tr.map ↔
    (j < i ∧ tm tr.segs j = some t ∧ ∀ k, j < k → k < i → tm tr.segs k ≠ some t) ∨
    (i ≤ j ∧ (t, j) ∈ old ∧ ∀ k, k < i → tm tr.segs k ≠ some t)

theorem minv_step {old : List (T × Nat)} {tr tr' : Trajectory T D H E} {i : Nat} (hi : MInv old tr i) (hsorted : Sorted tr'.map)
    (htm : ∀ k, k ≠ i → tm tr'.segs k = tm tr.segs k)
    (hmap : ∀ t j, (t, j) ∈ tr'.map ↔ (tm tr'.segs i = some t ∧ j = i) ∨ ((t, j) ∈ tr.map ∧ j ≠ i ∧ tm tr'.segs i ≠ some t)) :
    MInv old tr' (i + 1) := by
  refine ⟨hsorted, ?_⟩
  intro t j
  rw [hmap, hi.mem]
  constructor
  · rintro (⟨h1, rfl⟩ | ⟨⟨h1, h2, h3⟩ | ⟨h1, h2, h3⟩, h4, h5⟩)
    · exact Or.inl ⟨by omega, h1, fun k h2 h3 => by omega⟩
    · refine Or.inl ⟨by omega, by rw [htm j h4]; exact h2, ?_⟩
      intro k h6 h7
      by_cases e : k = i
      · rw [e]; exact h5
      · rw [htm k e]; exact h3 k h6 (by omega)
    · refine Or.inr ⟨by omega, h2, ?_⟩
      intro k h7
      by_cases e : k = i
      · rw [e]; exact h5
      · rw [htm k e]; exact h3 k (by omega)
  · rintro (⟨h1, h2, h3⟩ | ⟨h1, h2, h3⟩)
    · by_cases e : j = i
      · exact Or.inl ⟨by rw [← e]; exact h2, e⟩
      · refine Or.inr ⟨Or.inl ⟨by omega, by rw [← htm j e]; exact h2, ?_⟩, e, h3 i (by omega) (by omega)⟩
        intro k h6 h7
        rw [← htm k (by omega)]
        exact h3 k h6 (by omega)
    · refine Or.inr ⟨Or.inr ⟨by omega, h2, ?_⟩, by omega, h3 i (by omega)⟩
      intro k h6
      rw [← htm k (by omega)]
      exact h3 k (by omega)

theorem tm_of_getElem? {segs : List (Seg T D H E)} {i : Nat} {s : Seg T D H E} (h : segs[i]? = some s) :
    tm segs i = s.timeline.head?.map Prod.fst := by
  unfold tm; rw [hd_of_getElem? h]; cases s.timeline.head? <;> rfl

theorem mergeRest_minv {old : List (T × Nat)} {segs0 : List (Seg T D H E)} (hold : ∀ t j, (t, j) ∈ old → tm segs0 j = some t)
    (tr : Trajectory T D H E) (i : Nat) (hil : i ≤ tr.segs.length) (hi : MInv old tr i) (hrest : ∀ j, i ≤ j → tm segs0 j = tm tr.segs j) :
    MInv old (mergeRest tr i) tr.segs.length := by
  have main : ∀ (n i : Nat) (m : List (T × Nat)), n = tr.segs.length - i → i ≤ tr.segs.length → MInv old (⟨tr.segs, m⟩ : Trajectory T D H E) i →
      (∀ j, i ≤ j → tm segs0 j = tm tr.segs j) →
      MInv old (⟨tr.segs, ((tr.segs.drop i).zipIdx i).foldl (fun map s => match s.1.timeline.head? with
      | some front => insertOrAssign map front.1 s.2
      | none => map) m⟩ : Trajectory T D H E) tr.segs.length := by
    intro n
    induction n with
    | zero =>
      intro i m hn hil hi hrest
      have e : i = tr.segs.length := by omega
      subst e
      simpa using hi
    | succ n ih =>
      intro i m hn hil hi hrest
      have hlt : i < tr.segs.length := by omega
      have hg : tr.segs[i]? = some tr.segs[i] := List.getElem?_eq_getElem hlt
      rw [List.drop_eq_getElem_cons hlt, List.zipIdx_cons, List.foldl_cons]
      apply ih (i + 1) _ (by omega) (by omega)
      · have htmi := tm_of_getElem? hg
        have hsorted : Sorted (match (tr.segs[i]).timeline.head? with
            | some front => insertOrAssign m front.1 i
            | none => m) := by
          split
          · exact sorted_insertOrAssign hi.sorted _ _
          · exact hi.sorted
        apply minv_step hi hsorted
        · intro k _; rfl
        · intro t j
          have hiold : ∀ u, (u, i) ∈ m → tm tr.segs i = some u := by
            intro u hu
            rcases (hi.mem u i).1 hu with ⟨h1, _⟩ | ⟨_, h2, _⟩
            · omega
            · rw [← hrest i (le_refl _)]; exact hold u i h2
          simp only
          rw [htmi]
          cases hh : (tr.segs[i]).timeline.head? with
          | none =>
            simp only [Option.map_none]
            constructor
            · intro h1
              refine Or.inr ⟨h1, ?_, by simp⟩
              intro e
              subst e
              have := hiold t h1
              rw [htmi, hh] at this
              simp at this
            · rintro (⟨h1, _⟩ | ⟨h1, _⟩)
              · simp at h1
              · exact h1
          | some f =>
            simp only [Option.map_some, Option.some.injEq]
            rw [mem_insertOrAssign hi.sorted]
            simp only [Prod.mk.injEq]
            constructor
            · rintro (⟨h1, h2⟩ | ⟨h1, h2⟩)
              · exact Or.inl ⟨h1.symm, h2⟩
              · refine Or.inr ⟨h1, ?_, fun e => h2 (by simpa using e.symm)⟩
                intro e1
                subst e1
                have := hiold t h1
                rw [htmi, hh] at this
                simp only [Option.map_some, Option.some.injEq] at this
                exact h2 this.symm
            · rintro (⟨h1, h2⟩ | ⟨h1, _, h2⟩)
              · exact Or.inl ⟨h1.symm, h2⟩
              · exact Or.inr ⟨h1, fun e => h2 (by simpa using e.symm)⟩
      · exact fun j hj => hrest j (by omega)
  exact main _ i tr.map rfl hil hi hrest

theorem canon_of_minv {segs0 : List (Seg T D H E)} {old : List (T × Nat)} (hold : ∀ t j, (t, j) ∈ old → tm segs0 j = some t)
    {tr : Trajectory T D H E} (hlen : tr.segs.length = segs0.length) (h : MInv old tr tr.segs.length) : Canon tr := by
  refine ⟨h.sorted, ?_⟩
  intro t j
  rw [h.mem]
  constructor
  · rintro (⟨_, h2, h3⟩ | ⟨h1, h2, _⟩)
    · refine ⟨h2, ?_⟩
      intro k hk e
      exact h3 k hk (tm_lt_length e) e
    · have := tm_lt_length (hold t j h2)
      omega
  · rintro ⟨h1, h2⟩
    exact Or.inl ⟨tm_lt_length h1, h1, fun k h3 _ => h2 k h3⟩

/-- Splicing the extra segments of the source. -/
theorem merge_splice {tr tj : Trajectory T D H E} (hc : Canon tr) (hj : Inv tj) {m : Nat} {p : T × D} (hm : tr.segs.length ≤ m)
    (hp : hd tj.segs m = some p) :
    ∃ r, adjustAfterSplicing [] tj.map { tr with segs := tr.segs ++ tj.segs.drop tr.segs.length } tr.segs.length (fun j => j) = some r ∧
      Canon r.2 ∧ r.2.segs = tr.segs ++ tj.segs.drop tr.segs.length := by
  generalize hn : tr.segs.length = n at *
  have htmd : ∀ i, n ≤ i → tm (tr.segs ++ tj.segs.drop n) i = tm tj.segs i := by
    intro i hi
    rw [tm_append, hn, if_neg (by omega), tm_drop, show n + (i - n) = i by omega]
  have hhdd : ∀ i, n ≤ i → hd (tr.segs ++ tj.segs.drop n) i = hd tj.segs i := by
    intro i hi
    rw [hd_append, hn, if_neg (by omega), hd_drop, show n + (i - n) = i by omega]
  obtain ⟨q, hq⟩ := frontFrom_isSome (segs := tr.segs ++ tj.segs.drop n) (i := n) (m := m) (p := p) hm (by rw [hhdd m hm]; exact hp)
  obtain ⟨m', hm', h1, h2⟩ := frontFrom_some hq
  rw [hhdd m' hm'] at h1
  have htm := tm_of_hd h1
  have hfs := findSegment_at hj htm
  unfold adjustAfterSplicing
  simp only [hq, Option.bind_eq_bind, Option.bind_some, hfs, Option.getD_some, List.getLast?_nil]
  refine ⟨_, rfl, ?_, rfl⟩
  simp only
  have hdsorted : Sorted (tj.map.drop (lowerBound tj.map q.1)) := hj.canon.sorted.sublist (List.drop_sublist _ _)
  have hentry : ∀ u j, (u, j) ∈ tj.map.drop (lowerBound tj.map q.1) → n ≤ j ∧ tm tj.segs j = some u := by
    intro u j hmem
    rw [mem_drop_lowerBound hj.canon.sorted, hj.canon.mem] at hmem
    refine ⟨?_, hmem.1.1⟩
    by_contra hcn
    have h3 := mono_tm hj.segs hj.chain (show j ≤ m' by omega) hmem.1.1 htm
    have e : u = q.1 := le_antisymm h3 hmem.2
    exact hmem.1.2 m' (by omega) (by rw [htm, e])
  apply canon_of (sorted_foldl_insertOrAssign hc.sorted _ (fun j => j))
  · intro u j hmem
    simp only
    rcases (mem_foldl_insertOrAssign hc.sorted hdsorted (fun j => j) _).1 hmem with ⟨⟨u', j'⟩, h3, e⟩ | ⟨h3, _⟩
    · simp only [Prod.mk.injEq] at e
      obtain ⟨rfl, rfl⟩ := e
      obtain ⟨h4, h5⟩ := hentry _ _ h3
      rw [htmd _ h4]; exact h5
    · have h4 := ((hc.mem u j).1 h3).1
      rw [tm_append, if_pos (tm_lt_length h4)]; exact h4
  · rintro u j ⟨h3, h4⟩
    simp only at h3 h4
    rw [mem_foldl_insertOrAssign hc.sorted hdsorted (fun j => j)]
    by_cases hjn : j < n
    · right
      rw [tm_append, hn, if_pos hjn] at h3
      refine ⟨?_, ?_⟩
      · rw [hc.mem]
        refine ⟨h3, ?_⟩
        intro k hk e
        apply h4 k hk
        rw [tm_append, if_pos (tm_lt_length e)]; exact e
      · rintro ⟨u', k⟩ hmem e
        simp only at e
        subst e
        obtain ⟨h5, h6⟩ := hentry _ _ hmem
        exact h4 k (by omega) (by rw [htmd k h5]; exact h6)
    · left
      rw [htmd j (by omega)] at h3
      refine ⟨(u, j), ?_, rfl⟩
      rw [mem_drop_lowerBound hj.canon.sorted, hj.canon.mem]
      refine ⟨⟨h3, ?_⟩, ?_⟩
      · intro k hk e
        exact h4 k hk (by rw [htmd k (by omega)]; exact e)
      · refine mono_tm hj.segs hj.chain ?_ htm h3
        by_contra hcn
        have := h2 j (by omega) (by omega)
        rw [hhdd j (by omega)] at this
        simp [tm, this] at h3

/-- The loop of `Merge`: the segments. -/
theorem mergeLoop_segs {h : Hermite T D H E} {sm : List (T × Nat)} (srcs : List (Seg T D H E)) :
    ∀ (tr r : Trajectory T D H E) (i : Nat), i ≤ tr.segs.length → Sorted tr.map → mergeLoop h sm tr i srcs = some r →
      Sorted r.map ∧ ∃ c, combine h (tr.segs.drop i) srcs = some c ∧ r.segs = tr.segs.take i ++ c := by
  induction srcs with
  | nil =>
    intro tr r i hil hm hs
    simp only [mergeLoop, Option.some.injEq] at hs
    subst hs
    refine ⟨?_, tr.segs.drop i, ?_, ?_⟩
    · unfold mergeRest
      simp only
      generalize (tr.segs.drop i).zipIdx i = l
      generalize tr.map = m at hm
      induction l generalizing m with
      | nil => exact hm
      | cons a l ih =>
        simp only [List.foldl_cons]
        apply ih
        split
        · exact sorted_insertOrAssign hm _ _
        · exact hm
    · cases tr.segs.drop i <;> rfl
    · simp [mergeRest]
  | cons y srcs ih =>
    intro tr r i hil hm hs
    unfold mergeLoop at hs
    by_cases hi : i < tr.segs.length
    · rw [if_pos hi] at hs
      have hg : tr.segs[i]? = some tr.segs[i] := List.getElem?_eq_getElem hi
      cases hst : mergeStep h tr i y with
      | none => simp [hst] at hs
      | some tr' =>
        simp only [hst, Option.bind_eq_bind, Option.bind_some] at hs
        obtain ⟨z, hz, hsegs⟩ := mergeStep_eq hg hst
        obtain ⟨h1, c, h2, h3⟩ := ih tr' r (i + 1) (by rw [hsegs, List.length_set]; omega) (mergeStep_sorted hm hst) hs
        refine ⟨h1, z :: c, ?_, ?_⟩
        · rw [List.drop_eq_getElem_cons hi]
          rw [hsegs, List.drop_set_of_lt (by omega)] at h2
          simp [combine, hz, h2]
        · rw [h3, hsegs, List.take_succ, List.take_set_of_le (by omega), List.getElem?_set_self hi]
          simp
    · rw [if_neg hi] at hs
      have e : i = tr.segs.length := by omega
      subst e
      unfold adjustAfterSplicing at hs
      simp only [Option.bind_eq_bind] at hs
      cases hf : frontFrom (tr.segs ++ y :: srcs) tr.segs.length with
      | none => simp [hf] at hs
      | some q =>
        simp only [hf, Option.bind_some, Option.some.injEq] at hs
        subst hs
        refine ⟨?_, y :: srcs, ?_, ?_⟩
        · exact sorted_foldl_insertOrAssign hm _ (fun j => j)
        · simp [combine]
        · simp

/-- The loop of `Merge`: success, and the time-to-segment map. -/
theorem mergeLoop_isSome {h : Hermite T D H E} {tr0 tj : Trajectory T D H E} (h0 : Inv tr0) (hj : Inv tj)
    (hextra : tr0.segs.length < tj.segs.length → ∃ m p, tr0.segs.length ≤ m ∧ hd tj.segs m = some p) (srcs : List (Seg T D H E)) :
    ∀ (tr : Trajectory T D H E) (i : Nat) (c : List (Seg T D H E)), i ≤ tr.segs.length → srcs = tj.segs.drop i → MInv tr0.map tr i →
      tr.segs.length = tr0.segs.length → (∀ s ∈ tr.segs, SegInv s) → (∀ j, i ≤ j → tm tr0.segs j = tm tr.segs j) →
      combine h (tr.segs.drop i) srcs = some c → ∃ r, mergeLoop h tj.map tr i srcs = some r ∧ Canon r := by
  have hold : ∀ t j, (t, j) ∈ tr0.map → tm tr0.segs j = some t := fun t j hm => ((h0.canon.mem t j).1 hm).1
  induction srcs with
  | nil =>
    intro tr i c hil hsrc hi hlen hsi hrest hc
    refine ⟨_, rfl, ?_⟩
    have := mergeRest_minv hold tr i hil hi hrest
    exact canon_of_minv (tr := mergeRest tr i) hold hlen this
  | cons y srcs ih =>
    intro tr i c hil hsrc hi hlen hsi hrest hc
    have hijl : i < tj.segs.length := by
      by_contra hcn
      rw [List.drop_eq_nil_of_le (by omega)] at hsrc
      simp at hsrc
    rw [List.drop_eq_getElem_cons hijl] at hsrc
    obtain ⟨hy, hsrc'⟩ := List.cons.inj hsrc
    have hyi : SegInv y := hj.segs y (by rw [hy]; exact List.getElem_mem hijl)
    unfold mergeLoop
    by_cases hlt : i < tr.segs.length
    · rw [if_pos hlt]
      have hg : tr.segs[i]? = some tr.segs[i] := List.getElem?_eq_getElem hlt
      rw [List.drop_eq_getElem_cons hlt] at hc
      simp only [combine, Option.bind_eq_bind] at hc
      cases hz : (tr.segs[i]).merge h y with
      | none => simp [hz] at hc
      | some z =>
        simp only [hz, Option.bind_some] at hc
        cases hc' : combine h (tr.segs.drop (i + 1)) srcs with
        | none => simp [hc'] at hc
        | some c' =>
          obtain ⟨tr', hst⟩ := mergeStep_isSome hg hz
          obtain ⟨z', hz', hsegs⟩ := mergeStep_eq hg hst
          rw [hz] at hz'
          simp only [Option.some.injEq] at hz'
          subst hz'
          have hsii : SegInv tr.segs[i] := hsi _ (List.getElem_mem hlt)
          have htm : ∀ k, k ≠ i → tm tr'.segs k = tm tr.segs k := by
            intro k hk
            unfold tm
            rw [hsegs, hd_set, if_neg (by omega)]
          simp only [hst, Option.bind_eq_bind, Option.bind_some]
          apply ih tr' (i + 1) c' (by rw [hsegs, List.length_set]; omega) hsrc'
          · apply minv_step hi (mergeStep_sorted hi.sorted hst) htm
            apply mergeStep_map hi.sorted hg hsii hyi hst
            intro u hu
            rcases (hi.mem u i).1 hu with ⟨h1, _⟩ | ⟨_, h2, _⟩
            · omega
            · rw [← hrest i (le_refl _)]; exact hold u i h2
          · rw [hsegs, List.length_set]; exact hlen
          · rw [hsegs]; exact segInv_set hsi i (segMerge_spec hsii hyi hz).1
          · intro j hj'
            rw [htm j (by omega)]
            exact hrest j (by omega)
          · rw [hsegs, List.drop_set_of_lt (by omega)]; exact hc'
    · rw [if_neg hlt]
      have e : i = tr.segs.length := by omega
      subst e
      have hcan : Canon tr := canon_of_minv hold hlen hi
      obtain ⟨m, p, hm, hp⟩ := hextra (by omega)
      obtain ⟨r, hr, hcr, _⟩ := merge_splice hcan hj (by rw [hlen]; exact hm) hp
      have e2 : y :: srcs = tj.segs.drop tr.segs.length := by
        rw [List.drop_eq_getElem_cons hijl, hsrc]
      rw [e2]
      simp only [hr, Option.bind_eq_bind, Option.bind_some]
      exact ⟨r.2, rfl, hcr⟩

theorem combine_spec {h : Hermite T D H E} : ∀ (a b c : List (Seg T D H E)), (∀ s ∈ a, SegInv s) → (∀ s ∈ b, SegInv s) →
    combine h a b = some c → (∀ s ∈ c, SegInv s) ∧ c.length = max a.length b.length ∧
      ∀ i p, pt c i p ↔ pt a i p ∨ (pt b i p ∧ ∀ q, pt a i q → q.1 ≠ p.1) := by
  intro a
  induction a with
  | nil =>
    intro b c ha hb hc
    have e : c = b := by cases b <;> simpa [combine] using hc.symm
    subst e
    exact ⟨hb, by simp, by intro i p; simp [pt]⟩
  | cons x a ih =>
    intro b c ha hb hc
    cases b with
    | nil =>
      simp only [combine, Option.some.injEq] at hc
      subst hc
      exact ⟨ha, by simp, by intro i p; simp [pt]⟩
    | cons y b =>
      simp only [combine, Option.bind_eq_bind] at hc
      cases hz : x.merge h y with
      | none => simp [hz] at hc
      | some z =>
        simp only [hz, Option.bind_some] at hc
        cases hc' : combine h a b with
        | none => simp [hc'] at hc
        | some c' =>
          simp only [hc', Option.bind_some, Option.some.injEq] at hc
          subst hc
          obtain ⟨h1, h2, h3⟩ := ih b c' (fun s hs => ha s (List.mem_cons_of_mem _ hs)) (fun s hs => hb s (List.mem_cons_of_mem _ hs)) hc'
          obtain ⟨h4, h5⟩ := segMerge_spec (ha x List.mem_cons_self) (hb y List.mem_cons_self) hz
          refine ⟨?_, by simp [h2], ?_⟩
          · intro s hs
            rcases List.mem_cons.1 hs with rfl | hs
            · exact h4
            · exact h1 s hs
          · intro i p
            cases i with
            | zero => simpa [pt] using h5 p
            | succ i => simpa [pt] using h3 i p

/-- `Merge`, when it succeeds: the result is consistent, its segments are made of the points of the segments with the same index. -/
theorem merge_spec {h : Hermite T D H E} {tr tj r : Trajectory T D H E} (h0 : Inv tr) (hj : Inv tj) (hs : tr.merge h tj = some r) :
    Inv r ∧ r.segs.length = max tr.segs.length tj.segs.length ∧
      (∀ i p, pt r.segs i p ↔ pt tr.segs i p ∨ (pt tj.segs i p ∧ ∀ q, pt tr.segs i q → q.1 ≠ p.1)) ∧
      ∀ t d, IsPoint r t d ↔ IsPoint tr t d ∨ (IsPoint tj t d ∧ ∀ d', ¬ IsPoint tr t d') := by
  unfold Trajectory.merge at hs
  cases hl : mergeLoop h tj.map tr 0 tj.segs with
  | none => simp [hl] at hs
  | some r' =>
    simp only [hl, Option.bind_eq_bind, Option.bind_some] at hs
    obtain ⟨h1, c, h2, h3⟩ := mergeLoop_segs tj.segs tr r' 0 (Nat.zero_le _) h0.canon.sorted hl
    simp only [List.drop_zero, List.take_zero, List.nil_append] at h2 h3
    subst h3
    obtain ⟨h4, h5, h6⟩ := combine_spec _ _ _ h0.segs hj.segs h2
    obtain ⟨e, h7⟩ := inv_of_check h4 h1 hs
    subst e
    refine ⟨h7, h5, h6, ?_⟩
    intro t d
    simp only [isPoint_iff]
    constructor
    · rintro ⟨i, hi⟩
      rcases (h6 i _).1 hi with h8 | ⟨h8, _⟩
      · exact Or.inl ⟨i, h8⟩
      · by_cases hex : ∃ d' k, pt tr.segs k (t, d')
        · obtain ⟨d', k, hk⟩ := hex
          have := pt_unique h7.segs h7.chain hi ((h6 k _).2 (Or.inl hk)) rfl
          rw [this]
          exact Or.inl ⟨k, hk⟩
        · refine Or.inr ⟨⟨i, h8⟩, ?_⟩
          rintro d' ⟨k, hk⟩
          exact hex ⟨d', k, hk⟩
    · rintro (⟨i, hi⟩ | ⟨⟨i, hi⟩, h8⟩)
      · exact ⟨i, (h6 i _).2 (Or.inl hi)⟩
      · refine ⟨i, (h6 i _).2 (Or.inr ⟨hi, ?_⟩)⟩
        rintro ⟨t', d'⟩ hq e
        simp only at e
        subst e
        exact h8 d' ⟨i, hq⟩

/-- `Merge` succeeds as soon as the corresponding segments can be merged, the resulting segments follow each other and the extra segments
of the source, if any, are not all empty. -/
theorem merge_isSome {h : Hermite T D H E} {tr tj : Trajectory T D H E} (h0 : Inv tr) (hj : Inv tj) {c : List (Seg T D H E)}
    (hc : combine h tr.segs tj.segs = some c) (hchain : Chain c)
    (hextra : tr.segs.length < tj.segs.length → ∃ m p, tr.segs.length ≤ m ∧ hd tj.segs m = some p) :
    ∃ r, tr.merge h tj = some r ∧ r.segs = c := by
  have hm : MInv tr.map tr 0 := by
    refine ⟨h0.canon.sorted, ?_⟩
    intro t j
    simp
  obtain ⟨r, hr, hcr⟩ := mergeLoop_isSome h0 hj hextra tj.segs tr 0 c (Nat.zero_le _) (by simp) hm rfl h0.segs (fun _ _ => rfl)
    (by simpa using hc)
  obtain ⟨_, c', hc', hsegs⟩ := mergeLoop_segs tj.segs tr r 0 (Nat.zero_le _) h0.canon.sorted hr
  simp only [List.drop_zero, List.take_zero, List.nil_append] at hc' hsegs
  rw [hc] at hc'
  simp only [Option.some.injEq] at hc'
  subst hc'
  have hI : Inv r := ⟨by rw [hsegs]; exact (combine_spec _ _ _ h0.segs hj.segs hc).1, by rw [hsegs]; exact hchain, hcr⟩
  refine ⟨r, ?_, hsegs⟩
  unfold Trajectory.merge
  simp only [hr, Option.bind_eq_bind, Option.bind_some]
  exact check_of_inv hI

end Principia.DiscreteTrajectory
