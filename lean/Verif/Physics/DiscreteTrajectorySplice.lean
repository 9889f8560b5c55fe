import Verif.Physics.DiscreteTrajectoryForget

/-!
# `DetachSegments` and `AttachSegments`
-/

set_option linter.unusedSimpArgs false
set_option linter.unusedVariables false
set_option linter.unusedSectionVars false

namespace Principia.DiscreteTrajectory

open Principia.SortedMap

variable {T D H E : Type} [LinearOrder T] [DecidableEq D] [AddCommGroup E] [LinearOrder E]

theorem frontFrom_some {segs : List (Seg T D H E)} {i : Nat} {p : T × D} (h : frontFrom segs i = some p) :
    ∃ m, i ≤ m ∧ hd segs m = some p ∧ ∀ k, i ≤ k → k < m → hd segs k = none := by
  unfold frontFrom at h
  cases hf : (segs.drop i).find? fun s => !s.isEmpty with
  | none => simp [hf] at h
  | some s =>
    rw [hf] at h
    simp only [Option.bind_some] at h
    obtain ⟨h1, m, hm, e, h2⟩ := List.find?_eq_some_iff_getElem.1 hf
    have hg : (segs.drop i)[m]? = some s := by rw [List.getElem?_eq_getElem hm, e]
    rw [List.getElem?_drop] at hg
    refine ⟨i + m, by omega, by rw [hd_of_getElem? hg]; exact h, ?_⟩
    intro k hik hkm
    have hk : k - i < m := by omega
    have h3 := h2 (k - i) hk
    simp only [Bool.not_not] at h3
    have hg' : segs[k]? = some (segs.drop i)[k - i] := by
      rw [← List.getElem?_eq_getElem (by omega : k - i < (segs.drop i).length), List.getElem?_drop]
      congr 1; omega
    rw [hd_eq_none_iff hg']
    exact isEmpty_iff.1 h3

theorem frontFrom_isSome {segs : List (Seg T D H E)} {i m : Nat} {p : T × D} (him : i ≤ m) (h : hd segs m = some p) :
    ∃ q, frontFrom segs i = some q := by
  unfold frontFrom
  have hm := hd_lt_length h
  have hg : segs[m]? = some segs[m] := List.getElem?_eq_getElem hm
  have hne : (segs[m]).timeline ≠ [] := by
    intro e
    rw [(hd_eq_none_iff hg).2 e] at h
    simp at h
  cases hf : (segs.drop i).find? fun s => !s.isEmpty with
  | none =>
    have hmem : segs[m] ∈ segs.drop i := by
      rw [List.mem_iff_getElem?]
      exact ⟨m - i, by rw [List.getElem?_drop, show i + (m - i) = m by omega]; exact hg⟩
    have := List.find?_eq_none.1 hf _ hmem
    rw [isEmpty_false_iff.2 hne] at this
    simp at this
  | some s =>
    have := List.find?_some hf
    simp only [Bool.not_eq_true'] at this
    have h1 := isEmpty_false_iff.1 this
    cases htl : s.timeline with
    | nil => exact absurd htl h1
    | cons a l => exact ⟨point a, by simp [htl]⟩

theorem sorted_foldl_insertOrAssign {m : List (T × Nat)} (hm : Sorted m) (es : List (T × Nat)) (f : Nat → Nat) :
    Sorted (es.foldl (fun m e => insertOrAssign m e.1 (f e.2)) m) := by
  induction es generalizing m with
  | nil => exact hm
  | cons e es ih => exact ih (sorted_insertOrAssign hm _ _)

theorem mem_foldl_insertOrAssign {m : List (T × Nat)} (hm : Sorted m) {es : List (T × Nat)} (hes : Sorted es) (f : Nat → Nat) (a : T × Nat) :
    a ∈ es.foldl (fun m e => insertOrAssign m e.1 (f e.2)) m ↔
      (∃ e ∈ es, a = (e.1, f e.2)) ∨ (a ∈ m ∧ ∀ e ∈ es, e.1 ≠ a.1) := by
  induction es generalizing m with
  | nil => simp
  | cons e es ih =>
    have hc := List.pairwise_cons.1 hes
    simp only [List.foldl_cons]
    rw [ih (sorted_insertOrAssign hm _ _) hc.2, mem_insertOrAssign hm]
    simp only [List.mem_cons]
    constructor
    · rintro (⟨x, hx, e1⟩ | ⟨h1 | ⟨h1, h2⟩, h3⟩)
      · exact Or.inl ⟨x, Or.inr hx, e1⟩
      · exact Or.inl ⟨e, Or.inl rfl, h1⟩
      · refine Or.inr ⟨h1, ?_⟩
        rintro x (rfl | hx)
        · exact fun e => h2 e.symm
        · exact h3 x hx
    · rintro (⟨x, hx | hx, e1⟩ | ⟨h1, h2⟩)
      · subst hx
        refine Or.inr ⟨Or.inl e1, ?_⟩
        intro y hy
        rw [e1]
        exact (hc.1 y hy).ne'
      · exact Or.inl ⟨x, hx, e1⟩
      · exact Or.inr ⟨Or.inr ⟨h1, fun e' => h2 e (Or.inl rfl) e'.symm⟩, fun x hx => h2 x (Or.inr hx)⟩

/-- `FindSegment` at a time where a segment starts. -/
theorem findSegment_at {tr : Trajectory T D H E} (h : Inv tr) {t : T} {i : Nat} (hi : tm tr.segs i = some t) :
    findSegment tr.map t = some (lowerBound tr.map t) := by
  cases hf : findSegment tr.map t with
  | none => exact absurd ((findSegment_none h).1 hf i t hi) (lt_irrefl _)
  | some leit =>
    obtain ⟨t0, j, _, _, hlb, hle, _, hmax, _⟩ := findSegment_spec h hf
    have e : t0 = t := le_antisymm hle (hmax i t hi (le_refl t))
    rw [hlb, e]

/-! ## `DetachSegments` -/

theorem detachSegments_spec {tr : Trajectory T D H E} (hinv : Inv tr) {k m : Nat} {p : T × D} (hkm : k ≤ m) (hm : hd tr.segs m = some p) :
    ∃ a b, tr.detachSegments k = some (a, b) ∧ Inv a ∧ Inv b ∧ a.segs = tr.segs.take k ∧ b.segs = tr.segs.drop k := by
  obtain ⟨q, hq⟩ := frontFrom_isSome (segs := tr.segs.drop k) (i := 0) (m := m - k) (p := p) (Nat.zero_le _)
    (by rw [hd_drop, show k + (m - k) = m by omega]; exact hm)
  obtain ⟨m', _, hm', hbefore⟩ := frontFrom_some hq
  rw [hd_drop] at hm'
  have hb' : ∀ j, k ≤ j → j < k + m' → hd tr.segs j = none := by
    intro j h1 h2
    have := hbefore (j - k) (Nat.zero_le _) (by omega)
    rw [hd_drop, show k + (j - k) = j by omega] at this
    exact this
  have htm := tm_of_hd hm'
  have hlen := tm_lt_length htm
  have hfs := findSegment_at hinv htm
  unfold Trajectory.detachSegments adjustAfterSplicing
  simp only [hq, Option.bind_eq_bind, Option.bind_some, hfs, Option.getD_some]
  -- The detached trajectory.
  have hdsorted : Sorted (tr.map.drop (lowerBound tr.map q.1)) := hinv.canon.sorted.sublist (List.drop_sublist _ _)
  have hb : Inv (⟨tr.segs.drop k, (tr.map.drop (lowerBound tr.map q.1)).foldl
      (fun m e => insertOrAssign m e.1 (e.2 - k)) []⟩ : Trajectory T D H E) := by
    refine ⟨segInv_drop hinv.segs k, chain_drop hinv.chain k, ⟨sorted_foldl_insertOrAssign sorted_nil _ (fun j => j - k), ?_⟩⟩
    intro u i
    simp only
    rw [mem_foldl_insertOrAssign sorted_nil hdsorted (fun j => j - k)]
    simp only [List.not_mem_nil, false_and, or_false, mem_drop_lowerBound hinv.canon.sorted]
    constructor
    · rintro ⟨⟨u', j⟩, ⟨h1, h2⟩, e⟩
      simp only [Prod.mk.injEq] at e
      obtain ⟨rfl, rfl⟩ := e
      simp only at h2
      rw [hinv.canon.mem] at h1
      have hj : k + m' ≤ j := by
        by_contra hc
        have h3 := mono_tm hinv.segs hinv.chain (not_le.1 hc).le h1.1 htm
        have e : u = q.1 := le_antisymm h3 h2
        exact h1.2 (k + m') (not_le.1 hc) (by rw [htm, e])
      refine ⟨by rw [tm_drop, show k + (j - k) = j by omega]; exact h1.1, ?_⟩
      intro l hl
      rw [tm_drop]
      exact h1.2 _ (by omega)
    · rintro ⟨h1, h2⟩
      rw [tm_drop] at h1
      refine ⟨(u, k + i), ⟨?_, ?_⟩, by simp⟩
      · rw [hinv.canon.mem]
        refine ⟨h1, ?_⟩
        intro l hl
        have := h2 (l - k) (by omega)
        rw [tm_drop, show k + (l - k) = l by omega] at this
        exact this
      · have him : k + m' ≤ k + i := by
          by_contra hc
          have := hb' (k + i) (by omega) (by omega)
          simp [tm, this] at h1
        exact mono_tm hinv.segs hinv.chain him htm h1
  -- What remains.
  have htsorted : Sorted (tr.map.take (lowerBound tr.map q.1)) := hinv.canon.sorted.sublist (List.take_sublist _ _)
  have hentry : ∀ u j, (u, j) ∈ tr.map.take (lowerBound tr.map q.1) → IsLastAt tr.segs u j ∧ u < q.1 ∧ j < k := by
    intro u j hmem
    rw [mem_take_lowerBound hinv.canon.sorted, hinv.canon.mem] at hmem
    refine ⟨hmem.1, hmem.2, ?_⟩
    by_contra hc
    by_cases hj : j < k + m'
    · have := hb' j (by omega) hj
      have h1 := hmem.1.1
      simp [tm, this] at h1
    · exact absurd (mono_tm hinv.segs hinv.chain (not_lt.1 hj) htm hmem.1.1) (not_le.2 hmem.2)
  have hkl : (tr.segs.take k).length = k := by rw [List.length_take]; omega
  have hother : ∀ u j, IsLastAt (tr.segs.take k) u j → j + 1 < k → (u, j) ∈ tr.map.take (lowerBound tr.map q.1) ∧
      ∀ v, tm tr.segs (k - 1) = some v → u ≠ v := by
    intro u j hl hj
    have h1 := (isLastAt_iff (segInv_take hinv.segs k) (chain_take hinv.chain k)).1 hl
    rw [tm_take, if_pos (by omega), tm_take, if_pos hj] at h1
    have h2 := (isLastAt_iff hinv.segs hinv.chain).2 h1
    obtain ⟨d, hhd⟩ := hd_of_tm h1.1
    obtain ⟨r, hr, hle⟩ := mono_hd hinv.segs hinv.chain (Nat.le_succ j) (by omega) hhd
    have hlt : u < r.1 := lt_of_le_of_ne hle (fun e => h1.2 (by rw [tm_of_hd hr]; exact congrArg some e.symm))
    refine ⟨?_, ?_⟩
    · rw [mem_take_lowerBound hinv.canon.sorted, hinv.canon.mem]
      exact ⟨h2, hlt.trans_le (mono_tm hinv.segs hinv.chain (by omega) (tm_of_hd hr) htm)⟩
    · intro v hv e
      have := mono_tm hinv.segs hinv.chain (show j + 1 ≤ k - 1 by omega) (tm_of_hd hr) hv
      exact absurd (hlt.trans_le this) (by rw [e]; exact lt_irrefl _)
  cases hlastS : (tr.segs.take k).getLast? with
  | none =>
    have he : tr.segs.take k = [] := by simpa using hlastS
    have hk0 : k = 0 := by rw [he] at hkl; simpa using hkl.symm
    have hI : Inv ({ segs := tr.segs.take k, map := tr.map.take (lowerBound tr.map q.1) } : Trajectory T D H E) := by
      refine ⟨segInv_take hinv.segs k, chain_take hinv.chain k, canon_of htsorted ?_ ?_⟩
      · intro u j hmem
        have := (hentry u j hmem).2.2
        omega
      · rintro u j ⟨h1, _⟩
        have := tm_lt_length h1
        simp only at this
        omega
    simp only [check_of_inv hI, Option.bind_some]
    exact ⟨_, _, rfl, hI, hb, rfl, rfl⟩
  | some lastSegment =>
    simp only
    obtain ⟨hg, hpos⟩ := getLast?_take hlastS
    rw [hkl] at hg hpos
    cases hh : lastSegment.timeline.head? with
    | none =>
      have hnone : tm tr.segs (k - 1) = none := by unfold tm; rw [hd_of_getElem? hg, hh]; rfl
      have hI : Inv ({ segs := tr.segs.take k, map := tr.map.take (lowerBound tr.map q.1) } : Trajectory T D H E) := by
        refine ⟨segInv_take hinv.segs k, chain_take hinv.chain k, canon_of htsorted ?_ ?_⟩
        · intro u j hmem
          obtain ⟨h1, _, h3⟩ := hentry u j hmem
          simp only
          rw [tm_take, if_pos h3]; exact h1.1
        · intro u j hl
          simp only at hl
          have h1 := tm_lt_length hl.1
          rw [hkl] at h1
          by_cases hj : j + 1 < k
          · exact (hother u j hl hj).1
          · exfalso
            have e : j = k - 1 := by omega
            have := hl.1
            rw [tm_take, if_pos h1, e, hnone] at this
            simp at this
      simp only [check_of_inv hI, Option.bind_some]
      exact ⟨_, _, rfl, hI, hb, rfl, rfl⟩
    | some a =>
      simp only
      have htma : tm tr.segs (k - 1) = some a.1 := by unfold tm; rw [hd_of_getElem? hg, hh]; rfl
      have hI : Inv ({ segs := tr.segs.take k,
                       map := insertOrAssign (tr.map.take (lowerBound tr.map q.1)) a.1 ((tr.segs.take k).length - 1) } :
          Trajectory T D H E) := by
        refine ⟨segInv_take hinv.segs k, chain_take hinv.chain k, canon_of (sorted_insertOrAssign htsorted _ _) ?_ ?_⟩
        · intro u j hmem
          simp only
          rcases (mem_insertOrAssign htsorted).1 hmem with e | ⟨h1, _⟩
          · simp only [Prod.mk.injEq] at e
            rw [hkl] at e
            rw [e.1, e.2, tm_take, if_pos (by omega)]
            exact htma
          · obtain ⟨h2, _, h3⟩ := hentry u j h1
            rw [tm_take, if_pos h3]; exact h2.1
        · intro u j hl
          simp only at hl
          rw [mem_insertOrAssign htsorted]
          have h1 := tm_lt_length hl.1
          rw [hkl] at h1
          by_cases hj : j + 1 < k
          · obtain ⟨h2, h3⟩ := hother u j hl hj
            exact Or.inr ⟨h2, h3 _ htma⟩
          · left
            have e : j = k - 1 := by omega
            have h4 := hl.1
            rw [tm_take, if_pos h1, e, htma] at h4
            simp only [Option.some.injEq] at h4
            rw [hkl, h4, e]
      simp only [check_of_inv hI, Option.bind_some]
      exact ⟨_, _, rfl, hI, hb, rfl, rfl⟩

theorem detachSegments_isSome {tr : Trajectory T D H E} {k : Nat} {a b : Trajectory T D H E} (hs : tr.detachSegments k = some (a, b)) :
    ∃ m p, k ≤ m ∧ hd tr.segs m = some p := by
  unfold Trajectory.detachSegments adjustAfterSplicing at hs
  simp only [Option.bind_eq_bind] at hs
  cases hq : frontFrom (tr.segs.drop k) 0 with
  | none => simp [hq] at hs
  | some q =>
    obtain ⟨m', _, hm', _⟩ := frontFrom_some hq
    rw [hd_drop] at hm'
    exact ⟨k + m', q, by omega, hm'⟩

/-! ## `AttachSegments` -/

theorem attach_core {tr tj : Trajectory T D H E} (hinv : Inv tr) (hj : Inv tj) {p : T × D}
    (hl : lst tr.segs (tr.segs.length - 1) = some p) (h0 : hd tj.segs 0 = some p) :
    ∃ r, adjustAfterSplicing [] tj.map { tr with segs := tr.segs ++ tj.segs } tr.segs.length (fun i => i + tr.segs.length) = some r ∧
      Inv r.2 ∧ r.2.segs = tr.segs ++ tj.segs := by
  have hn := lst_lt_length hl
  have hfirst : hd (tr.segs ++ tj.segs) tr.segs.length = some p := by
    rw [hd_append, if_neg (lt_irrefl _), Nat.sub_self]; exact h0
  obtain ⟨q, hq⟩ := frontFrom_isSome (le_refl _) hfirst
  have hqp : q = p := by
    obtain ⟨m, hm, h1, h2⟩ := frontFrom_some hq
    rcases Nat.eq_or_lt_of_le hm with e | hlt
    · rw [← e, hfirst] at h1
      simp only [Option.some.injEq] at h1
      exact h1.symm
    · have := h2 tr.segs.length (le_refl _) hlt
      rw [hfirst] at this
      simp at this
  subst hqp
  have hfs := findSegment_at hj (tm_of_hd h0)
  have hlb : tj.map.drop (lowerBound tj.map q.1) = tj.map := by
    apply ext_mem (hj.canon.sorted.sublist (List.drop_sublist _ _)) hj.canon.sorted
    rintro ⟨u, i⟩
    rw [mem_drop_lowerBound hj.canon.sorted]
    constructor
    · exact fun h => h.1
    · intro h
      exact ⟨h, mono_tm hj.segs hj.chain (Nat.zero_le i) (tm_of_hd h0) ((hj.canon.mem u i).1 h).1⟩
  unfold adjustAfterSplicing
  simp only [hq, Option.bind_eq_bind, Option.bind_some, hfs, Option.getD_some, hlb, List.getLast?_nil]
  refine ⟨_, rfl, ?_, rfl⟩
  simp only
  have hsi := segInv_appendList hinv.segs hj.segs
  have hch : Chain (tr.segs ++ tj.segs) := by
    apply chain_append hinv.chain hj.chain
    intro _ x hx
    rw [hl] at hx
    simp only [Option.some.injEq] at hx
    rw [← hx]; exact h0
  refine ⟨hsi, hch, canon_of (sorted_foldl_insertOrAssign hinv.canon.sorted _ (fun i => i + tr.segs.length)) ?_ ?_⟩
  · intro u i hm
    simp only
    rcases (mem_foldl_insertOrAssign hinv.canon.sorted hj.canon.sorted (fun i => i + tr.segs.length) _).1 hm with ⟨⟨u', j⟩, h1, e⟩ | ⟨h1, _⟩
    · simp only [Prod.mk.injEq] at e
      obtain ⟨rfl, rfl⟩ := e
      rw [tm_append, if_neg (by omega), Nat.add_sub_cancel]
      exact ((hj.canon.mem u j).1 h1).1
    · have := ((hinv.canon.mem u i).1 h1).1
      rw [tm_append, if_pos (tm_lt_length this)]
      exact this
  · rintro u i ⟨h1, h2⟩
    simp only at h1 h2
    rw [mem_foldl_insertOrAssign hinv.canon.sorted hj.canon.sorted (fun i => i + tr.segs.length)]
    by_cases hi : i < tr.segs.length
    · right
      rw [tm_append, if_pos hi] at h1
      refine ⟨?_, ?_⟩
      · rw [hinv.canon.mem]
        refine ⟨h1, ?_⟩
        intro j hj' e
        apply h2 j hj'
        rw [tm_append, if_pos (tm_lt_length e)]; exact e
      · rintro ⟨u', j⟩ hm e
        simp only at e
        subst e
        apply h2 (tr.segs.length + j) (by omega)
        rw [tm_append, if_neg (by omega), Nat.add_sub_cancel_left]
        exact ((hj.canon.mem u' j).1 hm).1
    · left
      rw [tm_append, if_neg hi] at h1
      refine ⟨(u, i - tr.segs.length), ?_, by simp; omega⟩
      rw [hj.canon.mem]
      refine ⟨h1, ?_⟩
      intro j hj' e
      apply h2 (tr.segs.length + j) (by omega)
      rw [tm_append, if_neg (by omega), Nat.add_sub_cancel_left]
      exact e

theorem attach_empty {tj : Trajectory T D H E} (hj : Inv tj) (hne : tj.isEmpty = false) :
    ∃ r, adjustAfterSplicing [] tj.map { (Trajectory.uninitialized : Trajectory T D H E) with
      segs := (Trajectory.uninitialized : Trajectory T D H E).segs ++ tj.segs } 0 (fun i => i + 0) = some r ∧ r.2 = tj := by
  cases hm : tj.map with
  | nil => simp [Trajectory.isEmpty, hm] at hne
  | cons e m =>
    have hlast := (hj.canon.mem e.1 e.2).1 (by rw [hm]; exact List.mem_cons_self)
    obtain ⟨d, hd0⟩ := hd_of_tm hlast.1
    obtain ⟨q, hq⟩ := frontFrom_isSome (Nat.zero_le e.2) hd0
    obtain ⟨m', _, h1, h2⟩ := frontFrom_some hq
    have hfs := findSegment_at hj (tm_of_hd h1)
    have hlb : tj.map.drop (lowerBound tj.map q.1) = tj.map := by
      apply ext_mem (hj.canon.sorted.sublist (List.drop_sublist _ _)) hj.canon.sorted
      rintro ⟨u, i⟩
      rw [mem_drop_lowerBound hj.canon.sorted]
      constructor
      · exact fun h => h.1
      · intro h
        refine ⟨h, ?_⟩
        have h3 := ((hj.canon.mem u i).1 h).1
        refine mono_tm hj.segs hj.chain ?_ (tm_of_hd h1) h3
        by_contra hc
        have := h2 i (Nat.zero_le i) (not_le.1 hc)
        simp [tm, this] at h3
    unfold adjustAfterSplicing
    have hseg : (Trajectory.uninitialized : Trajectory T D H E).segs ++ tj.segs = tj.segs := rfl
    rw [← hm, hseg]
    simp only [hq, Option.bind_eq_bind, Option.bind_some, hfs, Option.getD_some, hlb, List.getLast?_nil]
    refine ⟨_, rfl, ?_⟩
    have e1 : tj.map.foldl (fun m e => insertOrAssign m e.1 (e.2 + 0)) (Trajectory.uninitialized : Trajectory T D H E).map = tj.map := by
      apply ext_mem (sorted_foldl_insertOrAssign sorted_nil _ (fun i => i + 0)) hj.canon.sorted
      intro a
      rw [mem_foldl_insertOrAssign sorted_nil hj.canon.sorted (fun i => i + 0)]
      simp [Trajectory.uninitialized]
    simp only [e1]

/-- The first point of a trajectory. -/
theorem front_spec {tr : Trajectory T D H E} (h : Inv tr) {f : T × D} (hf : tr.front = some f) :
    (∃ i, hd tr.segs i = some f) ∧ ∀ j q, pt tr.segs j q → f.1 ≤ q.1 := by
  unfold Trajectory.front at hf
  cases hm : tr.map with
  | nil => simp [hm] at hf
  | cons e m =>
    simp only [hm, List.head?_cons, Option.bind_eq_bind, Option.bind_some] at hf
    have hlast := (h.canon.mem e.1 e.2).1 (by rw [hm]; exact List.mem_cons_self)
    have hl := tm_lt_length hlast.1
    have hg : tr.segs[e.2]? = some tr.segs[e.2] := List.getElem?_eq_getElem hl
    simp only [hg, Option.bind_some] at hf
    have hh : hd tr.segs e.2 = some f := by
      rw [hd_of_getElem? hg]
      cases hx : (tr.segs[e.2]).timeline.head? with
      | none => simp [hx] at hf
      | some a => simpa [hx] using hf
    refine ⟨⟨e.2, hh⟩, ?_⟩
    intro j q hq
    obtain ⟨a, b, ha, _, hap, _⟩ := pt_bounds h.segs hq
    obtain ⟨k, _, hk⟩ := exists_last (tm_of_hd ha)
    have hmem := (h.canon.mem a.1 k).2 hk
    rw [hm] at hmem
    have e1 : f.1 = e.1 := by
      have := hlast.1
      rw [tm_of_hd hh] at this
      simpa using this
    have hsorted := h.canon.sorted
    rw [hm] at hsorted
    rcases List.mem_cons.1 hmem with h1 | h1
    · rw [e1, ← h1]; exact hap
    · have := (List.pairwise_cons.1 hsorted).1 _ h1
      rw [e1]
      exact this.le.trans hap

theorem front_isSome {tr : Trajectory T D H E} (h : Inv tr) (hne : tr.isEmpty = false) : ∃ f, tr.front = some f := by
  unfold Trajectory.front
  cases hm : tr.map with
  | nil => simp [Trajectory.isEmpty, hm] at hne
  | cons e m =>
    have hlast := (h.canon.mem e.1 e.2).1 (by rw [hm]; exact List.mem_cons_self)
    have hl := tm_lt_length hlast.1
    have hg : tr.segs[e.2]? = some tr.segs[e.2] := List.getElem?_eq_getElem hl
    obtain ⟨d, hhd⟩ := hd_of_tm hlast.1
    rw [hd_of_getElem? hg] at hhd
    simp only [List.head?_cons, Option.bind_eq_bind, Option.bind_some, hg]
    cases hx : (tr.segs[e.2]).timeline.head? with
    | none => simp [hx] at hhd
    | some a => exact ⟨point a, rfl⟩

/-- `front` is the first point of the first segment, if that segment is not empty. -/
theorem front_eq_hd {tr : Trajectory T D H E} (h : Inv tr) {f : T × D} (hf : hd tr.segs 0 = some f) : tr.front = some f := by
  have hne : tr.isEmpty = false := by
    cases he : tr.isEmpty with
    | false => rfl
    | true =>
      have := (isEmpty_iff_tm h.canon).1 he 0
      simp [tm, hf] at this
  obtain ⟨g, hg⟩ := front_isSome h hne
  obtain ⟨⟨i, hi⟩, hmin⟩ := front_spec h hg
  have h1 := hmin 0 f (pt_hd hf)
  have h2 := hd_zero_min h.segs h.chain (Nat.zero_le i) hf (pt_hd hi)
  rw [hg, pt_unique h.segs h.chain (pt_hd hi) (pt_hd hf) (le_antisymm h1 h2)]

theorem back_eq_lst (tr : Trajectory T D H E) : tr.back = lst tr.segs (tr.segs.length - 1) := by
  unfold Trajectory.back lst
  rw [List.getLast?_eq_getElem?]
  cases tr.segs[tr.segs.length - 1]? with
  | none => rfl
  | some s =>
    simp only [Option.bind_eq_bind, Option.bind_some]
    cases s.timeline.getLast? <;> rfl

theorem back_isSome {tr : Trajectory T D H E} (h : Inv tr) (hne : tr.isEmpty = false) : ∃ p, tr.back = some p := by
  rw [back_eq_lst]
  have : ¬ ∀ i, tm tr.segs i = none := by
    rw [← isEmpty_iff_tm h.canon, hne]; simp
  obtain ⟨i, hi⟩ := not_forall.1 this
  cases htm : tm tr.segs i with
  | none => exact absurd htm hi
  | some t =>
    obtain ⟨d, hhd⟩ := hd_of_tm htm
    have hl := tm_lt_length htm
    obtain ⟨q, hq, _⟩ := mono_hd h.segs h.chain (show i ≤ tr.segs.length - 1 by omega) (by omega) hhd
    obtain ⟨r, hr, _⟩ := lst_of_hd h.segs hq
    exact ⟨r, hr⟩

theorem back_max {tr : Trajectory T D H E} (h : Inv tr) {p : T × D} (hp : tr.back = some p) : ∀ j q, pt tr.segs j q → q.1 ≤ p.1 := by
  rw [back_eq_lst] at hp
  intro j q hq
  have hl := lst_lt_length hp
  have hj := pt_lt_length hq
  rcases Nat.eq_or_lt_of_le (show j ≤ tr.segs.length - 1 by omega) with e | hlt
  · subst e
    obtain ⟨a, b, _, hb, _, hqb, _⟩ := pt_bounds h.segs hq
    rw [hp] at hb
    simp only [Option.some.injEq] at hb
    rw [hb]; exact hqb
  · exact pt_mono h.segs h.chain hlt hq (pt_lst hp)

/-- Whether `AttachSegments` may be called: the attached trajectory is not empty; unless this trajectory is empty, the attached one starts
with a non-empty segment, and either at the last point of this one or, at a later time, with a segment of more than one point or with its
only segment. -/
def Attachable (tr tj : Trajectory T D H E) : Prop :=
  tj.isEmpty = false ∧ (tr.isEmpty = true ∨ ∃ p f, tr.back = some p ∧ hd tj.segs 0 = some f ∧
    (p = f ∨ (p.1 < f.1 ∧ tm tj.segs 1 ≠ some f.1)))

/-- The prepended trajectory. -/
theorem prependPoint_inv {h : Hermite T D H E} {tj : Trajectory T D H E} (hj : Inv tj) {p f : T × D} (hf : hd tj.segs 0 = some f)
    (hpf : p.1 < f.1) (h1 : tm tj.segs 1 ≠ some f.1) :
    ∃ s s' rest tj', tj.segs = s :: rest ∧ s.prepend h p.1 p.2 = some s' ∧ prependPoint h tj p.1 p.2 = some tj' ∧
      tj'.segs = s' :: rest ∧ Inv tj' := by
  cases hsegs : tj.segs with
  | nil => simp [hsegs, hd] at hf
  | cons s rest =>
    have hs := hj.segs s (by rw [hsegs]; exact List.mem_cons_self)
    have h0 : tm tj.segs 0 = some f.1 := tm_of_hd hf
    have hlast0 : IsLastAt tj.segs f.1 0 := (isLastAt_iff hj.segs hj.chain).2 ⟨h0, h1⟩
    have hmem := (hj.canon.mem f.1 0).2 hlast0
    cases hm : tj.map with
    | nil => rw [hm] at hmem; simp at hmem
    | cons leit map =>
      have hsorted := hj.canon.sorted
      rw [hm] at hsorted
      -- The first entry is that of the first segment.
      have hleit : leit = (f.1, 0) := by
        rw [hm] at hmem
        rcases List.mem_cons.1 hmem with e | h2
        · exact e.symm
        · exfalso
          have h3 := (List.pairwise_cons.1 hsorted).1 _ h2
          have h4 := (hj.canon.mem leit.1 leit.2).1 (by rw [hm]; exact List.mem_cons_self)
          exact absurd (mono_tm hj.segs hj.chain (Nat.zero_le _) h0 h4.1) (not_le.2 h3)
      subst hleit
      have hpts : ∀ q ∈ s.points, p.1 < q.1 := by
        intro q hq
        refine hpf.trans_le ?_
        refine hd_zero_min hj.segs hj.chain (le_refl 0) hf ?_
        exact ⟨s, by rw [hsegs]; rfl, hq⟩
      obtain ⟨s', hs'⟩ := prepend_isSome (h := h) (d := p.2) hs hpts
      obtain ⟨hs'i, hp', _⟩ := prepend_spec hs hs'
      have hne : s.timeline ≠ [] := by
        intro e
        rw [hsegs] at hf
        simp [hd, e] at hf
      have htm0 : hd (s' :: rest) 0 = some p := by
        have : (s'.timeline.head?).map point = s'.points.head? := by unfold Seg.points; rw [List.head?_map]
        simp only [hd, List.getElem?_cons_zero, Option.bind_some, this, hp', List.head?_cons]
      have hlst0 : lst (s' :: rest) 0 = lst (s :: rest) 0 := by
        have e1 : (s'.timeline.getLast?).map point = s'.points.getLast? := by unfold Seg.points; rw [List.getLast?_map]
        have e2 : (s.timeline.getLast?).map point = s.points.getLast? := by unfold Seg.points; rw [List.getLast?_map]
        simp only [lst, List.getElem?_cons_zero, Option.bind_some]
        rw [e1, e2, hp']
        have hne' : s.points ≠ [] := by unfold Seg.points; simpa using hne
        cases hsp : s.points with
        | nil => exact absurd hsp hne'
        | cons a l => rfl
      have hhd1 : ∀ i, hd (s' :: rest) (i + 1) = hd (s :: rest) (i + 1) := fun i => rfl
      have hlst1 : ∀ i, lst (s' :: rest) (i + 1) = lst (s :: rest) (i + 1) := fun i => rfl
      have htm1 : ∀ i, tm (s' :: rest) (i + 1) = tm (s :: rest) (i + 1) := fun i => rfl
      have hmapsorted : Sorted map := (List.pairwise_cons.1 hsorted).2
      have hsi : ∀ x ∈ s' :: rest, SegInv x := by
        intro x hx
        rcases List.mem_cons.1 hx with rfl | hx
        · exact hs'i
        · exact hj.segs x (by rw [hsegs]; exact List.mem_cons_of_mem _ hx)
      have hchain := hj.chain
      rw [hsegs] at hchain
      have hch : Chain (s' :: rest) := by
        intro i hi x hx
        rw [hhd1]
        apply hchain i (by simpa using hi)
        cases i with
        | zero => rw [← hlst0]; exact hx
        | succ i => exact hx
      have hgt : ∀ j u, tm (s :: rest) j = some u → p.1 < u := by
        intro j u hu
        rw [← hsegs] at hu
        exact hpf.trans_le (mono_tm hj.segs hj.chain (Nat.zero_le j) h0 hu)
      have hcm := hj.canon.mem
      rw [hsegs, hm] at hcm
      refine ⟨s, s', rest, { segs := s' :: rest, map := emplace map p.1 0 }, rfl, hs', ?_, rfl, hsi, hch, ?_⟩
      · unfold prependPoint
        simp [hsegs, hm, hs']
      · apply canon_of (sorted_emplace hmapsorted _ _)
        · intro u j hmem'
          simp only
          rcases mem_emplace.1 hmem' with h2 | ⟨h2, _⟩
          · have h3 := (hcm u j).1 (List.mem_cons_of_mem _ h2)
            cases j with
            | zero =>
              exfalso
              have h4 := (List.pairwise_cons.1 hsorted).1 _ h2
              have h5 := h3.1
              rw [← hsegs, h0] at h5
              simp only [Option.some.injEq] at h5
              rw [h5] at h4
              exact lt_irrefl _ h4
            | succ j => rw [htm1]; exact h3.1
          · simp only [Prod.mk.injEq] at h2
            rw [h2.1, h2.2]
            exact tm_of_hd htm0
        · rintro u j ⟨h2, h3⟩
          simp only at h2 h3
          rw [mem_emplace]
          cases j with
          | zero =>
            right
            rw [tm_of_hd htm0] at h2
            simp only [Option.some.injEq] at h2
            refine ⟨by rw [h2], ?_⟩
            rintro ⟨v, k⟩ hv
            have := (hcm v k).1 (List.mem_cons_of_mem _ hv)
            exact (hgt k v this.1).ne'
          | succ j =>
            left
            rw [htm1] at h2
            have h4 : IsLastAt (s :: rest) u (j + 1) := by
              refine ⟨h2, ?_⟩
              intro k hk
              cases k with
              | zero => omega
              | succ k => exact h3 (k + 1) hk
            have h5 := (hcm u (j + 1)).2 h4
            rcases List.mem_cons.1 h5 with e | h5
            · simp at e
            · exact h5

/-- `AttachSegments` on trajectories that may be attached. -/
theorem attachSegments_spec {h : Hermite T D H E} {tr tj : Trajectory T D H E} (hinv : Inv tr) (hj : Inv tj) (ha : Attachable tr tj) :
    ∃ r, tr.attachSegments h tj = some (r, if tr.isEmpty then 0 else tr.segs.length) ∧ Inv r ∧
      ((tr.isEmpty = true ∧ r = tj) ∨
       (tr.isEmpty = false ∧ (∃ p, tr.back = some p ∧ hd tj.segs 0 = some p) ∧ r.segs = tr.segs ++ tj.segs) ∨
       (tr.isEmpty = false ∧ ∃ p f s s' rest, tr.back = some p ∧ hd tj.segs 0 = some f ∧ p.1 < f.1 ∧ tj.segs = s :: rest ∧
         s.prepend h p.1 p.2 = some s' ∧ r.segs = tr.segs ++ s' :: rest)) := by
  obtain ⟨hne, hcase⟩ := ha
  unfold Trajectory.attachSegments
  rw [hne]
  simp only [Bool.false_eq_true, if_false]
  cases he : tr.isEmpty with
  | true =>
    simp only [if_true, Option.bind_eq_bind, Option.bind_some]
    obtain ⟨r, hr, hrs⟩ := attach_empty hj hne
    have e0 : (Trajectory.uninitialized : Trajectory T D H E).segs.length = 0 := rfl
    rw [e0, hr]
    simp only [Option.bind_some]
    rw [hrs, check_of_inv hj]
    exact ⟨tj, by simp, hj, Or.inl ⟨by simp, rfl⟩⟩
  | false =>
    rcases hcase with h1 | ⟨p, f, hback, hf, h2⟩
    · rw [he] at h1; simp at h1
    · simp only [Bool.false_eq_true, if_false, hback, front_eq_hd hj hf, Option.bind_eq_bind, Option.bind_some]
      rw [back_eq_lst] at hback
      rcases h2 with rfl | ⟨hlt, h3⟩
      · simp only [if_true, Option.bind_some]
        obtain ⟨r, hr, hI, hseg⟩ := attach_core hinv hj hback hf
        simp only [hr, Option.bind_some]
        rw [check_of_inv hI]
        exact ⟨r.2, by simp, hI, Or.inr (Or.inl ⟨by simp, ⟨p, rfl, hf⟩, hseg⟩)⟩
      · rw [if_neg hlt.ne, if_pos hlt]
        obtain ⟨s, s', rest, tj', hsegs, hs', htj', hseg', hI'⟩ := prependPoint_inv (h := h) hj hf hlt h3
        simp only [htj', Option.bind_some]
        obtain ⟨hs'i, hp', _⟩ := prepend_spec (hj.segs s (by rw [hsegs]; exact List.mem_cons_self)) hs'
        have h0' : hd tj'.segs 0 = some p := by
          have e1 : (s'.timeline.head?).map point = s'.points.head? := by unfold Seg.points; rw [List.head?_map]
          rw [hseg']
          simp only [hd, List.getElem?_cons_zero, Option.bind_some, e1, hp', List.head?_cons]
        obtain ⟨r, hr, hI, hseg⟩ := attach_core hinv hI' hback h0'
        simp only [hr, Option.bind_some]
        rw [check_of_inv hI]
        exact ⟨r.2, by simp, hI, Or.inr (Or.inr ⟨by simp, p, f, s, s', rest, rfl, hf, hlt, hsegs, hs', by rw [hseg, hseg']⟩)⟩

end Principia.DiscreteTrajectory
