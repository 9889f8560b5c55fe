import Verif.Physics.DiscreteTrajectorySegmentLemmas

/-!
# The operations on trajectories preserve consistency
-/

set_option linter.unusedSimpArgs false
set_option linter.unusedVariables false
set_option linter.unusedSectionVars false

namespace Principia.DiscreteTrajectory

open Principia.SortedMap

variable {T D H E : Type} [LinearOrder T] [DecidableEq D] [AddCommGroup E] [LinearOrder E]

/-! ## Access to lists of segments -/

theorem hd_append (a b : List (Seg T D H E)) (i : Nat) : hd (a ++ b) i = if i < a.length then hd a i else hd b (i - a.length) := by
  unfold hd
  rw [List.getElem?_append]
  split <;> rfl

theorem lst_append (a b : List (Seg T D H E)) (i : Nat) : lst (a ++ b) i = if i < a.length then lst a i else lst b (i - a.length) := by
  unfold lst
  rw [List.getElem?_append]
  split <;> rfl

theorem tm_append (a b : List (Seg T D H E)) (i : Nat) : tm (a ++ b) i = if i < a.length then tm a i else tm b (i - a.length) := by
  unfold tm
  rw [hd_append]
  split <;> rfl

theorem hd_take (a : List (Seg T D H E)) (k i : Nat) : hd (a.take k) i = if i < k then hd a i else none := by
  unfold hd
  rw [List.getElem?_take]
  split <;> rfl

theorem lst_take (a : List (Seg T D H E)) (k i : Nat) : lst (a.take k) i = if i < k then lst a i else none := by
  unfold lst
  rw [List.getElem?_take]
  split <;> rfl

theorem tm_take (a : List (Seg T D H E)) (k i : Nat) : tm (a.take k) i = if i < k then tm a i else none := by
  unfold tm
  rw [hd_take]
  split <;> rfl

theorem hd_drop (a : List (Seg T D H E)) (k i : Nat) : hd (a.drop k) i = hd a (k + i) := by
  unfold hd
  rw [List.getElem?_drop]

theorem lst_drop (a : List (Seg T D H E)) (k i : Nat) : lst (a.drop k) i = lst a (k + i) := by
  unfold lst
  rw [List.getElem?_drop]

theorem tm_drop (a : List (Seg T D H E)) (k i : Nat) : tm (a.drop k) i = tm a (k + i) := by
  unfold tm
  rw [hd_drop]

theorem hd_set (a : List (Seg T D H E)) (k : Nat) (s : Seg T D H E) (i : Nat) :
    hd (a.set k s) i = if k = i then (if k < a.length then s.timeline.head?.map point else none) else hd a i := by
  unfold hd
  rw [List.getElem?_set]
  split
  · split <;> rfl
  · rfl

theorem lst_set (a : List (Seg T D H E)) (k : Nat) (s : Seg T D H E) (i : Nat) :
    lst (a.set k s) i = if k = i then (if k < a.length then s.timeline.getLast?.map point else none) else lst a i := by
  unfold lst
  rw [List.getElem?_set]
  split
  · split <;> rfl
  · rfl

theorem chain_take {a : List (Seg T D H E)} (h : Chain a) (k : Nat) : Chain (a.take k) := by
  intro i hi p hp
  rw [List.length_take] at hi
  rw [lst_take, if_pos (by omega)] at hp
  rw [hd_take, if_pos (by omega)]
  exact h i (by omega) p hp

theorem chain_drop {a : List (Seg T D H E)} (h : Chain a) (k : Nat) : Chain (a.drop k) := by
  intro i hi p hp
  rw [List.length_drop] at hi
  rw [lst_drop] at hp
  rw [hd_drop]
  exact h (k + i) (by omega) p hp

theorem chain_append {a b : List (Seg T D H E)} (ha : Chain a) (hb : Chain b)
    (hab : b ≠ [] → ∀ p, lst a (a.length - 1) = some p → hd b 0 = some p) : Chain (a ++ b) := by
  intro i hi p hp
  rw [List.length_append] at hi
  rw [lst_append] at hp
  rw [hd_append]
  split at hp
  · rename_i h1
    split
    · exact ha i (by assumption) p hp
    · rename_i h2
      have e : i = a.length - 1 := by omega
      rw [show i + 1 - a.length = 0 by omega]
      refine hab ?_ p (by rw [← e]; exact hp)
      intro e; simp [e] at hi; omega
  · rename_i h1
    rw [if_neg (by omega), show i + 1 - a.length = i - a.length + 1 by omega]
    exact hb _ (by omega) p hp

theorem segInv_take {a : List (Seg T D H E)} (h : ∀ s ∈ a, SegInv s) (k : Nat) : ∀ s ∈ a.take k, SegInv s :=
  fun s hs => h s (List.mem_of_mem_take hs)

theorem segInv_drop {a : List (Seg T D H E)} (h : ∀ s ∈ a, SegInv s) (k : Nat) : ∀ s ∈ a.drop k, SegInv s :=
  fun s hs => h s (List.mem_of_mem_drop hs)

theorem segInv_appendList {a b : List (Seg T D H E)} (ha : ∀ s ∈ a, SegInv s) (hb : ∀ s ∈ b, SegInv s) : ∀ s ∈ a ++ b, SegInv s :=
  fun s hs => (List.mem_append.1 hs).elim (ha s) (hb s)

theorem segInv_set {a : List (Seg T D H E)} (h : ∀ s ∈ a, SegInv s) (k : Nat) {s : Seg T D H E} (hs : SegInv s) :
    ∀ x ∈ a.set k s, SegInv x := by
  intro x hx
  rcases List.mem_or_eq_of_mem_set hx with h1 | h1
  · exact h x h1
  · rw [h1]; exact hs

theorem inv_of_check {tr tr' : Trajectory T D H E} (hs : ∀ s ∈ tr.segs, SegInv s) (hm : Sorted tr.map) (h : check tr = some tr') :
    tr' = tr ∧ Inv tr' := by
  obtain ⟨rfl, hc⟩ := check_eq_some.1 h
  exact ⟨rfl, inv_of_consistencyStatus hs hm hc⟩

/-! ## Maps -/

theorem map_eq_nil_iff {tr : Trajectory T D H E} (h : Canon tr) : tr.map = [] ↔ ∀ i, tm tr.segs i = none := by
  constructor
  · intro e i
    cases htm : tm tr.segs i with
    | none => rfl
    | some t =>
      obtain ⟨j, _, hj⟩ := exists_last htm
      have := (h.mem t j).2 hj
      rw [e] at this; simp at this
  · intro hn
    rw [List.eq_nil_iff_forall_not_mem]
    rintro ⟨t, i⟩ hm
    have := ((h.mem t i).1 hm).1
    rw [hn i] at this; simp at this

theorem isEmpty_iff_tm {tr : Trajectory T D H E} (h : Canon tr) : tr.isEmpty = true ↔ ∀ i, tm tr.segs i = none := by
  unfold Trajectory.isEmpty
  rw [List.isEmpty_iff, map_eq_nil_iff h]

theorem tm_eq_none_iff_getElem {segs : List (Seg T D H E)} {i : Nat} : tm segs i = none ↔ ∀ s, segs[i]? = some s → s.timeline = [] := by
  cases hg : segs[i]? with
  | none => simp [tm, hd, hg]
  | some s => simp [tm_eq_none_iff hg]

/-- A trajectory whose map is empty has no points. -/
theorem all_empty {tr : Trajectory T D H E} (h : Canon tr) (hm : tr.map = []) : ∀ s ∈ tr.segs, s.timeline = [] := by
  intro s hs
  obtain ⟨i, hi, rfl⟩ := List.mem_iff_getElem.1 hs
  exact tm_eq_none_iff_getElem.1 ((map_eq_nil_iff h).1 hm i) _ (List.getElem?_eq_getElem hi)

/-- `FindSegment` finds the last segment that starts at or before the time. -/
theorem findSegment_spec {tr : Trajectory T D H E} (h : Inv tr) {t : T} {leit : Nat} (hf : findSegment tr.map t = some leit) :
    ∃ t0 i, tr.map[leit]? = some (t0, i) ∧ leit + 1 = upperBound tr.map t ∧ leit = lowerBound tr.map t0 ∧ t0 ≤ t ∧
      IsLastAt tr.segs t0 i ∧ (∀ j u, tm tr.segs j = some u → u ≤ t → u ≤ t0) ∧ ∀ j u, i < j → tm tr.segs j = some u → t < u := by
  unfold findSegment at hf
  simp only at hf
  split at hf
  · simp at hf
  · rename_i h0
    simp only [Option.some.injEq] at hf
    subst hf
    obtain ⟨⟨t0, i⟩, hg, hmem, hle, hmax, hlb⟩ := upperBound_pred h.canon.sorted h0
    have hl := (h.canon.mem t0 i).1 hmem
    have hmax' : ∀ j u, tm tr.segs j = some u → u ≤ t → u ≤ t0 := by
      intro j u hj hu
      obtain ⟨k, _, hk⟩ := exists_last hj
      exact hmax _ ((h.canon.mem u k).2 hk) hu
    refine ⟨t0, i, hg, by omega, hlb, hle, hl, hmax', ?_⟩
    intro j u hij hu
    by_contra hc
    have h1 := hmax' j u hu (not_lt.1 hc)
    have h2 := mono_tm h.segs h.chain hij.le hl.1 hu
    have e : u = t0 := le_antisymm h1 h2
    subst e
    exact hl.2 j hij hu

theorem findSegment_none {tr : Trajectory T D H E} (h : Inv tr) {t : T} :
    findSegment tr.map t = none ↔ ∀ j u, tm tr.segs j = some u → t < u := by
  unfold findSegment
  simp only [ite_eq_left_iff, reduceCtorEq, imp_false, not_not]
  rw [upperBound_eq_zero h.canon.sorted]
  constructor
  · intro h1 j u hj
    obtain ⟨k, _, hk⟩ := exists_last hj
    exact h1 _ ((h.canon.mem u k).2 hk)
  · rintro h1 ⟨u, j⟩ hm
    exact h1 j u ((h.canon.mem u j).1 hm).1

/-! ## The constructor and `clear` -/

theorem inv_of_empty {s : Seg T D H E} (h : s.timeline = []) : Inv { segs := [s], map := [] } := by
  refine ⟨?_, ?_, ⟨sorted_nil, ?_⟩⟩
  · intro x hx
    simp at hx; subst hx
    exact ⟨by rw [h]; exact sorted_nil, by simp [h]⟩
  · intro i hi; simp at hi
  · intro t i
    simp only [List.not_mem_nil, false_iff]
    rintro ⟨h1, _⟩
    have hi := tm_lt_length h1
    simp at hi; subst hi
    simp [tm, hd, h] at h1

theorem inv_new : Inv (Trajectory.new : Trajectory T D H E) := inv_of_empty rfl

theorem inv_clear {tr tr' : Trajectory T D H E} (hs : tr.clear = some tr') : Inv tr' := by
  unfold Trajectory.clear at hs
  split at hs
  · simp at hs
  · simp only [Option.some.injEq] at hs
    subst hs
    exact inv_of_empty rfl

theorem clear_isSome {tr : Trajectory T D H E} : tr.clear.isSome = true ↔ tr.segs ≠ [] := by
  unfold Trajectory.clear
  cases tr.segs <;> simp

theorem inv_uninitialized : Inv (Trajectory.uninitialized : Trajectory T D H E) := by
  refine ⟨by simp [Trajectory.uninitialized], fun i hi => by simp [Trajectory.uninitialized] at hi, ⟨sorted_nil, ?_⟩⟩
  intro t i
  simp [Trajectory.uninitialized, IsLastAt, tm, hd]

/-! ## `NewSegment` -/

theorem inv_newSegment {h : Hermite T D H E} {tr tr' : Trajectory T D H E} (hinv : Inv tr) (hs : tr.newSegment h = some tr') :
    Inv tr' ∧ ∃ s, tr'.segs = tr.segs ++ [s] ∧ s.points = (lst tr.segs (tr.segs.length - 1)).toList ∧ s.tolerance = none ∧
      s.error = 0 := by
  unfold Trajectory.newSegment at hs
  cases hl : tr.segs.getLast? with
  | none => simp [hl] at hs
  | some lastSegment =>
    simp only [hl] at hs
    have hg : tr.segs[tr.segs.length - 1]? = some lastSegment := by rw [← List.getLast?_eq_getElem?]; exact hl
    rw [lst_of_getElem? hg]
    cases hll : lastSegment.timeline.getLast? with
    | none =>
      simp only [hll] at hs
      split at hs
      · obtain ⟨rfl, hi⟩ := inv_of_check (tr := { tr with segs := tr.segs ++ [Seg.new] })
          (segInv_appendList hinv.segs (by simp only [List.mem_singleton]; rintro s rfl; exact segInv_new)) hinv.canon.sorted hs
        exact ⟨hi, Seg.new, rfl, rfl, rfl, rfl⟩
      · simp at hs
    | some last =>
      simp only [hll] at hs
      have e : (Seg.new : Seg T D H E).append h last.1 last.2.dof =
          some { (Seg.new : Seg T D H E) with timeline := [(last.1, { dof := last.2.dof, interpolation := none })] } := rfl
      have hsi := segInv_append segInv_new e
      simp only [e, Option.bind_eq_bind, Option.bind_some] at hs
      obtain ⟨rfl, hi⟩ := inv_of_check
        (segInv_appendList hinv.segs (by simp only [List.mem_singleton]; rintro s rfl; exact hsi))
        (sorted_insertOrAssign hinv.canon.sorted _ _) hs
      exact ⟨hi, _, rfl, rfl, rfl, rfl⟩

theorem newSegment_isSome {h : Hermite T D H E} {tr : Trajectory T D H E} (hinv : Inv tr) (hne : tr.segs ≠ []) :
    ∃ tr', tr.newSegment h = some tr' := by
  unfold Trajectory.newSegment
  cases hl : tr.segs.getLast? with
  | none => simp at hl; exact absurd hl hne
  | some lastSegment =>
    simp only
    have hlen : 0 < tr.segs.length := List.length_pos_iff.2 hne
    have hg : tr.segs[tr.segs.length - 1]? = some lastSegment := by rw [← List.getLast?_eq_getElem?]; exact hl
    cases hll : lastSegment.timeline.getLast? with
    | none =>
      simp only
      have he : lastSegment.timeline = [] := by simpa using hll
      have hnone : ∀ i, tm tr.segs i = none := by
        intro i
        cases htm : tm tr.segs i with
        | none => rfl
        | some t =>
          obtain ⟨d, hd'⟩ := hd_of_tm htm
          obtain ⟨q, hq, _⟩ := mono_hd hinv.segs hinv.chain (show i ≤ tr.segs.length - 1 by have := tm_lt_length htm; omega) (by omega) hd'
          rw [(hd_eq_none_iff hg).2 he] at hq
          simp at hq
      have hm := (map_eq_nil_iff hinv.canon).2 hnone
      rw [hm]
      simp only [List.isEmpty_nil, if_true]
      refine ⟨_, check_of_inv ⟨?_, ?_, ⟨by simp only; exact sorted_nil, ?_⟩⟩⟩
      · exact segInv_appendList hinv.segs (by simp only [List.mem_singleton]; rintro s rfl; exact segInv_new)
      · apply chain_append hinv.chain
        · intro i hi; simp at hi
        · intro _ p hp
          rw [(lst_eq_none_iff hg).2 he] at hp
          simp at hp
      · intro t i
        simp only [List.not_mem_nil, false_iff]
        rintro ⟨h1, _⟩
        rw [tm_append] at h1
        split at h1
        · rw [hnone] at h1; exact absurd h1 (by simp)
        · have hi := tm_lt_length h1
          simp at hi
          rw [hi] at h1
          simp [tm, hd, Seg.new] at h1
    | some last =>
      simp only
      have e : (Seg.new : Seg T D H E).append h last.1 last.2.dof =
          some { (Seg.new : Seg T D H E) with timeline := [(last.1, { dof := last.2.dof, interpolation := none })] } := rfl
      have hsi := segInv_append segInv_new e
      simp only [e, Option.bind_eq_bind, Option.bind_some]
      generalize hseg : ({ (Seg.new : Seg T D H E) with timeline := [(last.1, { dof := last.2.dof, interpolation := none })] } : Seg T D H E) = s at *
      have hhd0 : hd [s] 0 = some (point last) := by rw [← hseg]; rfl
      have htm0 : tm [s] 0 = some last.1 := by rw [tm_of_hd hhd0]; rfl
      refine ⟨_, check_of_inv ⟨?_, ?_, ?_⟩⟩
      · exact segInv_appendList hinv.segs (by simp only [List.mem_singleton]; rintro s rfl; exact hsi)
      · apply chain_append hinv.chain
        · intro i hi; simp at hi
        · intro _ p hp
          rw [lst_of_getElem? hg, hll] at hp
          simp only [Option.map_some] at hp
          rw [← hp, hhd0]
      · apply canon_of (sorted_insertOrAssign hinv.canon.sorted _ _)
        · intro t i hm
          simp only
          rcases (mem_insertOrAssign hinv.canon.sorted).1 hm with e | ⟨h1, h2⟩
          · simp only [Prod.mk.injEq] at e
            rw [e.1, e.2, tm_append, if_neg (lt_irrefl _), Nat.sub_self]
            exact htm0
          · have := ((hinv.canon.mem t i).1 h1).1
            rw [tm_append, if_pos (tm_lt_length this)]
            exact this
        · rintro t i ⟨h1, h2⟩
          simp only at h1 h2
          rw [mem_insertOrAssign hinv.canon.sorted]
          by_cases hi : i < tr.segs.length
          · refine Or.inr ⟨?_, ?_⟩
            · rw [hinv.canon.mem]
              rw [tm_append, if_pos hi] at h1
              refine ⟨h1, ?_⟩
              intro j hj e
              apply h2 j hj
              rw [tm_append, if_pos (tm_lt_length e)]
              exact e
            · intro e
              simp only at e
              apply h2 tr.segs.length hi
              rw [tm_append, if_neg (lt_irrefl _), Nat.sub_self, htm0, e]
          · left
            have := tm_lt_length h1
            simp at this
            have hi' : i = tr.segs.length := by omega
            subst hi'
            rw [tm_append, if_neg (lt_irrefl _), Nat.sub_self, htm0] at h1
            simp only [Option.some.injEq] at h1
            rw [h1]

/-! ## `Append` -/

theorem canon_congr {tr tr' : Trajectory T D H E} (h : Canon tr) (e : tr'.map = tr.map) (ht : ∀ i, tm tr'.segs i = tm tr.segs i) :
    Canon tr' := by
  refine ⟨by rw [e]; exact h.sorted, ?_⟩
  intro t i
  rw [e, h.mem]
  unfold IsLastAt
  simp only [ht]

/-- The effect of `Append` on a trajectory: a point is appended to the last segment, except that the call is ignored if the time is that of
the first point of a segment. -/
theorem append_spec {h : Hermite T D H E} {tr tr' : Trajectory T D H E} (hinv : Inv tr) {t : T} {d : D}
    (hs : tr.append h t d = some tr') :
    Inv tr' ∧ ((tr'.segs = tr.segs ∧ ∃ i, tm tr.segs i = some t) ∨
      ∃ s s', tr.segs.getLast? = some s ∧ s.append h t d = some s' ∧ tr'.segs = tr.segs.set (tr.segs.length - 1) s' ∧
        (∀ x ∈ tr.segs, ∀ p ∈ x.points, p.1 < t)) := by
  unfold Trajectory.append at hs
  cases hm : tr.map with
  | nil =>
    simp only [hm] at hs
    have hall := all_empty hinv.canon hm
    cases hl : tr.segs.getLast? with
    | none => simp [hl] at hs
    | some s =>
      simp only [hl, Option.bind_eq_bind] at hs
      cases hap : s.append h t d with
      | none => simp [hap] at hs
      | some s' =>
        simp only [hap, Option.bind_some, Option.some.injEq] at hs
        have hsm : s ∈ tr.segs := List.mem_of_getLast? hl
        have hse := hall s hsm
        have hlen : 0 < tr.segs.length := List.length_pos_iff.2 (List.ne_nil_of_mem hsm)
        have hnone := (map_eq_nil_iff hinv.canon).1 hm
        have hlnone : ∀ i, lst tr.segs i = none := by
          intro i
          cases hli : lst tr.segs i with
          | none => rfl
          | some q =>
            obtain ⟨p, hp⟩ := hd_of_lst hli
            have := tm_of_hd hp
            rw [hnone] at this; simp at this
        have hhead := append_head hap
        rw [if_pos hse] at hhead
        subst hs
        have htm : ∀ i, tm (tr.segs.set (tr.segs.length - 1) s') i = if tr.segs.length - 1 = i then some t else none := by
          intro i
          unfold tm
          rw [hd_set]
          split
          · rw [if_pos (by omega), hhead]; rfl
          · have := hnone i
            unfold tm at this
            exact this
        refine ⟨⟨?_, ?_, ⟨?_, ?_⟩⟩, Or.inr ⟨s, s', rfl, hap, rfl, ?_⟩⟩
        · exact segInv_set hinv.segs _ (segInv_append (hinv.segs s hsm) hap)
        · intro i hi p hp
          simp only [List.length_set] at hi
          rw [lst_set, if_neg (by omega), hlnone] at hp
          simp at hp
        · simp [Sorted]
        · intro u i
          simp only [List.mem_singleton, Prod.mk.injEq, IsLastAt, htm]
          constructor
          · rintro ⟨rfl, rfl⟩
            refine ⟨by simp, ?_⟩
            intro j hj
            rw [if_neg (by omega)]; simp
          · rintro ⟨h1, _⟩
            split at h1
            · simp only [Option.some.injEq] at h1
              exact ⟨h1.symm, by omega⟩
            · simp at h1
        · intro x hx p hp
          rw [mem_points_iff] at hp
          rw [hall x hx] at hp
          simp at hp
  | cons e0 m0 =>
    simp only [hm] at hs
    rw [← hm] at hs
    cases hf : findSegment tr.map t with
    | none => simp [hf] at hs
    | some leit =>
      obtain ⟨t0, i, hg, _, _, hle, hlast, hmax, hafter⟩ := findSegment_spec hinv hf
      simp only [hf, hg, Option.bind_eq_bind, Option.bind_some] at hs
      have hil := tm_lt_length hlast.1
      have hgi : tr.segs[i]? = some tr.segs[i] := List.getElem?_eq_getElem hil
      have hsm : tr.segs[i] ∈ tr.segs := List.getElem_mem hil
      simp only [hgi, Option.bind_some] at hs
      split at hs
      · simp at hs
      · rename_i hemp
        have hne : (tr.segs[i]).timeline ≠ [] := by
          intro e; exact hemp (isEmpty_iff.2 e)
        cases hap : (tr.segs[i]).append h t d with
        | none => simp [hap] at hs
        | some s' =>
          simp only [hap, Option.bind_some, Option.some.injEq] at hs
          have hhead := append_head hap
          rw [if_neg hne] at hhead
          have hfront : ∀ j, hd (tr.segs.set i s') j = hd tr.segs j := by
            intro j
            rw [hd_set]
            split
            · rename_i e
              subst e
              first | rw [if_pos hil, hhead, hd_of_getElem? hgi] | rw [hhead, hd_of_getElem? hgi]
            · rfl
          have htm : ∀ j, tm (tr.segs.set i s') j = tm tr.segs j := fun j => by unfold tm; rw [hfront]
          have hsi := segInv_append (hinv.segs _ hsm) hap
          have case : s' = tr.segs[i] ∧ t0 = t ∨ ∃ last, (tr.segs[i]).timeline.getLast? = some last ∧ last.1 < t := by
            cases append_result hap with
            | first he => exact absurd he hne
            | ignored a ha e =>
              refine Or.inl ⟨rfl, ?_⟩
              have := hlast.1
              unfold tm at this
              rw [hd_of_getElem? hgi, ha] at this
              simp only [Option.map_some, Option.some.injEq] at this
              rw [← this, ← e]; rfl
            | pushed last hl hlt => exact Or.inr ⟨last, hl, hlt⟩
            | replaced last lower tol ii hl hlt => exact Or.inr ⟨last, hl, hlt⟩
          subst hs
          rcases case with ⟨rfl, rfl⟩ | ⟨last, hll, hlt⟩
          · have e : tr.segs.set i tr.segs[i] = tr.segs := by simp
            rw [e]
            exact ⟨⟨hinv.segs, hinv.chain, hinv.canon⟩, Or.inl ⟨rfl, i, hlast.1⟩⟩
          · -- The segment is the last one.
            have hilast : i + 1 = tr.segs.length := by
              by_contra hc
              have hlsti : lst tr.segs i = some (point last) := by rw [lst_of_getElem? hgi, hll]; rfl
              have := hinv.chain i (by omega) _ hlsti
              exact absurd (hafter (i + 1) _ (Nat.lt_succ_self i) (tm_of_hd this)) (not_lt.2 hlt.le)
            have hi1 : i = tr.segs.length - 1 := by omega
            refine ⟨⟨segInv_set hinv.segs _ hsi, ?_, canon_congr hinv.canon rfl htm⟩, Or.inr ⟨tr.segs[i], s', ?_, hap, ?_, ?_⟩⟩
            · intro j hj p hp
              simp only [List.length_set] at hj
              rw [lst_set, if_neg (by omega)] at hp
              rw [hfront]
              exact hinv.chain j hj p hp
            · rw [List.getLast?_eq_getElem?, ← hi1]; exact hgi
            · simp only [← hi1]
            · intro x hx p hp
              obtain ⟨j, hj, rfl⟩ := List.mem_iff_getElem.1 hx
              obtain ⟨a, ha, rfl⟩ := mem_points_iff.1 hp
              have hgj : tr.segs[j]? = some tr.segs[j] := List.getElem?_eq_getElem hj
              cases hlj : (tr.segs[j]).timeline.getLast? with
              | none => simp at hlj; rw [hlj] at ha; simp at ha
              | some b =>
                have h1 : a.1 ≤ b.1 := getLast?_max (hinv.segs _ hx).sorted hlj a ha
                rcases Nat.eq_or_lt_of_le (show j ≤ i by omega) with e | hlt'
                · subst e
                  rw [hll] at hlj
                  simp only [Option.some.injEq] at hlj
                  rw [← hlj] at h1
                  exact h1.trans_lt hlt
                · have hlstj : lst tr.segs j = some (point b) := by rw [lst_of_getElem? hgj, hlj]; rfl
                  obtain ⟨q, hq, hqle⟩ := mono_lst hinv.segs hinv.chain hlt' hil hlstj
                  have h2 := tm_of_hd hq
                  rw [hlast.1] at h2
                  simp only [Option.some.injEq] at h2
                  have hq0 : q.1 ≤ last.1 := by
                    obtain ⟨r, hr, hle', _⟩ := lst_of_hd hinv.segs hq
                    rw [lst_of_getElem? hgi, hll] at hr
                    simp only [Option.map_some, Option.some.injEq] at hr
                    rw [← hr] at hle'; exact hle'
                  exact (h1.trans (hqle.trans hq0)).trans_lt hlt

/-- When `Append` succeeds. -/
theorem append_isSome_of {h : Hermite T D H E} {tr : Trajectory T D H E} (hinv : Inv tr) (hne : tr.segs ≠ []) {t : T} {d : D}
    (ht : ∀ p d, IsPoint tr p d → p < t) : ∃ tr', tr.append h t d = some tr' := by
  unfold Trajectory.append
  cases hm : tr.map with
  | nil =>
    simp only
    have hall := all_empty hinv.canon hm
    cases hl : tr.segs.getLast? with
    | none => simp at hl; exact absurd hl hne
    | some s =>
      have hsm : s ∈ tr.segs := List.mem_of_getLast? hl
      obtain ⟨s', hs'⟩ := Option.isSome_iff_exists.1 ((append_isSome (h := h) (hinv.segs s hsm) t d).2 (Or.inl (hall s hsm)))
      simp [hs']
  | cons e0 m0 =>
    simp only
    rw [← hm]
    have h0 := (hinv.canon.mem e0.1 e0.2).1 (by rw [hm]; exact List.mem_cons_self)
    obtain ⟨d0, hd0⟩ := hd_of_tm h0.1
    have hpt : ∀ i p, hd tr.segs i = some p → p.1 < t := by
      intro i p hp
      have hi := hd_lt_length hp
      have hg : tr.segs[i]? = some tr.segs[i] := List.getElem?_eq_getElem hi
      rw [hd_of_getElem? hg] at hp
      cases hh : (tr.segs[i]).timeline.head? with
      | none => simp [hh] at hp
      | some a =>
        rw [hh] at hp
        simp only [Option.map_some, Option.some.injEq] at hp
        exact ht p.1 p.2 ⟨_, List.getElem_mem hi, mem_points_iff.2 ⟨a, List.mem_of_head? hh, hp⟩⟩
    cases hf : findSegment tr.map t with
    | none =>
      have := (findSegment_none hinv).1 hf _ _ h0.1
      exact absurd (hpt _ _ hd0) (not_lt.2 this.le)
    | some leit =>
      obtain ⟨t0, i, hg, _, _, hle, hlast, hmax, hafter⟩ := findSegment_spec hinv hf
      have hil := tm_lt_length hlast.1
      have hgi : tr.segs[i]? = some tr.segs[i] := List.getElem?_eq_getElem hil
      have hsm : tr.segs[i] ∈ tr.segs := List.getElem_mem hil
      simp only [hg, Option.bind_eq_bind, Option.bind_some, hgi]
      have hnemp : (tr.segs[i]).timeline ≠ [] := by
        intro e
        exact absurd hlast.1 (by rw [(tm_eq_none_iff hgi).2 e]; simp)
      rw [isEmpty_false_iff.2 hnemp]
      simp only [Bool.false_eq_true, if_false]
      cases hll : (tr.segs[i]).timeline.getLast? with
      | none => simp at hll; exact absurd hll hnemp
      | some last =>
        have hlt : last.1 < t := ht last.1 last.2.dof ⟨_, hsm, mem_points_iff.2 ⟨last, List.mem_of_getLast? hll, rfl⟩⟩
        obtain ⟨s', hs'⟩ := Option.isSome_iff_exists.1 ((append_isSome (h := h) (hinv.segs _ hsm) t d).2 (Or.inr (Or.inr ⟨last, hll, hlt⟩)))
        simp [hs']

end Principia.DiscreteTrajectory
