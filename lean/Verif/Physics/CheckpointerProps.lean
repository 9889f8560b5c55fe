import Verif.Physics.CheckpointerModel
import Mathlib.Algebra.Order.Group.Int

/-!
# C15: checkpointer
-/

set_option linter.unusedSimpArgs false
set_option linter.unusedVariables false
set_option linter.unusedSectionVars false

namespace Principia.Checkpointer

open Principia.SortedMap

variable {T C : Type} [AddCommGroup T] [LinearOrder T] [IsOrderedAddMonoid T]

/-! ## Specification: a checkpointer is a finite set of times, each with some contents. -/

/-- `r` is the least of the times that satisfy `p`, or there is no such time. -/
def IsLeastOpt (p : T → Prop) (r : Option T) : Prop :=
  match r with
  | none => ∀ t, ¬ p t
  | some t => p t ∧ ∀ u, p u → t ≤ u

/-- `r` is the greatest of the times that satisfy `p`, or there is no such time. -/
def IsGreatestOpt (p : T → Prop) (r : Option T) : Prop :=
  match r with
  | none => ∀ t, ¬ p t
  | some t => p t ∧ ∀ u, p u → u ≤ t

/-- There is a checkpoint at the given time. -/
def Has (s : State T C) (t : T) : Prop := ∃ c, (t, c) ∈ s

/-- `l` is the increasing list of the times that satisfy `p`. -/
def Enumerates (l : List T) (p : T → Prop) : Prop := l.Pairwise (· < ·) ∧ ∀ t, t ∈ l ↔ p t

/-- A state that results from a sequence of calls, none of which fails a check. -/
def Reachable (ops : List (Op T C)) (s : State T C) : Prop := ops.foldlM step [] = some s

/-! ## Theorems -/

theorem sorted_write {s s' : State T C} (h : Sorted s) {t : T} {c : C} (hs : write s t c = some s') : Sorted s' := by
  unfold write at hs
  split at hs
  · simp at hs
  · simp only [Option.some.injEq] at hs; rw [← hs]; exact sorted_emplace h t c

theorem sorted_step {s s' : State T C} (h : Sorted s) {op : Op T C} (hs : step s op = some s') : Sorted s' := by
  cases op with
  | write t c => exact sorted_write h hs
  | writeIfNeeded t m c =>
    simp only [step, Option.map_eq_some_iff] at hs
    obtain ⟨⟨s1, b⟩, h1, rfl⟩ := hs
    unfold writeIfNeeded at h1
    split at h1
    · simp only [Option.map_eq_some_iff, Prod.mk.injEq] at h1
      obtain ⟨s2, h2, rfl, -⟩ := h1
      exact sorted_write h h2
    · split at h1
      · simp only [Option.map_eq_some_iff, Prod.mk.injEq] at h1
        obtain ⟨s2, h2, rfl, -⟩ := h1
        exact sorted_write h h2
      · simp only [Option.some.injEq, Prod.mk.injEq] at h1
        rw [← h1.1]; exact h

theorem foldlM_sorted (ops : List (Op T C)) (s s' : State T C) (h : Sorted s) (hs : ops.foldlM step s = some s') : Sorted s' := by
  induction ops generalizing s with
  | nil => simp only [List.foldlM_nil, Option.pure_def, Option.some.injEq] at hs; rw [← hs]; exact h
  | cons op ops ih =>
    simp only [List.foldlM_cons, Option.bind_eq_bind, Option.bind_eq_some_iff] at hs
    obtain ⟨s1, h1, h2⟩ := hs
    exact ih s1 (sorted_step h h1) h2

theorem reachable_sorted {ops : List (Op T C)} {s : State T C} (h : Reachable ops s) : Sorted s :=
  foldlM_sorted ops [] s sorted_nil h

theorem has_iff {s : State T C} {t : T} : Has s t ↔ ∃ a ∈ s, a.1 = t := by
  constructor
  · rintro ⟨c, h⟩; exact ⟨_, h, rfl⟩
  · rintro ⟨⟨a, c⟩, h, rfl⟩; exact ⟨c, h⟩

theorem head_least {s : State T C} (h : Sorted s) (p : T → Bool) :
    IsLeastOpt (fun t => Has s t ∧ p t) ((s.filter fun a => p a.1).head?.map Prod.fst) := by
  have hf : Sorted (s.filter fun a => p a.1) := h.filter _
  cases hl : s.filter (fun a => p a.1) with
  | nil =>
    simp only [List.head?_nil, Option.map_none, IsLeastOpt]
    rintro t ⟨⟨c, hc⟩, hp⟩
    exact absurd hp (by simpa using List.filter_eq_nil_iff.1 hl (t, c) hc)
  | cons a l =>
    simp only [List.head?_cons, Option.map_some, IsLeastOpt]
    have ha : a ∈ s.filter (fun a => p a.1) := by rw [hl]; simp
    refine ⟨⟨⟨a.2, (List.mem_filter.1 ha).1⟩, (List.mem_filter.1 ha).2⟩, ?_⟩
    rintro u ⟨⟨c, hc⟩, hp⟩
    have hu : (u, c) ∈ s.filter (fun a => p a.1) := List.mem_filter.2 ⟨hc, hp⟩
    rw [hl] at hu hf
    rcases List.mem_cons.1 hu with hu | hu
    · rw [← hu]
    · exact ((List.pairwise_cons.1 hf).1 _ hu).le

theorem last_greatest {s : State T C} (h : Sorted s) (p : T → Bool) :
    IsGreatestOpt (fun t => Has s t ∧ p t) ((s.filter fun a => p a.1).getLast?.map Prod.fst) := by
  have hf : Sorted (s.filter fun a => p a.1) := h.filter _
  rcases List.eq_nil_or_concat (s.filter fun a => p a.1) with hl | ⟨l, a, hl⟩
  · rw [hl]
    simp only [List.getLast?_nil, Option.map_none, IsGreatestOpt]
    rintro t ⟨⟨c, hc⟩, hp⟩
    exact absurd hp (by simpa using List.filter_eq_nil_iff.1 hl (t, c) hc)
  · rw [List.concat_eq_append] at hl
    rw [hl]
    simp only [List.getLast?_append, List.getLast?_singleton, Option.some_or, Option.map_some, IsGreatestOpt]
    have ha : a ∈ s.filter (fun a => p a.1) := by rw [hl]; simp
    refine ⟨⟨⟨a.2, (List.mem_filter.1 ha).1⟩, (List.mem_filter.1 ha).2⟩, ?_⟩
    rintro u ⟨⟨c, hc⟩, hp⟩
    have hu : (u, c) ∈ s.filter (fun a => p a.1) := List.mem_filter.2 ⟨hc, hp⟩
    rw [hl] at hu hf
    rcases List.mem_append.1 hu with hu | hu
    · exact ((List.pairwise_append.1 hf).2.2 _ hu _ (by simp)).le
    · simp only [List.mem_singleton] at hu; rw [← hu]

theorem map_filter_enumerates {s : State T C} (h : Sorted s) (p : T → Bool) :
    Enumerates ((s.filter fun a => p a.1).map Prod.fst) (fun t => Has s t ∧ p t) := by
  refine ⟨?_, ?_⟩
  · rw [List.pairwise_map]; exact h.filter _
  · intro t
    simp only [List.mem_map, List.mem_filter]
    constructor
    · rintro ⟨⟨a, c⟩, ⟨h1, h2⟩, rfl⟩; exact ⟨⟨c, h1⟩, h2⟩
    · rintro ⟨⟨c, hc⟩, hp⟩; exact ⟨(t, c), ⟨hc, hp⟩, rfl⟩

/-- After any history, the queries return the checkpoints that their names say. -/
theorem C15_queries (ops : List (Op T C)) (s : State T C) (hr : Reachable ops s) (t t1 t2 : T) :
    IsLeastOpt (Has s) (oldest s) ∧
    IsGreatestOpt (Has s) (newest s) ∧
    IsLeastOpt (fun u => Has s u ∧ t ≤ u) (atOrAfter s t) ∧
    IsGreatestOpt (fun u => Has s u ∧ u ≤ t) (atOrBefore s t) ∧
    Enumerates (all s) (Has s) ∧
    Enumerates (allAtOrBefore s t) (fun u => Has s u ∧ u ≤ t) ∧
    ∃ between, allBetween s t1 t2 = some between ∧ Enumerates between (fun u => Has s u ∧ t1 ≤ u ∧ u ≤ t2) := by
  have h := reachable_sorted hr
  have htrue : (s.filter fun a => (fun _ : T => true) a.1) = s := by simp
  refine ⟨?_, ?_, ?_, ?_, ?_, ?_, ?_⟩
  · have := head_least h (fun _ => true)
    rw [htrue] at this
    simpa [oldest] using this
  · have := last_greatest h (fun _ => true)
    rw [htrue] at this
    simpa [newest] using this
  · have := head_least h (fun u => decide (t ≤ u))
    simp only [decide_eq_true_eq] at this
    unfold atOrAfter
    simp only
    rw [getElem?_lowerBound h]
    split
    · rename_i he
      have h1 : (s.filter fun a => decide (t ≤ a.1)) = [] := by
        rw [← drop_lowerBound h, he, List.drop_length]
      rw [h1] at this
      exact this
    · exact this
  · have := last_greatest h (fun u => decide (u ≤ t))
    simp only [decide_eq_true_eq] at this
    unfold atOrBefore
    simp only
    split
    · rename_i he
      have h1 : (s.filter fun a => decide (a.1 ≤ t)) = [] := by
        rw [← take_upperBound h, he, List.take_zero]
      rw [h1] at this
      exact this
    · rename_i he
      rw [getElem?_upperBound_pred h t he]
      exact this
  · have := map_filter_enumerates h (fun _ => true)
    rw [htrue] at this
    simpa [all] using this
  · have := map_filter_enumerates h (fun u => decide (u ≤ t))
    simp only [decide_eq_true_eq] at this
    unfold allAtOrBefore
    rw [take_upperBound h]
    exact this
  · unfold allBetween
    split
    · rename_i hlt
      refine ⟨[], rfl, List.Pairwise.nil, ?_⟩
      intro u
      simp only [List.not_mem_nil, false_iff]
      rintro ⟨-, h1, h2⟩
      exact absurd (h1.trans h2) (not_le.2 hlt)
    · rename_i hlt
      have hle := not_lt.1 hlt
      have := map_filter_enumerates h (fun u => decide (t1 ≤ u) && decide (u ≤ t2))
      simp only [Bool.and_eq_true, decide_eq_true_eq] at this
      have heq : (s.drop (lowerBound s t1)).take (upperBound s t2 - lowerBound s t1) =
          s.filter fun a => decide (t1 ≤ a.1) && decide (a.1 ≤ t2) := by
        rw [← List.drop_take, take_upperBound h]
        have h1 : (s.filter fun a => decide (a.1 ≤ t2)).drop (lowerBound s t1) =
            (s.filter fun a => decide (a.1 ≤ t2)).drop (lowerBound (s.filter fun a => decide (a.1 ≤ t2)) t1) := by
          congr 1
          have e1 := congrArg List.length (take_lowerBound h t1)
          have e2 := congrArg List.length (take_lowerBound (l := s.filter fun a => decide (a.1 ≤ t2)) (h.filter _) t1)
          rw [List.length_take, Nat.min_eq_left (lowerBound_le _ _)] at e1 e2
          rw [e1, e2, List.filter_filter]
          congr 1
          apply List.filter_congr
          intro a _
          by_cases ha : a.1 < t1
          · simp [ha, ha.le.trans hle]
          · simp [ha]
        rw [h1, drop_lowerBound (h.filter _), List.filter_filter]
      have hb : ¬ upperBound s t2 < lowerBound s t1 := by
        have e1 := congrArg List.length (take_lowerBound h t1)
        have e2 := congrArg List.length (take_upperBound h t2)
        rw [List.length_take, Nat.min_eq_left (lowerBound_le _ _)] at e1
        rw [List.length_take, Nat.min_eq_left (upperBound_le _ _)] at e2
        rw [e1, e2, not_lt]
        apply List.Sublist.length_le
        apply List.monotone_filter_right
        intro a ha
        simp only [decide_eq_true_eq] at ha ⊢
        exact ha.le.trans hle
      simp only [hb, if_false]
      refine ⟨_, rfl, ?_⟩
      rw [heq]
      exact this

/-- The readers are given the contents of the checkpoint at the time returned by the corresponding query. -/
theorem C15_readers (ops : List (Op T C)) (s : State T C) (hr : Reachable ops s) (t : T) (c : C) :
    (readOldest s = some c ↔ ∃ u, oldest s = some u ∧ (u, c) ∈ s) ∧
    (readNewest s = some c ↔ ∃ u, newest s = some u ∧ (u, c) ∈ s) ∧
    (readAtOrBefore s t = some c ↔ ∃ u, atOrBefore s t = some u ∧ (u, c) ∈ s) ∧
    (readAt s t = some c ↔ (t, c) ∈ s) := by
  have h := reachable_sorted hr
  have key : ∀ o : Option (T × C), (∀ a, o = some a → a ∈ s) →
      (o.map Prod.snd = some c ↔ ∃ u, o.map Prod.fst = some u ∧ (u, c) ∈ s) := by
    intro o ho
    cases o with
    | none => simp
    | some a =>
      have ha := ho a rfl
      simp only [Option.map_some, Option.some.injEq]
      constructor
      · rintro rfl; exact ⟨a.1, rfl, ha⟩
      · rintro ⟨u, rfl, hu⟩
        have := eq_of_key h ha hu rfl
        rw [this]
  refine ⟨?_, ?_, ?_, ?_⟩
  · exact key _ fun a ha => List.mem_of_mem_head? ha
  · exact key _ fun a ha => List.mem_of_mem_getLast? ha
  · unfold readAtOrBefore atOrBefore
    simp only
    split
    · simp
    · exact key _ fun a ha => List.mem_of_getElem? ha
  · unfold readAt
    constructor
    · intro hf
      obtain ⟨a, ha, rfl⟩ := Option.map_eq_some_iff.1 hf
      obtain ⟨h1, rfl⟩ := (find_eq_some_iff h).1 ha
      exact h1
    · intro hm
      rw [(find_eq_some_iff h).2 ⟨hm, rfl⟩]; rfl

/-- An unconditional write adds exactly the checkpoint; it fails its check if and only if there is already one at that time. -/
theorem C15_write (ops : List (Op T C)) (s : State T C) (hr : Reachable ops s) (t : T) (c : C) :
    (write s t c = none ↔ Has s t) ∧ ∀ s', write s t c = some s' → ∀ a, a ∈ s' ↔ a = (t, c) ∨ a ∈ s := by
  constructor
  · unfold write
    split
    · rename_i hc
      simp only [true_iff, has_iff]
      exact contains_iff.1 hc
    · rename_i hc
      simp only [reduceCtorEq, false_iff, has_iff]
      intro hh
      exact hc (contains_iff.2 hh)
  · intro s' hs a
    unfold write at hs
    split at hs
    · simp at hs
    · rename_i hc
      simp only [Option.some.injEq] at hs; subst hs
      rw [(emplace_perm (by simpa using hc)).mem_iff]
      simp

/-- A conditional write with a nonnegative interval never fails its check for want of a newer time; it writes a checkpoint if and only
if there is none, or the newest is older than `t` by more than the interval; otherwise it has no effect.  In all cases, afterwards, the
newest checkpoint is older than `t` by no more than the interval, and a checkpoint that was just written follows the previous ones by
more than the interval. -/
theorem C15_write_if_needed (ops : List (Op T C)) (s : State T C) (hr : Reachable ops s) (t m : T) (hm : 0 ≤ m) (c : C) :
    ∃ s' b, writeIfNeeded s t m c = some (s', b) ∧
      (b = true ↔ ∀ u, Has s u → m < t - u) ∧
      (b = true → s' = s ++ [(t, c)]) ∧ (b = false → s' = s) ∧
      ∃ u, newest s' = some u ∧ t - u ≤ m := by
  have h := reachable_sorted hr
  unfold writeIfNeeded
  rcases List.eq_nil_or_concat s with hl | ⟨l, a, hl⟩
  · subst hl
    refine ⟨[(t, c)], true, rfl, ?_, fun _ => rfl, by simp, t, rfl, by simpa using hm⟩
    simp [Has]
  · rw [List.concat_eq_append] at hl
    have hlast : s.getLast? = some a := by rw [hl]; simp
    rw [hlast]
    simp only
    have hle : ∀ b ∈ s, b.1 ≤ a.1 := by
      intro b hb
      rw [hl] at hb h
      rcases List.mem_append.1 hb with hb | hb
      · exact ((List.pairwise_append.1 h).2.2 _ hb _ (by simp)).le
      · simp only [List.mem_singleton] at hb; rw [hb]
    have ha : a ∈ s := by rw [hl]; simp
    split
    · rename_i hlt
      have hall : ∀ b ∈ s, b.1 < t := by
        intro b hb
        have h1 : 0 < t - a.1 := hm.trans_lt hlt
        exact (hle b hb).trans_lt (sub_pos.1 h1)
      have hw : write s t c = some (s ++ [(t, c)]) := by
        unfold write
        rw [not_contains_iff.2 fun b hb => (hall b hb).ne]
        simp only [Bool.false_eq_true, if_false]
        rw [emplace_last h hall]
      refine ⟨s ++ [(t, c)], true, by rw [hw]; rfl, ?_, fun _ => rfl, by simp, t, ?_, by simpa using hm⟩
      · simp only [true_iff]
        rintro u ⟨d, hd⟩
        exact hlt.trans_le (sub_le_sub_left (hle _ hd) t)
      · simp [newest]
    · rename_i hlt
      refine ⟨s, false, rfl, ?_, by simp, fun _ => rfl, a.1, ?_, not_lt.1 hlt⟩
      · simp only [Bool.false_eq_true, false_iff]
        intro hh
        exact hlt (hh a.1 ⟨a.2, ha⟩)
      · simp [newest, hlast]

theorem foldl_emplace (f : C → C) (l : State T C) (acc : State T C) (h : Sorted (acc ++ l.map fun a => (a.1, f a.2))) :
    l.foldl (fun s a => emplace s a.1 (f a.2)) acc = acc ++ l.map fun a => (a.1, f a.2) := by
  induction l generalizing acc with
  | nil => simp
  | cons a l ih =>
    simp only [List.foldl_cons, List.map_cons] at h ⊢
    have hp := List.pairwise_append.1 h
    have hlt : ∀ b ∈ acc, b.1 < a.1 := fun b hb => hp.2.2 b hb (a.1, f a.2) (by simp)
    rw [emplace_last hp.1 hlt, ih]
    · simp
    · simpa using h

/-- Writing a checkpointer to a message and reading it yields the same checkpoints, with the contents rewritten if there is a rewriter. -/
theorem C15_round_trip (ops : List (Op T C)) (s : State T C) (hr : Reachable ops s) :
    readFromMessage none (writeToMessage s) = s ∧
    ∀ f : C → C, readFromMessage (some f) (writeToMessage s) = s.map fun a => (a.1, f a.2) := by
  have h := reachable_sorted hr
  have hid : writeToMessage s = s := by simp [writeToMessage]
  have hs : ∀ f : C → C, Sorted (([] : State T C) ++ s.map fun a => (a.1, f a.2)) := by
    intro f
    simp only [List.nil_append, Sorted, List.pairwise_map]
    exact h
  constructor
  · unfold readFromMessage
    rw [hid]
    have := foldl_emplace (fun c : C => c) s [] (hs (fun c => c))
    simpa using this
  · intro f
    unfold readFromMessage
    rw [hid]
    exact foldl_emplace f s [] (hs f)

/-- A history with three checkpoints. -/
example : ∃ s : State Int Nat, Reachable [.write 10 1, .writeIfNeeded 15 7 2, .writeIfNeeded 18 7 3, .write 5 4] s ∧
    s = [(5, 4), (10, 1), (18, 3)] ∧ atOrAfter s 6 = some 10 ∧ atOrBefore s 4 = none ∧ allBetween s 5 10 = some [5, 10] := by
  refine ⟨_, rfl, ?_, ?_, ?_, ?_⟩ <;> decide +kernel

end Principia.Checkpointer
