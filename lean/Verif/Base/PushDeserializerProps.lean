import Verif.Base.PushDeserializerModel
import Mathlib.Tactic.ByContra
import Mathlib.Data.List.Basic

/-!
# C12: the push deserializer consumes the exact byte stream
-/

set_option linter.unusedSimpArgs false
set_option linter.unusedVariables false

namespace Principia.PushDeserializer

open Principia.Lts

variable {β : Type}

/-! ## Specification -/

/-- The effect of the decompression, if there is one; an empty array marks the end of the data. -/
def Params.plain (p : Params β) (l : List β) : List β :=
  match p.uncompress with
  | none => l
  | some f => if l.length = 0 then l else f l

/-- The bytes that the parser should see. -/
def content (p : Params β) (pushes : List (Push β)) : List β := (pushes.map fun a => p.plain a.bytes).flatten

/-- The callbacks that should be called. -/
def callbacks (pushes : List (Push β)) : List Nat := pushes.filterMap Push.done

/-- The client pushes nonempty arrays followed by an empty one. -/
def Terminated (pushes : List (Push β)) : Prop :=
  ∃ arrays d, pushes = arrays ++ [⟨[], d⟩] ∧ ∀ a ∈ arrays, a.bytes ≠ []

/-- The constraints on the arguments: there is room for a chunk; in the presence of compression the arrays must be the result of the
compression of nonempty chunks. -/
structure Ok (p : Params β) (pushes : List (Push β)) : Prop where
  chunks : 0 < p.numberOfChunks
  size : 0 < p.queuedChunkSize
  compressed : ∀ f, p.uncompress = some f → ∀ a ∈ pushes,
    a.bytes.length ≤ p.compressedChunkSize ∧ (a.bytes ≠ [] → f a.bytes ≠ [])

/-! ## The slices -/

/-- How an array is split. -/
def slices (q : Nat) (l : List β) (d : Option Nat) : List (List β × Option Nat) :=
  if h : l.length ≤ q ∨ q = 0 then [(l, d)] else (l.take q, none) :: slices q (l.drop q) d
termination_by l.length
decreasing_by simp only [List.length_drop]; omega

theorem slices_flatten (q : Nat) (l : List β) (d : Option Nat) : ((slices q l d).map Prod.fst).flatten = l := by
  induction l using (measure List.length).wf.induction with
  | _ l ih =>
    rw [slices]
    split
    · simp
    · rename_i h
      simp only [List.map_cons, List.flatten_cons]
      rw [ih (l.drop q) (by show (l.drop q).length < l.length; simp only [List.length_drop]; omega), List.take_append_drop]

theorem slices_nonempty (q : Nat) (l : List β) (d : Option Nat) (hl : l ≠ []) (x) (hx : x ∈ slices q l d) : x.1 ≠ [] := by
  induction l using (measure List.length).wf.induction with
  | _ l ih =>
    rw [slices] at hx
    split at hx
    · simp only [List.mem_singleton] at hx; subst hx; exact hl
    · rename_i h
      rcases List.mem_cons.1 hx with rfl | hx
      · intro e
        have := congrArg List.length e
        simp only [List.length_take, List.length_nil] at this
        have : 0 < l.length := List.length_pos_iff.2 hl
        omega
      · refine ih (l.drop q) (by show (l.drop q).length < l.length; simp only [List.length_drop]; omega) ?_ hx
        intro e
        have := congrArg List.length e
        simp only [List.length_drop, List.length_nil] at this
        omega

theorem slices_callbacks (q : Nat) (l : List β) (d : Option Nat) : ∃ init, slices q l d = init ++ [(slices q l d).getLast
    (by rw [slices]; split <;> simp)] ∧ (∀ x ∈ init, x.2 = none) ∧ ((slices q l d).getLast (by rw [slices]; split <;> simp)).2 = d := by
  have : ∃ init x, slices q l d = init ++ [(x, d)] ∧ ∀ x ∈ init, x.2 = none := by
    induction l using (measure List.length).wf.induction with
    | _ l ih =>
      rw [slices]
      split
      · exact ⟨[], l, rfl, by simp⟩
      · rename_i h
        obtain ⟨init, x, h1, h2⟩ :=
          ih (l.drop q) (by show (l.drop q).length < l.length; simp only [List.length_drop]; omega)
        refine ⟨(l.take q, none) :: init, x, by rw [h1]; rfl, ?_⟩
        intro y hy
        rcases List.mem_cons.1 hy with rfl | hy
        · rfl
        · exact h2 y hy
  obtain ⟨init, x, h1, h2⟩ := this
  refine ⟨init, ?_, h2, ?_⟩
  · simp [h1]
  · simp [h1]

theorem slices_size (q : Nat) (hq : 0 < q) (l : List β) (d : Option Nat) (x) (hx : x ∈ slices q l d) : x.1.length ≤ q := by
  induction l using (measure List.length).wf.induction with
  | _ l ih =>
    rw [slices] at hx
    split at hx
    · simp only [List.mem_singleton] at hx; subst hx; simp only; omega
    · rename_i h
      rcases List.mem_cons.1 hx with rfl | hx
      · simp only [List.length_take]; omega
      · exact ih (l.drop q) (by show (l.drop q).length < l.length; simp only [List.length_drop]; omega) hx

/-- The contents of the queue over time. -/
def all (p : Params β) (pushes : List (Push β)) : List (List β × Option Nat) :=
  pushes.flatMap fun a => slices p.queuedChunkSize a.bytes a.done

def plains (p : Params β) (l : List (List β × Option Nat)) : List β := (l.map fun a => p.plain a.1).flatten

theorem plains_append (p : Params β) (l l') : plains p (l ++ l') = plains p l ++ plains p l' := by
  simp [plains]

theorem plains_slices {p : Params β} {pushes : List (Push β)} (h : Ok p pushes) {a : Push β} (ha : a ∈ pushes) :
    plains p (slices p.queuedChunkSize a.bytes a.done) = p.plain a.bytes := by
  cases hu : p.uncompress with
  | none =>
    have : ∀ l, p.plain l = l := by simp [Params.plain, hu]
    simp only [plains, this]
    exact slices_flatten _ _ _
  | some f =>
    have := (h.compressed f hu a ha).1
    rw [slices, dif_pos (by left; simp only [Params.queuedChunkSize, hu, Option.isSome_some, if_true]; exact this)]
    simp [plains]

theorem plains_all {p : Params β} {pushes : List (Push β)} (h : Ok p pushes) (l : List (Push β)) (hl : ∀ a ∈ l, a ∈ pushes) :
    plains p (all p l) = content p l := by
  induction l with
  | nil => rfl
  | cons a l ih =>
    have h1 : all p (a :: l) = slices p.queuedChunkSize a.bytes a.done ++ all p l := by simp [all]
    rw [h1, plains_append, plains_slices h (hl a (by simp)), ih (fun b hb => hl b (by simp [hb]))]
    simp [content]

theorem slices_filterMap (q : Nat) (l : List β) (d : Option Nat) : (slices q l d).filterMap Prod.snd = d.toList := by
  obtain ⟨init, h1, h2, h3⟩ := slices_callbacks q l d
  rw [h1, List.filterMap_append]
  have : init.filterMap Prod.snd = [] := by
    rw [List.filterMap_eq_nil_iff]; exact h2
  rw [this]
  simp only [List.nil_append, List.filterMap_cons, List.filterMap_nil, h3]
  cases d <;> rfl

theorem all_callbacks (p : Params β) (l : List (Push β)) : (all p l).filterMap Prod.snd = callbacks l := by
  induction l with
  | nil => rfl
  | cons a l ih =>
    have h1 : all p (a :: l) = slices p.queuedChunkSize a.bytes a.done ++ all p l := by simp [all]
    rw [h1, List.filterMap_append, slices_filterMap, ih]
    simp only [callbacks, List.filterMap_cons]
    cases a.done <;> rfl

theorem plain_nonempty {p : Params β} {pushes : List (Push β)} (h : Ok p pushes) {a : Push β} (ha : a ∈ pushes) (hne : a.bytes ≠ [])
    (x) (hx : x ∈ slices p.queuedChunkSize a.bytes a.done) : p.plain x.1 ≠ [] := by
  have hx1 := slices_nonempty _ _ _ hne x hx
  cases hu : p.uncompress with
  | none => simp only [Params.plain, hu]; exact hx1
  | some f =>
    obtain ⟨c1, c2⟩ := h.compressed f hu a ha
    rw [slices, dif_pos (by left; simp only [Params.queuedChunkSize, hu, Option.isSome_some, if_true]; exact c1)] at hx
    simp only [List.mem_singleton] at hx
    subst hx
    have : a.bytes.length ≠ 0 := by simpa using hne
    simp only [Params.plain, hu, this, if_false]
    exact c2 hne

/-- Only the last chunk is empty. -/
theorem all_last {p : Params β} {pushes : List (Push β)} (h : Ok p pushes) (ht : Terminated pushes) :
    ∃ front z, all p pushes = front ++ [z] ∧ (∀ x ∈ front, p.plain x.1 ≠ []) ∧ p.plain z.1 = [] := by
  obtain ⟨arrays, d, h1, h2⟩ := ht
  refine ⟨all p arrays, ([], d), ?_, ?_, ?_⟩
  · subst h1
    simp only [all, List.flatMap_append, List.flatMap_cons, List.flatMap_nil, List.append_nil]
    rw [slices, dif_pos (by left; simp)]
  · intro x hx
    obtain ⟨a, ha, hxa⟩ := List.mem_flatMap.1 hx
    exact plain_nonempty h (by rw [h1]; simp [ha]) (h2 a ha) x hxa
  · simp only [Params.plain]; cases p.uncompress <;> simp

theorem empty_is_last {p : Params β} {pushes : List (Push β)} (h : Ok p pushes) (ht : Terminated pushes) {l l'} {c}
    (he : l ++ c :: l' = all p pushes) (hc : p.plain c.1 = []) : l' = [] := by
  obtain ⟨front, z, h1, h2, h3⟩ := all_last h ht
  by_contra hne
  obtain ⟨m, y, rfl⟩ := (List.eq_nil_or_concat l').resolve_left hne
  rw [h1, List.concat_eq_append, ← List.cons_append, ← List.append_assoc] at he
  have := List.append_inj' he rfl
  exact h2 c (by rw [← this.1]; simp) hc

theorem exists_empty {p : Params β} {pushes : List (Push β)} (h : Ok p pushes) (ht : Terminated pushes) :
    ∃ x ∈ all p pushes, p.plain x.1 = [] := by
  obtain ⟨front, z, h1, h2, h3⟩ := all_last h ht
  exact ⟨z, by rw [h1]; simp, h3⟩

/-! ## Invariant -/

/-- What the client will enqueue. -/
def remaining (p : Params β) : ClientPc β → List (List β × Option Nat)
  | .idle ps => all p ps
  | .pushing current d ps => slices p.queuedChunkSize current d ++ all p ps
  | .crashed => []

def ClientOk (pushes : List (Push β)) : ClientPc β → Prop
  | .idle ps => ∀ a ∈ ps, a ∈ pushes
  | .pushing _ _ ps => ∀ a ∈ ps, a ∈ pushes
  | .crashed => False

/-- The callbacks, which are late by one. -/
def Late (taken queued : List (List β × Option Nat)) (s : State β) : Prop :=
  ∃ ex x, none :: taken.map Prod.snd = ex ++ [x] ∧ s.done = x :: queued.map Prod.snd ∧ s.calls = ex.filterMap id

def ParserOk (p : Params β) (pushes : List (Push β)) (taken queued : List (List β × Option Nat)) (s : State β) : Prop :=
  match s.parser with
  | .reading | .skipping _ => (∀ x ∈ taken, p.plain x.1 ≠ []) ∧ Late taken queued s ∧
      plains p taken = plains p taken.dropLast ++ s.bytes ∧ s.seen = plains p taken.dropLast ++ s.bytes.take s.position ∧
      s.position ≤ s.bytes.length ∧ s.last ≤ s.position ∧ s.final = 0
  | .ended => taken = all p pushes ∧ Late taken queued s ∧ s.seen = plains p (all p pushes) ∧ s.final = 0
  | .terminated => taken = all p pushes ∧ s.done = [] ∧ s.calls = (all p pushes).filterMap Prod.snd ∧
      s.seen = plains p (all p pushes) ∧ s.final = 1
  | .crashed => False

structure Inv' (p : Params β) (pushes : List (Push β)) (taken queued : List (List β × Option Nat)) (s : State β) : Prop where
  eq : taken ++ queued ++ remaining p s.client = all p pushes
  queue : s.queue = queued.map Prod.fst
  client : ClientOk pushes s.client
  parser : ParserOk p pushes taken queued s
  bound : s.queue.length ≤ p.numberOfChunks
  count : s.byteCount = s.seen.length

def Inv (p : Params β) (pushes : List (Push β)) (s : State β) : Prop := ∃ taken queued, Inv' p pushes taken queued s

theorem inv_init (p : Params β) (pushes : List (Push β)) : Inv p pushes (init pushes) := by
  refine ⟨[], [], by simp [init, remaining], rfl, ?_, ?_, by simp [init], rfl⟩
  · simp [ClientOk, init]
  · refine ⟨by simp, ⟨[], none, rfl, rfl, rfl⟩, ?_⟩
    simp [plains, init]

theorem parserOk_push {p : Params β} {pushes : List (Push β)} {taken queued : List (List β × Option Nat)} {s : State β} {x}
    (h : ParserOk p pushes taken queued s) (hq : s.parser = .terminated → False) (q : List (List β)) (c : ClientPc β) :
    ParserOk p pushes taken (queued ++ [x]) { s with queue := q, done := s.done ++ [x.2], client := c } := by
  have hl : Late taken queued s →
      Late taken (queued ++ [x]) { s with queue := q, done := s.done ++ [x.2], client := c } := by
    rintro ⟨ex, y, h1, h2, h3⟩
    exact ⟨ex, y, h1, by simp [h2], h3⟩
  unfold ParserOk at h ⊢
  simp only
  cases hp : s.parser with
  | reading => simp only [hp] at h ⊢; exact ⟨h.1, hl h.2.1, h.2.2⟩
  | skipping n => simp only [hp] at h ⊢; exact ⟨h.1, hl h.2.1, h.2.2⟩
  | ended => simp only [hp] at h ⊢; exact ⟨h.1, hl h.2.1, h.2.2⟩
  | terminated => exact absurd hp hq
  | crashed => simp only [hp] at h

theorem inv_client {p : Params β} {pushes : List (Push β)} (ho : Ok p pushes) {s s' : State β} (h : Inv p pushes s)
    (hs : clientStep p s = some s') : Inv p pushes s' := by
  obtain ⟨taken, queued, h⟩ := h
  unfold clientStep at hs
  have hc := h.client
  have he := h.eq
  split at hs
  · simp at hs
  · rename_i push ps hpc
    rw [hpc] at hc he
    simp only [ClientOk] at hc
    rw [if_neg] at hs
    · simp only [Option.some.injEq] at hs; subst hs
      refine ⟨taken, queued, ?_, h.queue, fun a ha => hc a (List.mem_cons_of_mem _ ha), ?_, h.bound, h.count⟩
      · rw [← he]; simp [remaining, all]
      · have := h.parser
        unfold ParserOk Late at this ⊢
        exact this
    · rintro ⟨h1, h2⟩
      cases hu : p.uncompress with
      | none => rw [hu] at h1; simp at h1
      | some f => have := (ho.compressed f hu push (hc push (by simp))).1; omega
  · rename_i current done ps hpc
    rw [hpc] at hc he
    simp only [ClientOk] at hc
    simp only at hs
    split at hs
    · rename_i hroom
      simp only [Option.some.injEq] at hs; subst hs
      have hterm : s.parser = .terminated → False := by
        intro ht
        have := h.parser
        simp only [ParserOk, ht] at this
        rw [this.1] at he
        have h2 := congrArg List.length he
        simp only [remaining, List.length_append] at h2
        have h3 : 0 < (slices p.queuedChunkSize current done).length := by
          rw [slices]; split <;> simp
        omega
      have hsz := ho.size
      by_cases hlast : current.length ≤ p.queuedChunkSize
      · refine ⟨taken, queued ++ [(current, done)], ?_, ?_, ?_, ?_, ?_, h.count⟩
        · simp only [hlast, if_true]
          rw [← he]
          simp only [remaining]
          rw [slices, dif_pos (Or.inl hlast)]
          simp
        · simp only [List.map_append, h.queue, List.map_cons, List.map_nil]
          rw [Nat.min_eq_left hlast, List.take_length]
        · simp only [hlast, if_true, ClientOk]; exact hc
        · have := parserOk_push (x := (current, done)) h.parser hterm
            (s.queue ++ [current.take (min current.length p.queuedChunkSize)]) (.idle ps)
          simp only [hlast, if_true]
          exact this
        · simp only [List.length_append, List.length_singleton]; omega
      · refine ⟨taken, queued ++ [(current.take p.queuedChunkSize, none)], ?_, ?_, ?_, ?_, ?_, h.count⟩
        · simp only [hlast, if_false]
          rw [← he]
          simp only [remaining]
          rw [slices.eq_def p.queuedChunkSize current, dif_neg (by omega)]
          simp
        · simp only [List.map_append, h.queue, List.map_cons, List.map_nil]
          rw [Nat.min_eq_right (by omega)]
        · simp only [hlast, if_false, ClientOk]; exact hc
        · have := parserOk_push (x := (current.take p.queuedChunkSize, none)) h.parser hterm
            (s.queue ++ [current.take (min current.length p.queuedChunkSize)])
            (.pushing (current.drop p.queuedChunkSize) done ps)
          simp only [hlast, if_false]
          exact this
        · simp only [List.length_append, List.length_singleton]; omega
    · simp at hs
  · simp at hs

/-- The effect of `Pull` on the invariant. -/
theorem pull_spec {p : Params β} {pushes : List (Push β)} {taken queued : List (List β × Option Nat)} {s s' : State β}
    {bytes : List β} (h : Inv' p pushes taken queued s) (hl : Late taken queued s) (hs : pull p s = some (s', bytes)) :
    ∃ c queued', queued = c :: queued' ∧ bytes = p.plain c.1 ∧
      s' = { s with queue := queued'.map Prod.fst, done := s'.done, calls := s'.calls } ∧ Late (taken ++ [c]) queued' s' := by
  obtain ⟨ex, x, h1, h2, h3⟩ := hl
  unfold pull at hs
  cases hq : queued with
  | nil =>
    have := h.queue
    rw [hq] at this
    rw [this] at hs
    simp at hs
  | cons c queued' =>
    have := h.queue
    rw [hq, List.map_cons] at this
    rw [this, h2] at hs
    simp only [Option.some.injEq, Prod.mk.injEq] at hs
    obtain ⟨hs1, hs2⟩ := hs
    refine ⟨c, queued', rfl, hs2.symm, ?_, ex ++ [x], c.2, ?_, ?_, ?_⟩
    · subst hs1; rfl
    · rw [← h1]; simp
    · subst hs1; simp [hq]
    · subst hs1; cases x <;> simp [h3]

theorem late_congr {taken queued : List (List β × Option Nat)} {s s' : State β} (h : Late taken queued s) (h1 : s'.done = s.done)
    (h2 : s'.calls = s.calls) : Late taken queued s' := by
  obtain ⟨ex, x, e1, e2, e3⟩ := h
  exact ⟨ex, x, e1, by rw [h1, e2], by rw [h2, e3]⟩

theorem inv_nextEnd {p : Params β} {pushes : List (Push β)} {taken queued : List (List β × Option Nat)} {s : State β}
    (h : Inv' p pushes taken queued s) (hp : s.parser = .reading) (hpos : s.position ≠ s.bytes.length) :
    Inv' p pushes taken queued (nextEnd s) := by
  have hP := h.parser
  simp only [ParserOk, hp] at hP
  obtain ⟨p1, p2, p3, p4, p5, p6, p7⟩ := hP
  unfold nextEnd
  rw [if_pos (by omega)]
  simp only
  refine ⟨h.eq, h.queue, h.client, ?_, h.bound, ?_⟩
  · simp only [ParserOk, hp]
    refine ⟨p1, late_congr p2 rfl rfl, p3, ?_, by omega, by omega, p7⟩
    rw [p4, List.append_assoc, List.take_append_drop]
    rw [List.take_of_length_le (by omega)]
  · simp only [List.length_append, List.length_drop, h.count]

theorem plains_singleton (p : Params β) (c : List β × Option Nat) : plains p [c] = p.plain c.1 := by simp [plains]

theorem inv_next {p : Params β} {pushes : List (Push β)} (ho : Ok p pushes) (ht : Terminated pushes) {s s' : State β}
    (h : Inv p pushes s) (hp : s.parser = .reading) (hs : next p s = some s') : Inv p pushes s' := by
  obtain ⟨taken, queued, h⟩ := h
  unfold next at hs
  split at hs
  · rename_i hpos
    simp only [Option.bind_eq_bind, Option.bind_eq_some_iff] at hs
    obtain ⟨⟨s1, bytes⟩, h1, h2⟩ := hs
    have hP := h.parser
    simp only [ParserOk, hp] at hP
    obtain ⟨p1, p2, p3, p4, p5, p6, p7⟩ := hP
    obtain ⟨c, queued', hq, hb, hs1, hlate⟩ := pull_spec h p2 h1
    have heq := h.eq
    rw [hq] at heq
    have hbound := h.bound
    rw [h.queue, hq] at hbound
    simp only [List.map_cons, List.length_cons] at hbound
    have hseen : s.seen = plains p taken := by
      rw [p4, p3, hpos, List.take_length]
    have hcl : s1.client = s.client := by rw [hs1]
    have hqq : s1.queue = queued'.map Prod.fst := by rw [hs1]
    have hse : s1.seen = s.seen := by rw [hs1]
    have hcount : s1.byteCount = s.byteCount := by rw [hs1]
    have hfin : s1.final = s.final := by rw [hs1]
    have hpr : s1.parser = .reading := by rw [hs1]; exact hp
    simp only at h2
    split at h2
    · rename_i hlen
      simp only [Option.some.injEq] at h2; subst h2
      have hc : p.plain c.1 = [] := by rw [← hb]; exact List.length_eq_zero_iff.1 hlen
      have hall : taken ++ c :: (queued' ++ remaining p s.client) = all p pushes := by rw [← heq]; simp
      have hnil := empty_is_last ho ht hall hc
      have hq' : queued' = [] := (List.append_eq_nil_iff.1 hnil).1
      have hr' : remaining p s.client = [] := (List.append_eq_nil_iff.1 hnil).2
      refine ⟨taken ++ [c], queued', ?_, ?_, ?_, ?_, ?_, ?_⟩
      · simp only [hcl]; rw [← hall]; simp
      · exact hqq
      · simp only [hcl]; exact h.client
      · simp only [ParserOk]
        refine ⟨?_, late_congr hlate rfl rfl, ?_, ?_⟩
        · rw [← hall, hq', hr']; simp
        · rw [hse, hseen, ← hall, hq', hr']
          simp [plains, hc]
        · rw [hfin, p7]
      · simp only [hqq, List.length_map]; simp only [List.length_map] at hbound; omega
      · simp only [hcount, hse]; exact h.count
    · rename_i hlen
      simp only [Option.some.injEq] at h2; subst h2
      have hc : p.plain c.1 ≠ [] := by
        rw [← hb]; intro e; rw [e] at hlen; simp at hlen
      refine ⟨taken ++ [c], queued', inv_nextEnd ⟨?_, ?_, ?_, ?_, ?_, ?_⟩ hpr ?_⟩
      · simp only [hcl]; rw [← heq]; simp
      · exact hqq
      · simp only [hcl]; exact h.client
      · simp only [ParserOk, hpr]
        refine ⟨?_, late_congr hlate rfl rfl, ?_, ?_, by omega, by omega, by rw [hfin, p7]⟩
        · intro x hx
          rcases List.mem_append.1 hx with hx | hx
          · exact p1 x hx
          · simp only [List.mem_singleton] at hx; subst hx; exact hc
        · rw [plains_append, plains_singleton, hb]; simp
        · rw [hse, hseen]; simp
      · simp only [hqq, List.length_map]; simp only [List.length_map] at hbound; omega
      · simp only [hcount, hse]; exact h.count
      · simp only; omega
  · rename_i hpos
    simp only [Option.some.injEq] at hs; subst hs
    exact ⟨taken, queued, inv_nextEnd h hp hpos⟩

theorem inv_skipLoop {p : Params β} {pushes : List (Push β)} (ho : Ok p pushes) (ht : Terminated pushes) {s s' : State β} {n : Nat}
    (h : Inv p pushes s) (hp : s.parser = .skipping n) (hlast : s.last = 0) (hs : skipLoop p s n = some s') :
    Inv p pushes s' := by
  obtain ⟨taken, queued, h⟩ := h
  have hP := h.parser
  simp only [ParserOk, hp] at hP
  obtain ⟨p1, p2, p3, p4, p5, p6, p7⟩ := hP
  unfold skipLoop at hs
  split at hs
  · rename_i hpos
    simp only [Option.bind_eq_bind, Option.bind_eq_some_iff] at hs
    obtain ⟨⟨s1, bytes⟩, h1, h2⟩ := hs
    obtain ⟨c, queued', hq, hb, hs1, hlate⟩ := pull_spec h p2 h1
    have heq := h.eq
    rw [hq] at heq
    have hbound := h.bound
    rw [h.queue, hq] at hbound
    simp only [List.map_cons, List.length_cons] at hbound
    have hseen : s.seen ++ s.bytes.drop s.position = plains p taken := by
      rw [p4, p3, List.append_assoc, List.take_append_drop]
    have hcl : s1.client = s.client := by rw [hs1]
    have hqq : s1.queue = queued'.map Prod.fst := by rw [hs1]
    have hfin : s1.final = s.final := by rw [hs1]
    have hla : s1.last = s.last := by rw [hs1]
    have hcount : s.byteCount + (s.bytes.length - s.position) = (s.seen ++ s.bytes.drop s.position).length := by
      simp only [List.length_append, List.length_drop, h.count]
    simp only at h2
    split at h2
    · rename_i hlen
      simp only [Option.some.injEq] at h2; subst h2
      have hc : p.plain c.1 = [] := by rw [← hb]; exact List.length_eq_zero_iff.1 hlen
      have hall : taken ++ c :: (queued' ++ remaining p s.client) = all p pushes := by rw [← heq]; simp
      have hnil := empty_is_last ho ht hall hc
      have hq' : queued' = [] := (List.append_eq_nil_iff.1 hnil).1
      have hr' : remaining p s.client = [] := (List.append_eq_nil_iff.1 hnil).2
      refine ⟨taken ++ [c], queued', ?_, ?_, ?_, ?_, ?_, ?_⟩
      · simp only [hcl]; rw [← hall]; simp
      · exact hqq
      · simp only [hcl]; exact h.client
      · simp only [ParserOk]
        refine ⟨?_, late_congr hlate rfl rfl, ?_, ?_⟩
        · rw [← hall, hq', hr']; simp
        · rw [hseen, ← hall, hq', hr']
          simp [plains, hc]
        · rw [hfin, p7]
      · simp only [hqq, List.length_map]; simp only [List.length_map] at hbound; omega
      · exact hcount
    · rename_i hlen
      simp only [Option.some.injEq] at h2; subst h2
      have hc : p.plain c.1 ≠ [] := by
        rw [← hb]; intro e; rw [e] at hlen; simp at hlen
      refine ⟨taken ++ [c], queued', ?_, ?_, ?_, ?_, ?_, ?_⟩
      · simp only [hcl]; rw [← heq]; simp
      · exact hqq
      · simp only [hcl]; exact h.client
      · simp only [ParserOk]
        refine ⟨?_, late_congr hlate rfl rfl, ?_, ?_, by omega, by omega, by rw [hfin, p7]⟩
        · intro x hx
          rcases List.mem_append.1 hx with hx | hx
          · exact p1 x hx
          · simp only [List.mem_singleton] at hx; subst hx; exact hc
        · rw [plains_append, plains_singleton, hb]; simp
        · rw [hseen]; simp
      · simp only [hqq, List.length_map]; simp only [List.length_map] at hbound; omega
      · exact hcount
  · rename_i hpos
    simp only [Option.some.injEq] at hs; subst hs
    refine ⟨taken, queued, h.eq, h.queue, h.client, ?_, h.bound, ?_⟩
    · simp only [ParserOk]
      refine ⟨p1, late_congr p2 rfl rfl, p3, ?_, by omega, by omega, p7⟩
      rw [p4, List.append_assoc, List.take_add]
    · simp only [List.length_append, List.length_take, List.length_drop, h.count]; omega

/-- `Skip` prevents a call to `BackUp`. -/
def SkipInv (s : State β) : Prop := ∀ n, s.parser = .skipping n → s.last = 0

theorem inv_step {p : Params β} {pushes : List (Push β)} (ho : Ok p pushes) (ht : Terminated pushes) (s : State β) (l : Label)
    (s' : State β) (h : Inv p pushes s ∧ SkipInv s) (hs : step p s l = some s') : Inv p pushes s' ∧ SkipInv s' := by
  obtain ⟨h, hk⟩ := h
  unfold step at hs
  split at hs
  · refine ⟨inv_client ho h hs, ?_⟩
    have hps : s'.parser = s.parser ∧ s'.last = s.last := by
      unfold clientStep at hs
      split at hs
      · simp at hs
      · split at hs <;> (simp only [Option.some.injEq] at hs; subst hs; exact ⟨rfl, rfl⟩)
      · simp only at hs
        split at hs
        · simp only [Option.some.injEq] at hs; subst hs; exact ⟨rfl, rfl⟩
        · simp at hs
      · simp at hs
    intro n hn
    rw [hps.2]; exact hk n (by rw [← hps.1]; exact hn)
  · rename_i hp
    have hi := inv_next ho ht h hp hs
    refine ⟨hi, ?_⟩
    intro n hn
    exfalso
    have key : ∀ t : State β, t.parser = .reading → (nextEnd t).parser ≠ .skipping n := by
      intro t htp
      unfold nextEnd
      split
      · simp [htp]
      · simp
    unfold next at hs
    split at hs
    · simp only [Option.bind_eq_bind, Option.bind_eq_some_iff] at hs
      obtain ⟨⟨s1, bytes⟩, h1, h2⟩ := hs
      simp only at h2
      have hs1 : s1.parser = .reading ∨ s1.parser = .crashed := by
        unfold pull at h1
        split at h1
        · simp at h1
        · split at h1
          · simp only [Option.some.injEq, Prod.mk.injEq] at h1; rw [← h1.1]; right; rfl
          · simp only [Option.some.injEq, Prod.mk.injEq] at h1; rw [← h1.1]; left; exact hp
      split at h2
      · simp only [Option.some.injEq] at h2; subst h2; simp at hn
      · simp only [Option.some.injEq] at h2; subst h2
        rcases hs1 with hs1 | hs1
        · exact key { s1 with bytes := bytes, position := 0, last := 0 } hs1 hn
        · unfold nextEnd at hn
          split at hn
          · simp [hs1] at hn
          · simp at hn
    · simp only [Option.some.injEq] at hs; subst hs
      exact key s hp hn
  · rename_i count hp
    split at hs
    · rename_i hc
      simp only [Option.some.injEq] at hs; subst hs
      refine ⟨?_, fun n hn => rfl⟩
      obtain ⟨taken, queued, h⟩ := h
      have hP := h.parser
      simp only [ParserOk, hp] at hP
      obtain ⟨p1, p2, p3, p4, p5, p6, p7⟩ := hP
      have hlen : (s.bytes.take s.position).length = s.position := by rw [List.length_take]; omega
      refine ⟨taken, queued, h.eq, h.queue, h.client, ?_, h.bound, ?_⟩
      · simp only [ParserOk, hp]
        refine ⟨p1, late_congr p2 rfl rfl, p3, ?_, by omega, by omega, p7⟩
        rw [p4]
        rw [List.take_append, List.length_append, hlen]
        rw [List.take_of_length_le (by omega), List.take_take]
        congr 2
        omega
      · simp only [List.length_take, h.count]; omega
    · simp at hs
  · rename_i count hp
    simp only [Option.some.injEq] at hs; subst hs
    refine ⟨?_, fun n hn => rfl⟩
    obtain ⟨taken, queued, h⟩ := h
    have hP := h.parser
    simp only [ParserOk, hp] at hP
    obtain ⟨p1, p2, p3, p4, p5, p6, p7⟩ := hP
    refine ⟨taken, queued, h.eq, h.queue, h.client, ?_, h.bound, h.count⟩
    simp only [ParserOk]
    exact ⟨p1, late_congr p2 rfl rfl, p3, p4, p5, by omega, p7⟩
  · rename_i n hp
    have hl := hk n hp
    refine ⟨inv_skipLoop ho ht h hp hl hs, ?_⟩
    intro m hm
    unfold skipLoop at hs
    split at hs
    · simp only [Option.bind_eq_bind, Option.bind_eq_some_iff] at hs
      obtain ⟨⟨s1, bytes⟩, h1, h2⟩ := hs
      simp only at h2
      have hs1 : s1.last = s.last := by
        unfold pull at h1
        split at h1
        · simp at h1
        · split at h1 <;> (simp only [Option.some.injEq, Prod.mk.injEq] at h1; rw [← h1.1])
      split at h2
      · simp only [Option.some.injEq] at h2; subst h2; simp at hm
      · simp only [Option.some.injEq] at h2; subst h2; simp only; omega
    · simp only [Option.some.injEq] at hs; subst hs; simp at hm
  · rename_i hp
    refine ⟨?_, ?_⟩
    · obtain ⟨taken, queued, h⟩ := h
      have hP := h.parser
      simp only [ParserOk, hp] at hP
      obtain ⟨p1, ⟨ex, x, e1, e2, e3⟩, p3, p4⟩ := hP
      have heq := h.eq
      have hq : queued = [] := by
        rw [p1] at heq
        have := congrArg List.length heq
        simp only [List.length_append] at this
        exact List.length_eq_zero_iff.1 (by omega)
      rw [e2, hq] at hs
      simp only [List.map_nil, Option.some.injEq] at hs
      subst hs
      refine ⟨taken, queued, h.eq, h.queue, h.client, ?_, h.bound, h.count⟩
      simp only [ParserOk]
      refine ⟨p1, trivial, ?_, p3, by rw [p4]⟩
      rw [e3, ← p1]
      have h1 : (ex ++ [x]).filterMap id = (none :: taken.map Prod.snd).filterMap id := by rw [e1]
      rw [List.filterMap_append] at h1
      have h2 : ([x] : List (Option Nat)).filterMap id = x.toList := by cases x <;> rfl
      rw [h2] at h1
      rw [h1]
      simp [List.filterMap_map]
    · intro n hn
      split at hs <;> (simp only [Option.some.injEq] at hs; subst hs; simp at hn)
  · simp at hs

theorem inv_run {p : Params β} {pushes : List (Push β)} (ho : Ok p pushes) (ht : Terminated pushes) {ls : List Label} {s : State β}
    (hr : run (step p) (init pushes) ls = some s) : Inv p pushes s :=
  (run_invariant (fun s => Inv p pushes s ∧ SkipInv s) (inv_step ho ht)
    ⟨inv_init p pushes, fun n hn => rfl⟩ hr).1

/-! ## Theorems -/

/-- A prefix of the slices corresponds to a number of complete pushes, and callbacks are on the last slice of each push. -/
theorem prefix_slices {p : Params β} {all' : List (Push β)} (ho : Ok p all') (pushes : List (Push β)) (hsub : ∀ a ∈ pushes, a ∈ all')
    (l r : List (List β × Option Nat)) (h : l ++ r = all p pushes) :
    ∃ k, l.filterMap Prod.snd = callbacks (pushes.take k) ∧ content p (pushes.take k) <+: plains p l := by
  induction pushes generalizing l with
  | nil =>
    have : l = [] := by
      simp only [all, List.flatMap_nil, List.append_eq_nil_iff] at h
      exact h.1
    exact ⟨0, by simp [this, callbacks], by simp [content]⟩
  | cons a pushes ih =>
    have h1 : all p (a :: pushes) = slices p.queuedChunkSize a.bytes a.done ++ all p pushes := by simp [all]
    rw [h1] at h
    rcases List.append_eq_append_iff.1 h with ⟨m, hm1, hm2⟩ | ⟨m, hm1, hm2⟩
    · by_cases hme : m = []
      · subst hme
        rw [List.append_nil] at hm1
        refine ⟨1, ?_, ?_⟩
        · rw [← hm1, slices_filterMap]
          simp only [List.take_succ_cons, List.take_zero, callbacks, List.filterMap_cons, List.filterMap_nil]
          cases a.done <;> rfl
        · rw [← hm1, plains_slices ho (hsub a (by simp))]
          simp [content]
      · refine ⟨0, ?_, by simp [content]⟩
        obtain ⟨init, i1, i2, i3⟩ := slices_callbacks p.queuedChunkSize a.bytes a.done
        obtain ⟨m', y, rfl⟩ := (List.eq_nil_or_concat m).resolve_left hme
        rw [i1, List.concat_eq_append, ← List.append_assoc] at hm1
        have := (List.append_inj' hm1 rfl).1
        simp only [List.take_zero, callbacks, List.filterMap_nil]
        rw [List.filterMap_eq_nil_iff]
        intro x hx
        exact i2 x (by rw [this]; simp [hx])
    · obtain ⟨k, k1, k2⟩ := ih (fun b hb => hsub b (by simp [hb])) m hm2.symm
      refine ⟨k + 1, ?_, ?_⟩
      · rw [hm1, List.filterMap_append, slices_filterMap, k1]
        simp only [List.take_succ_cons, callbacks, List.filterMap_cons]
        cases a.done <;> rfl
      · rw [hm1, plains_append, plains_slices ho (hsub a (by simp))]
        simp only [List.take_succ_cons, content, List.map_cons, List.flatten_cons]
        exact (List.prefix_append_right_inj _).2 k2

/-- At any time, in every interleaving and for every use that the parser makes of the stream, what the parser has seen is a prefix of
the concatenation of the arrays pushed; `ByteCount` is the number of bytes seen; the queue is bounded; no check fails; and the callbacks
that were run are those of the first arrays, whose bytes have all been consumed. -/
theorem C12_stream (p : Params β) (pushes : List (Push β)) (ho : Ok p pushes) (ht : Terminated pushes) (ls : List Label)
    (s : State β) (hr : run (step p) (init pushes) ls = some s) :
    s.seen <+: content p pushes ∧ s.byteCount = s.seen.length ∧ s.queue.length ≤ p.numberOfChunks ∧
    s.parser ≠ .crashed ∧ s.client ≠ .crashed ∧
    ∃ k, s.calls = callbacks (pushes.take k) ∧ content p (pushes.take k) <+: s.seen := by
  obtain ⟨taken, queued, h⟩ := inv_run ho ht hr
  have hcontent := plains_all ho pushes (fun a ha => ha)
  have hcl : s.client ≠ .crashed := by
    intro e; have := h.client; rw [e] at this; exact this
  have heq := h.eq
  have hP := h.parser
  have key : ∀ ex x, none :: taken.map Prod.snd = ex ++ [x] → ex.filterMap id = taken.dropLast.filterMap Prod.snd := by
    intro ex x e
    have : ex = (none :: taken.map Prod.snd).dropLast := by rw [e]; simp
    rw [this]
    cases htk : taken with
    | nil => rfl
    | cons a l =>
      rw [← htk]
      have : (none :: taken.map Prod.snd).dropLast = none :: taken.dropLast.map Prod.snd := by
        rw [htk]; simp [List.dropLast, List.map_dropLast]
      rw [this, List.filterMap_cons_none rfl, List.filterMap_map]
      rfl
  have hdrop : ∃ r, taken.dropLast ++ r = all p pushes := by
    rw [← heq, List.append_assoc]
    rcases List.eq_nil_or_concat taken with e | ⟨l, x, e⟩
    · exact ⟨queued ++ remaining p s.client, by simp [e]⟩
    · exact ⟨x :: (queued ++ remaining p s.client), by simp [e]⟩
  obtain ⟨r, hr'⟩ := hdrop
  obtain ⟨k, k1, k2⟩ := prefix_slices ho pushes (fun a ha => ha) _ _ hr'
  have hreading : ((∀ x ∈ taken, p.plain x.1 ≠ []) ∧ Late taken queued s ∧
      plains p taken = plains p taken.dropLast ++ s.bytes ∧ s.seen = plains p taken.dropLast ++ s.bytes.take s.position ∧
      s.position ≤ s.bytes.length ∧ s.last ≤ s.position ∧ s.final = 0) →
      s.seen <+: content p pushes ∧ ∃ k, s.calls = callbacks (pushes.take k) ∧ content p (pushes.take k) <+: s.seen := by
    rintro ⟨p1, ⟨ex, x, e1, e2, e3⟩, p3, p4, p5, p6⟩
    refine ⟨?_, k, ?_, ?_⟩
    · rw [← hcontent, ← heq, plains_append, plains_append, p3, p4]
      refine List.IsPrefix.trans ?_ (List.prefix_append _ _)
      refine List.IsPrefix.trans ?_ (List.prefix_append _ _)
      exact (List.prefix_append_right_inj _).2 (List.take_prefix _ _)
    · rw [e3, key ex x e1, k1]
    · rw [p4]; exact k2.trans (List.prefix_append _ _)
  have hrest : s.seen <+: content p pushes ∧ s.parser ≠ .crashed ∧
      ∃ k, s.calls = callbacks (pushes.take k) ∧ content p (pushes.take k) <+: s.seen := by
    unfold ParserOk at hP
    split at hP
    · rename_i hp
      obtain ⟨a, b⟩ := hreading hP
      exact ⟨a, by rw [hp]; simp, b⟩
    · rename_i hp
      obtain ⟨a, b⟩ := hreading hP
      exact ⟨a, by rw [hp]; simp, b⟩
    · rename_i hp
      obtain ⟨p1, ⟨ex, x, e1, e2, e3⟩, p3, p4⟩ := hP
      refine ⟨by rw [p3, hcontent]; exact List.prefix_refl _, by rw [hp]; simp, k, ?_, ?_⟩
      · rw [e3, key ex x e1, k1]
      · rw [p3]
        refine k2.trans ?_
        rw [← hr', plains_append]
        exact List.prefix_append _ _
    · rename_i hp
      obtain ⟨p1, p2, p3, p4, p5⟩ := hP
      refine ⟨by rw [p4, hcontent]; exact List.prefix_refl _, by rw [hp]; simp, pushes.length, ?_, ?_⟩
      · rw [p3, all_callbacks, List.take_length]
      · rw [p4, hcontent, List.take_length]; exact List.prefix_refl _
    · exact hP.elim
  exact ⟨hrest.1, h.count, h.bound, hrest.2.1, hcl, hrest.2.2⟩

/-- When the parser is told that the data are exhausted it has seen all of it; when the deserializing thread terminates, each of the
callbacks has run exactly once, in order, and then the final callback once. -/
theorem C12_end (p : Params β) (pushes : List (Push β)) (ho : Ok p pushes) (ht : Terminated pushes) (ls : List Label)
    (s : State β) (hr : run (step p) (init pushes) ls = some s) :
    (s.parser = .ended → s.seen = content p pushes ∧ s.final = 0) ∧
    (s.parser = .terminated → s.seen = content p pushes ∧ s.calls = callbacks pushes ∧ s.final = 1) := by
  obtain ⟨taken, queued, h⟩ := inv_run ho ht hr
  have hcontent := plains_all ho pushes (fun a ha => ha)
  have hP := h.parser
  constructor
  · intro hp
    simp only [ParserOk, hp] at hP
    exact ⟨by rw [hP.2.2.1, hcontent], hP.2.2.2⟩
  · intro hp
    simp only [ParserOk, hp] at hP
    exact ⟨by rw [hP.2.2.2.1, hcontent], by rw [hP.2.2.1, all_callbacks], hP.2.2.2.2⟩

theorem all_eq_nil_of {p : Params β} {ps : List (Push β)} (h : all p ps = []) : ps = [] := by
  cases ps with
  | nil => rfl
  | cons a ps =>
    exfalso
    have h1 : all p (a :: ps) = slices p.queuedChunkSize a.bytes a.done ++ all p ps := by simp [all]
    rw [h1] at h
    have := (List.append_eq_nil_iff.1 h).1
    rw [slices] at this
    split at this <;> simp at this

/-- There is no deadlock: until the deserializing thread terminates, either the client can make progress, or the current call of the
parser to the stream (or the next one) doesn't block. -/
theorem C12_no_deadlock (p : Params β) (pushes : List (Push β)) (ho : Ok p pushes) (ht : Terminated pushes) (ls : List Label)
    (s : State β) (hr : run (step p) (init pushes) ls = some s) (hn : s.parser ≠ .terminated) :
    (step p s .client).isSome ∨ (step p s .next).isSome ∨ (step p s .skipLoop).isSome ∨ (step p s .finish).isSome := by
  obtain ⟨taken, queued, h⟩ := inv_run ho ht hr
  have hP := h.parser
  have heq := h.eq
  have hchunks := ho.chunks
  have hclient : s.queue = [] → remaining p s.client ≠ [] → (step p s .client).isSome := by
    intro hq hrem
    have : step p s .client = clientStep p s := by unfold step; cases s.parser <;> rfl
    rw [this]
    unfold clientStep
    split
    · rename_i e; rw [e] at hrem; exact absurd rfl hrem
    · split <;> rfl
    · simp only [hq, List.length_nil, hchunks, if_true]; rfl
    · rename_i e; have := h.client; rw [e] at this; exact this.elim
  have hne : (∀ x ∈ taken, p.plain x.1 ≠ []) → s.queue = [] → remaining p s.client ≠ [] := by
    intro hx hq hrem
    have hqd : queued = [] := by
      have := h.queue; rw [hq] at this; exact List.map_eq_nil_iff.1 this.symm
    rw [hqd, hrem] at heq
    simp only [List.append_nil] at heq
    obtain ⟨x, hx1, hx2⟩ := exists_empty ho ht
    exact hx x (by rw [heq]; exact hx1) hx2
  have hdone : ∀ x q, s.done = x :: q → ∀ f t, s.queue = f :: t → (pull p s).isSome := by
    intro x q hd f t hq
    simp [pull, hq, hd]
  cases hp : s.parser with
  | reading =>
    simp only [ParserOk, hp] at hP
    obtain ⟨p1, ⟨ex, x, e1, e2, e3⟩, -⟩ := hP
    cases hq : s.queue with
    | nil => left; exact hclient hq (hne p1 hq)
    | cons f t =>
      right; left
      have : step p s .next = next p s := by unfold step; rw [hp]
      rw [this]
      unfold next
      split
      · obtain ⟨⟨s1, b⟩, h1⟩ := Option.isSome_iff_exists.1 (hdone _ _ e2 f t hq)
        rw [h1]
        simp only [Option.bind_eq_bind, Option.bind_some]
        split <;> rfl
      · rfl
  | skipping n =>
    simp only [ParserOk, hp] at hP
    obtain ⟨p1, ⟨ex, x, e1, e2, e3⟩, -⟩ := hP
    cases hq : s.queue with
    | nil => left; exact hclient hq (hne p1 hq)
    | cons f t =>
      right; right; left
      have : step p s .skipLoop = skipLoop p s n := by unfold step; rw [hp]
      rw [this]
      unfold skipLoop
      split
      · obtain ⟨⟨s1, b⟩, h1⟩ := Option.isSome_iff_exists.1 (hdone _ _ e2 f t hq)
        rw [h1]
        simp only [Option.bind_eq_bind, Option.bind_some]
        split <;> rfl
      · rfl
  | ended =>
    right; right; right
    unfold step
    rw [hp]
    simp only
    split <;> rfl
  | terminated => exact absurd hp hn
  | crashed => simp only [ParserOk, hp] at hP

/-- The number of bytes that the parser still has to skip. -/
def SkipOk (n : Nat) (s : State β) : Prop :=
  match s.parser with
  | .reading => s.seen.length = n
  | .skipping r => s.seen.length + r = n
  | .ended => s.seen.length < n
  | .terminated => False
  | .crashed => True

theorem pull_seen {p : Params β} {s s' : State β} {b : List β} (h : pull p s = some (s', b)) : s'.seen = s.seen := by
  unfold pull at h
  split at h
  · simp at h
  · split at h
    · simp only [Option.some.injEq, Prod.mk.injEq] at h; rw [← h.1]
    · simp only [Option.some.injEq, Prod.mk.injEq] at h; rw [← h.1]

theorem skipOk_step {p : Params β} {n : Nat} {s s' : State β} {l : Label} (hl : l = .client ∨ l = .skipLoop) (h : SkipOk n s)
    (hs : step p s l = some s') : SkipOk n s' := by
  rcases hl with rfl | rfl
  · have : step p s .client = clientStep p s := by unfold step; cases s.parser <;> rfl
    rw [this] at hs
    have h2 : s'.parser = s.parser ∧ s'.seen = s.seen := by
      unfold clientStep at hs
      split at hs
      · simp at hs
      · split at hs <;> (simp only [Option.some.injEq] at hs; subst hs; exact ⟨rfl, rfl⟩)
      · simp only at hs
        split at hs
        · simp only [Option.some.injEq] at hs; subst hs; exact ⟨rfl, rfl⟩
        · simp at hs
      · simp at hs
    unfold SkipOk at h ⊢
    rw [h2.1, h2.2]; exact h
  · cases hp : s.parser with
    | skipping r =>
      have : step p s .skipLoop = skipLoop p s r := by unfold step; rw [hp]
      rw [this] at hs
      have h0 : s.seen.length + r = n := by simpa only [SkipOk, hp] using h
      unfold skipLoop at hs
      split at hs
      · rename_i hlt
        simp only [Option.bind_eq_bind, Option.bind_eq_some_iff] at hs
        obtain ⟨⟨s1, b⟩, h1, h2⟩ := hs
        simp only at h2
        split at h2
        · simp only [Option.some.injEq] at h2; subst h2
          simp only [SkipOk, List.length_append, List.length_drop]; omega
        · simp only [Option.some.injEq] at h2; subst h2
          simp only [SkipOk, List.length_append, List.length_drop]; omega
      · rename_i hlt
        simp only [Option.some.injEq] at hs; subst hs
        simp only [SkipOk, List.length_append, List.length_take, List.length_drop]; omega
    | reading => unfold step at hs; rw [hp] at hs; simp at hs
    | ended => unfold step at hs; rw [hp] at hs; simp at hs
    | terminated => unfold step at hs; rw [hp] at hs; simp at hs
    | crashed => unfold step at hs; rw [hp] at hs; simp at hs

/-- A call to `Skip` that returns true consumes exactly the number of bytes requested, whatever the number of chunks that they span and
the concurrent calls to `Push`; one that returns false reaches the end of the data before that. -/
theorem C12_skip (p : Params β) (s s' : State β) (count : Nat) (ls : List Label) (hl : ∀ l ∈ ls, l = .client ∨ l = .skipLoop)
    (hr : run (step p) s (.skip count :: ls) = some s') :
    (s'.parser = .reading → s'.seen.length = s.seen.length + count) ∧
    (s'.parser = .ended → s'.seen.length < s.seen.length + count) := by
  simp only [run, Option.bind_eq_some_iff] at hr
  obtain ⟨s1, h1, h2⟩ := hr
  have hs1 : SkipOk (s.seen.length + count) s1 := by
    cases hp : s.parser with
    | reading =>
      unfold step at h1; rw [hp] at h1
      simp only [Option.some.injEq] at h1
      subst h1
      simp [SkipOk]
    | _ => unfold step at h1; rw [hp] at h1; simp at h1
  have : SkipOk (s.seen.length + count) s' := by
    clear h1
    induction ls generalizing s1 with
    | nil => simp only [run, Option.some.injEq] at h2; rw [← h2]; exact hs1
    | cons l ls ih =>
      simp only [run, Option.bind_eq_some_iff] at h2
      obtain ⟨s2, h3, h4⟩ := h2
      exact ih (fun l hl' => hl l (by simp [hl'])) s2 h4 (skipOk_step (hl l (by simp)) hs1 h3)
  constructor
  · intro hp; simpa only [SkipOk, hp] using this
  · intro hp; simpa only [SkipOk, hp] using this

/-- The hypotheses are satisfiable: an array split in two chunks, another one, with a parser that uses `BackUp` and `Skip`. -/
example : ∃ (p : Params Nat) (pushes : List (Push Nat)) (ls : List Label) (s : State Nat),
    Ok p pushes ∧ Terminated pushes ∧ run (step p) (init pushes) ls = some s ∧ s.parser = .terminated ∧
    s.seen = [1, 2, 3, 4, 5] ∧ s.calls = [10, 20, 30] := by
  refine ⟨⟨2, 2, 2, none⟩, [⟨[1, 2, 3], some 10⟩, ⟨[4, 5], some 20⟩, ⟨[], some 30⟩],
    [.client, .client, .client, .next, .backUp 1, .client, .client, .skip 2, .skipLoop, .skipLoop, .next, .client, .client, .next,
     .finish], _, ⟨by decide, by decide, by simp⟩, ⟨[⟨[1, 2, 3], some 10⟩, ⟨[4, 5], some 20⟩], some 30, rfl, by simp⟩, rfl, rfl, rfl, rfl⟩

end Principia.PushDeserializer
