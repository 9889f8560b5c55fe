import Verif.Base.PullSerializerModel
import Mathlib.Tactic.ByContra
import Mathlib.Tactic.FinCases
import Mathlib.Data.List.Nodup

/-!
# C11: the pull serializer delivers the exact byte stream
-/

set_option linter.unusedSimpArgs false
set_option linter.unusedVariables false

namespace Principia.PullSerializer

open Principia.Lts

variable {β : Type}

/-! ## Specification -/

/-- The writes are legal uses of the `ZeroCopyOutputStream` API. -/
def Legal (p : Params β) (ws : List (Write β)) : Prop :=
  ∀ w ∈ ws, w.data.length ≤ p.chunkSize ∧ (w.backUp = false → w.data.length = p.chunkSize)

/-- The serialization ends by a call to `BackUp`. -/
def Flushed (ws : List (Write β)) : Prop := ∀ w, ws.getLast? = some w → w.backUp = true

/-- The check in the constructor (base/pull_serializer_body.hpp:81), a nonzero size of the chunks, and a compressor that
doesn't produce an empty output for a nonempty input. -/
structure Params.Ok (p : Params β) : Prop where
  chunks : 1 < p.numberOfChunks - p.compressionChunks - 1
  size : 0 < p.chunkSize
  compressor : ∀ z, p.compressor = some z → ∀ l, l ≠ [] → z l ≠ []

/-- The effect of the compressor, if there is one. -/
def Params.compress (p : Params β) (l : List β) : List β :=
  match p.compressor with
  | none => l
  | some z => z l

/-- The arrays that the client should obtain: one for each nonempty write, compressed, and an empty one at the end. -/
def expected (p : Params β) (ws : List (Write β)) : List (List β) :=
  ((ws.map Write.data).filter (fun d => !d.isEmpty)).map p.compress ++ [[]]

/-! ## Invariant -/

/-- The arrays that will be pushed, given the data in the stream that have not been pushed, and the writes. -/
def rest (p : Params β) : Option (List β) → List (Write β) → List (List β)
  | _, [] => [[]]
  | pending, w :: ws =>
    pending.toList.map p.compress ++
      (if w.backUp then (if w.data.isEmpty then rest p none ws else p.compress w.data :: rest p none ws)
       else rest p (some w.data) ws)

def Continuation.rest (p : Params β) : Continuation β → List (List β)
  | .fill w ws => PullSerializer.rest p none (w :: ws)
  | .next ws => PullSerializer.rest p none ws
  | .done => []

/-- The compressor is not applied to the empty array. -/
def Params.compressArray (p : Params β) (l : List β) : List β := if l.isEmpty then l else p.compress l

/-- The arrays that will be pushed by the writer. -/
def future (p : Params β) (s : State β) : List (List β) :=
  match s.writer with
  | .next ws => rest p (if s.full then some (contents s.mem (s.current, p.chunkSize)) else none) ws
  | .fill w ws => rest p none (w :: ws)
  | .push size k => p.compressArray (contents s.mem (s.current, size)) :: k.rest p
  | .compress size k => p.compress (contents s.mem (s.current, size)) :: k.rest p
  | .enqueue size k => contents s.mem (s.current, size) :: k.rest p
  | .done | .crashed => []

/-- The arrays that are queued and that the client did not read. -/
def unread (s : State β) : List (List β) := (if s.reading then s.queue else s.queue.tail).map (contents s.mem)

def Continuation.Legal (p : Params β) : Continuation β → Prop
  | .fill w ws => PullSerializer.Legal p (w :: ws)
  | .next ws => PullSerializer.Legal p ws
  | .done => True

/-- The writes that remain are legal, the current chunk is the front of the free list, except during compression where it is another
one. -/
def WriterOk (p : Params β) (s : State β) : Prop :=
  match s.writer with
  | .next ws => Legal p ws ∧ s.free.head? = some s.current ∧
      (s.full = true → p.chunkSize ≤ (s.mem s.current).length)
  | .fill w ws => Legal p (w :: ws) ∧ s.free.head? = some s.current ∧ s.full = false
  | .push size k => k.Legal p ∧ s.free.head? = some s.current ∧ size ≤ p.chunkSize ∧ size ≤ (s.mem s.current).length ∧
      (size = 0 → k = .done) ∧ (k ≠ .done → s.full = false)
  | .compress size k => k.Legal p ∧ p.compressor.isSome ∧ s.current ∈ s.free ∧ s.free.head? ≠ some s.current ∧
      (k ≠ .done → s.full = false)
  | .enqueue size k => k.Legal p ∧ s.free.head? = some s.current ∧ (k ≠ .done → s.full = false)
  | .done => True
  | .crashed => False

structure Inv (p : Params β) (ws : List (Write β)) (s : State β) : Prop where
  nodup : (s.free ++ s.queue.map Prod.fst).Nodup
  count : s.free.length + s.queue.length = p.numberOfChunks
  nonempty : 1 ≤ s.queue.length
  bound : s.queue.length ≤ p.numberOfChunks - p.compressionChunks - 1
  writer : WriterOk p s
  stream : s.received ++ unread s ++ future p s = rest p none ws

theorem contents_write_ne {mem : Nat → List β} {c : Nat} {d : List β} {a : Nat × Nat} (h : a.1 ≠ c) :
    contents (write mem c d) a = contents mem a := by
  simp [contents, write, h]

theorem contents_write_self {mem : Nat → List β} {c : Nat} {d : List β} :
    contents (write mem c d) (c, d.length) = d := by
  simp [contents, write]

theorem map_contents_write {mem : Nat → List β} {c : Nat} {d : List β} {q : List (Nat × Nat)} (h : c ∉ q.map Prod.fst) :
    q.map (contents (write mem c d)) = q.map (contents mem) := by
  apply List.map_congr_left
  intro a ha
  exact contents_write_ne (fun e => h (List.mem_map.2 ⟨a, ha, e⟩))

theorem unread_write {s : State β} {c : Nat} {d : List β} (h : c ∉ s.queue.map Prod.fst) {s' : State β}
    (hq : s'.queue = s.queue) (hr : s'.reading = s.reading) (hm : s'.mem = write s.mem c d) :
    unread s' = unread s := by
  simp only [unread, hq, hr, hm]
  apply map_contents_write
  split
  · exact h
  · intro hh
    apply h
    obtain ⟨a, ha, e⟩ := List.mem_map.1 hh
    exact List.mem_map.2 ⟨a, List.mem_of_mem_tail ha, e⟩

theorem head_not_queued {p : Params β} {ws : List (Write β)} {s : State β} (h : Inv p ws s) {c : Nat} (hc : c ∈ s.free) :
    c ∉ s.queue.map Prod.fst := by
  intro hq
  exact (List.nodup_append.1 h.nodup).2.2 c hc c hq rfl

theorem compressionChunks_some {p : Params β} (h : p.compressor.isSome) : p.compressionChunks = 1 := by
  simp [Params.compressionChunks, h]

theorem inv_init (p : Params β) (hp : p.Ok) (junk : Nat → List β) (ws : List (Write β)) (hl : Legal p ws) :
    Inv p ws (init p junk ws) := by
  have := hp.chunks
  refine ⟨?_, ?_, by simp [init], by simp [init]; omega, ?_, ?_⟩
  · simp only [init, List.map_cons, List.map_nil]
    rw [← List.range_succ]
    exact List.nodup_range
  · simp [init]; omega
  · refine ⟨hl, ?_, by simp [init]⟩
    simp only [init]
    rw [List.head?_range, if_neg (by omega)]
  · simp [init, unread, future]

theorem rest_some {p : Params β} {d : List β} {w : Write β} {ws : List (Write β)} :
    rest p (some d) (w :: ws) = p.compress d :: rest p none (w :: ws) := by
  simp [rest]

theorem inv_writer {p : Params β} (hp : p.Ok) {ws : List (Write β)} {s s' : State β} (h : Inv p ws s)
    (hs : writerStep p s = some s') : Inv p ws s' := by
  have hW := h.writer
  have hS := h.stream
  unfold writerStep at hs
  split at hs
  · -- Next.
    rename_i w ws' hpc
    simp only [WriterOk, hpc] at hW
    simp only [future, hpc] at hS
    obtain ⟨w1, w2, w3⟩ := hW
    split at hs
    · rename_i hf
      simp only [Option.some.injEq] at hs; subst hs
      simp only [hf, if_true, rest_some] at hS
      refine ⟨h.nodup, h.count, h.nonempty, h.bound, ?_, ?_⟩
      · refine ⟨w1, w2, Nat.le_refl _, w3 hf, ?_, fun _ => rfl⟩
        intro h0; have := hp.size; omega
      · rw [← hS]
        have : (contents s.mem (s.current, p.chunkSize)).isEmpty = false := by
          rw [List.isEmpty_eq_false_iff, ← List.length_pos_iff]
          simp only [contents, List.length_take]
          have := w3 hf; have := hp.size
          omega
        simp only [future, Params.compressArray, this, Continuation.rest, Bool.false_eq_true, if_false]
        rfl
    · rename_i hf
      rw [if_pos hp.size] at hs
      simp only [Option.some.injEq] at hs; subst hs
      simp only [hf, if_false] at hS
      exact ⟨h.nodup, h.count, h.nonempty, h.bound, ⟨w1, w2, by simpa using hf⟩, hS⟩
  · -- Fill.
    rename_i w ws' hpc
    simp only [WriterOk, hpc] at hW
    simp only [future, hpc] at hS
    obtain ⟨w1, w2, w3⟩ := hW
    have hcur : s.current ∈ s.free := List.mem_of_mem_head? w2
    have hnq := head_not_queued h hcur
    have hl : Legal p ws' := fun w hw => w1 w (List.mem_cons_of_mem _ hw)
    obtain ⟨l1, l2⟩ := w1 w (by simp)
    have hlen : w.data.length ≤ (write s.mem s.current w.data s.current).length := by simp [write]
    rw [if_pos hp.size] at hs
    simp only at hs
    split at hs
    · rename_i hb
      split at hs
      · rename_i hpos
        simp only [Option.some.injEq] at hs; subst hs
        refine ⟨h.nodup, h.count, h.nonempty, h.bound, ?_, ?_⟩
        · exact ⟨hl, w2, l1, hlen, fun h0 => by omega, fun _ => rfl⟩
        · rw [← hS]
          rw [unread_write (s := s) (d := w.data) hnq ?_ ?_ ?_]; rotate_left; rfl; rfl; rfl
          have he : w.data.isEmpty = false := by rw [List.isEmpty_eq_false_iff, ← List.length_pos_iff]; exact hpos
          simp only [future, contents_write_self, Continuation.rest, rest, Params.compressArray, he, hb, if_true,
            Bool.false_eq_true, if_false, Option.toList_none, List.map_nil, List.nil_append]
      · rename_i hpos
        simp only [Option.some.injEq] at hs; subst hs
        refine ⟨h.nodup, h.count, h.nonempty, h.bound, ⟨hl, w2, by simp⟩, ?_⟩
        rw [← hS]
        rw [unread_write (s := s) (d := w.data) hnq ?_ ?_ ?_]; rotate_left; rfl; rfl; rfl
        have he : w.data.isEmpty = true := by
          rw [List.isEmpty_iff, ← List.length_eq_zero_iff]; omega
        simp [future, rest, hb, he]
    · rename_i hb
      have hb' : w.backUp = false := by simpa using hb
      simp only [Option.some.injEq] at hs; subst hs
      refine ⟨h.nodup, h.count, h.nonempty, h.bound, ⟨hl, w2, fun _ => by rw [← l2 hb']; exact hlen⟩, ?_⟩
      rw [← hS]
      rw [unread_write (s := s) (d := w.data) hnq ?_ ?_ ?_]; rotate_left; rfl; rfl; rfl
      have := @contents_write_self β s.mem s.current w.data
      rw [l2 hb'] at this
      simp [future, rest, hb', this]
  · -- End.
    rename_i hpc
    simp only [WriterOk, hpc] at hW
    simp only [future, hpc, rest] at hS
    obtain ⟨w1, w2, w3⟩ := hW
    split at hs
    · rename_i hf; rw [hf] at w2; simp at w2
    · rename_i c free hf
      rw [hf] at w2
      simp only [List.head?_cons, Option.some.injEq] at w2
      simp only [Option.some.injEq] at hs; subst hs
      refine ⟨h.nodup, h.count, h.nonempty, h.bound, ⟨trivial, by simp [hf], by omega, by omega, fun _ => rfl, by simp⟩, ?_⟩
      rw [← hS]
      have : contents s.mem (c, 0) = [] := by simp [contents]
      simp only [future, Continuation.rest, Params.compressArray, this, List.isEmpty_nil, if_true]
      rfl
  · -- Push.
    rename_i size k hpc
    simp only [WriterOk, hpc] at hW
    simp only [future, hpc] at hS
    obtain ⟨w1, w2, w3, w4, w5, w6⟩ := hW
    rw [if_neg (by omega)] at hs
    have hclen : (contents s.mem (s.current, size)).length = size := by
      simp only [contents, List.length_take]; omega
    split at hs
    · rename_i hc
      obtain ⟨hpos, hz⟩ := hc
      have hcc := compressionChunks_some hz
      have hcount := h.count
      have hbound := h.bound
      have hchunks := hp.chunks
      rw [hcc] at hbound
      rw [if_pos (by rw [hcc]; omega)] at hs
      split at hs
      · rename_i x c free hf
        simp only [Option.some.injEq] at hs; subst hs
        rw [hf] at w2
        simp only [List.head?_cons, Option.some.injEq] at w2
        subst w2
        have hperm : (c :: free ++ [s.current]).Perm s.free := by
          rw [hf]; exact (List.perm_append_singleton _ _)
        have hnd := h.nodup
        have hne : c ≠ s.current := by
          rw [hf] at hnd
          intro e
          simp [e] at hnd
        refine ⟨?_, ?_, h.nonempty, h.bound, ⟨w1, hz, ?_, ?_, w6⟩, ?_⟩
        · exact (hperm.append_right _).nodup_iff.2 hnd
        · rw [← hcount, hperm.length_eq]
        · simp
        · simp only [List.cons_append, List.head?_cons, ne_eq, Option.some.injEq]; exact hne
        · rw [← hS]
          have he : (contents s.mem (s.current, size)).isEmpty = false := by
            rw [List.isEmpty_eq_false_iff, ← List.length_pos_iff]; omega
          simp only [future, Params.compressArray, he, Bool.false_eq_true, if_false]
          rfl
      · rename_i hno
        exfalso
        have : 2 ≤ s.free.length := by omega
        match hf : s.free, this with
        | x :: c :: free, _ => exact hno x c free hf
    · rename_i hc
      simp only [Option.some.injEq] at hs; subst hs
      refine ⟨h.nodup, h.count, h.nonempty, h.bound, ⟨w1, w2, w6⟩, ?_⟩
      rw [← hS]
      have : p.compressArray (contents s.mem (s.current, size)) = contents s.mem (s.current, size) := by
        unfold Params.compressArray
        split
        · rfl
        · rename_i he
          have hpos : 0 < size := by
            rw [← hclen]
            rw [List.length_pos_iff]
            intro e; rw [e] at he; simp at he
          have : p.compressor = none := by
            cases hcomp : p.compressor with
            | none => rfl
            | some z => exact absurd ⟨hpos, by simp [hcomp]⟩ hc
          simp [Params.compress, this]
      simp only [future, this]
      rfl
  · -- Compress.
    rename_i size k hpc
    simp only [WriterOk, hpc] at hW
    simp only [future, hpc] at hS
    obtain ⟨w1, w2, w3, w4, w5⟩ := hW
    split at hs
    · rename_i z c free hz hf
      simp only [Option.some.injEq] at hs; subst hs
      have hcf : c ∈ s.free := by rw [hf]; simp
      have hnq := head_not_queued h hcf
      refine ⟨h.nodup, h.count, h.nonempty, h.bound, ⟨w1, by rw [hf]; rfl, w5⟩, ?_⟩
      rw [← hS]
      rw [unread_write (s := s) (d := z ((s.mem s.current).take size)) hnq ?_ ?_ ?_]; rotate_left; rfl; rfl; rfl
      simp only [future, contents_write_self]
      simp only [Params.compress, hz, contents]
    · rename_i hno
      exfalso
      cases hz : p.compressor with
      | none => rw [hz] at w2; simp at w2
      | some z =>
        cases hf : s.free with
        | nil => rw [hf] at w3; simp at w3
        | cons c free => exact hno z c free hz hf
  · -- Enqueue.
    rename_i size k hpc
    simp only [WriterOk, hpc] at hW
    simp only [future, hpc] at hS
    obtain ⟨w1, w2, w3⟩ := hW
    have hcount := h.count
    have hchunks := hp.chunks
    split at hs
    · rename_i hroom
      simp only at hs
      rw [if_pos (by omega)] at hs
      split at hs
      · rename_i c c' free hf
        rw [hf] at w2
        simp only [List.head?_cons, Option.some.injEq] at w2
        rw [hf] at hcount
        simp only [List.length_cons] at hcount
        rw [if_pos ⟨w2, by simp only [List.length_append, List.length_singleton]; omega⟩] at hs
        simp only [Option.some.injEq] at hs; subst hs
        have hfut : ∀ (mem : Nat → List β) (received : List (List β)) (reading : Bool), future p
            { mem := mem, free := c' :: free, queue := s.queue ++ [(s.current, size)], current := c', full := s.full,
              writer := k.pc, reading := reading, received := received : State β } = k.rest p := by
          intro mem received reading
          cases k with
          | fill w ws => rfl
          | next ws => have := w3 (by simp); simp [future, Continuation.pc, Continuation.rest, this]
          | done => rfl
        refine ⟨?_, ?_, ?_, ?_, ?_, ?_⟩
        · have hnd := h.nodup
          rw [hf] at hnd
          simp only [List.map_append, List.map_cons, List.map_nil]
          rw [← List.append_assoc]
          refine (List.perm_append_singleton _ _).nodup_iff.2 ?_
          rw [← w2]
          exact hnd
        · simp only [List.length_append, List.length_cons, List.length_singleton, List.length_nil]; omega
        · simp only [List.length_append, List.length_singleton]; omega
        · simp only [List.length_append, List.length_singleton]; omega
        · cases k with
          | fill w ws => exact ⟨w1, rfl, w3 (by simp)⟩
          | next ws => exact ⟨w1, rfl, fun hh => by have := w3 (by simp); simp only at hh; rw [this] at hh; simp at hh⟩
          | done => trivial
        · rw [hfut, ← hS]
          have hun : ∀ (free' : List Nat) (cur : Nat) (full : Bool) (w : WriterPc β) (received : List (List β)), unread
              { mem := s.mem, free := free', queue := s.queue ++ [(s.current, size)], current := cur, full := full,
                writer := w, reading := s.reading, received := received : State β }
              = unread s ++ [contents s.mem (s.current, size)] := by
            intro free' cur full w received
            simp only [unread]
            split
            · simp
            · rw [List.tail_append_of_ne_nil (List.length_pos_iff.1 h.nonempty)]
              simp
          rw [hun]
          simp
      · rename_i hno
        exfalso
        have : 2 ≤ s.free.length := by omega
        match hf : s.free, this with
        | x :: c :: free, _ => exact hno x c free hf
    · simp at hs
  · simp at hs
  · simp at hs

theorem inv_pull {p : Params β} (hp : p.Ok) {ws : List (Write β)} {s s' : State β} (h : Inv p ws s)
    (hr : s.reading = false) (hs : pull p s = some s') : Inv p ws s' := by
  have hW := h.writer
  have hS := h.stream
  unfold pull at hs
  split at hs
  · rename_i a b queue hq
    have hcount := h.count
    have hbound := h.bound
    have hnd := h.nodup
    rw [hq] at hcount hbound hnd
    simp only [List.length_cons] at hcount hbound
    rw [if_pos (by simp; omega)] at hs
    simp only [Option.some.injEq] at hs; subst hs
    have hfree : ∀ c, s.free.head? = some c → (s.free ++ [a.1]).head? = some c := by
      intro c hc
      cases hf : s.free with
      | nil => rw [hf] at hc; simp at hc
      | cons x l => rw [hf] at hc; simpa using hc
    refine ⟨?_, ?_, by simp, by simp only [List.length_cons]; omega, ?_, ?_⟩
    · simp only [List.map_cons] at hnd
      simpa [List.append_assoc] using hnd
    · simp only [List.length_append, List.length_cons, List.length_nil]; omega
    · unfold WriterOk at hW ⊢
      simp only
      split at hW
      · exact ⟨hW.1, hfree _ hW.2.1, hW.2.2⟩
      · exact ⟨hW.1, hfree _ hW.2.1, hW.2.2⟩
      · exact ⟨hW.1, hfree _ hW.2.1, hW.2.2⟩
      · obtain ⟨w1, w2, w3, w4, w5⟩ := hW
        refine ⟨w1, w2, by simp [w3], ?_, w5⟩
        cases hf : s.free with
        | nil => rw [hf] at w3; simp at w3
        | cons x l => rw [hf] at w4; simpa using w4
      · exact ⟨hW.1, hfree _ hW.2.1, hW.2.2⟩
      · trivial
      · exact hW
    · rw [← hS]
      have : unread s = (b :: queue).map (contents s.mem) := by simp [unread, hr, hq]
      rw [this]
      rfl
  · simp at hs

theorem inv_step {p : Params β} (hp : p.Ok) {ws : List (Write β)} (s : State β) (l : Label) (s' : State β) (h : Inv p ws s)
    (hs : step p s l = some s') : Inv p ws s' := by
  cases l with
  | writer => exact inv_writer hp h hs
  | pull =>
    simp only [step] at hs
    split at hs
    · simp at hs
    · rename_i hc
      simp only [Bool.or_eq_true, not_or] at hc
      exact inv_pull hp h (by simpa using hc.1) hs
  | read =>
    simp only [step] at hs
    split at hs
    · rename_i a queue hr hq
      simp only [Option.some.injEq] at hs; subst hs
      refine ⟨h.nodup, h.count, h.nonempty, h.bound, h.writer, ?_⟩
      have hS := h.stream
      rw [← hS]
      have h1 : unread s = contents s.mem a :: queue.map (contents s.mem) := by simp [unread, hr, hq]
      have h2 : future p { s with reading := false, received := s.received ++ [contents s.mem a] } = future p s := rfl
      rw [h1, h2]
      simp [unread, hq]
    · simp at hs

theorem inv_run {p : Params β} (hp : p.Ok) {ws : List (Write β)} (hl : Legal p ws) {junk : Nat → List β} {ls : List Label}
    {s : State β} (hr : run (step p) (init p junk ws) ls = some s) : Inv p ws s :=
  run_invariant (Inv p ws) (inv_step hp) (inv_init p hp junk ws hl) hr

theorem expected_cons (p : Params β) (w : Write β) (ws : List (Write β)) :
    expected p (w :: ws) = (if w.data.isEmpty then expected p ws else p.compress w.data :: expected p ws) := by
  unfold expected
  cases h : w.data.isEmpty <;> simp [h]

theorem rest_eq {p : Params β} (hp : p.Ok) (pending : Option (List β)) (ws : List (Write β)) (hl : Legal p ws) (hf : Flushed ws)
    (hn : pending.isSome → ws ≠ []) : rest p pending ws = pending.toList.map p.compress ++ expected p ws := by
  induction ws generalizing pending with
  | nil =>
    cases pending with
    | none => simp [rest, expected]
    | some d => simp at hn
  | cons w ws ih =>
    have hl' : Legal p ws := fun w hw => hl w (List.mem_cons_of_mem _ hw)
    have hf' : Flushed ws := by
      intro x hx
      apply hf x
      cases ws with
      | nil => simp at hx
      | cons y l => simpa [List.getLast?_cons_cons] using hx
    rw [rest, expected_cons]
    congr 1
    cases hb : w.backUp with
    | true => simp only [if_true]; rw [ih none hl' hf' (by simp)]; simp
    | false =>
      simp only [Bool.false_eq_true, if_false]
      have hne : ws ≠ [] := by
        intro e
        subst e
        have := hf w rfl
        rw [hb] at this; simp at this
      have hdata := (hl w (by simp)).2 hb
      have he : w.data.isEmpty = false := by
        rw [List.isEmpty_eq_false_iff, ← List.length_pos_iff, hdata]; exact hp.size
      rw [ih (some w.data) hl' hf' (fun _ => hne), he]
      simp

theorem expected_nonempty {p : Params β} (hp : p.Ok) (ws : List (Write β)) {l l' : List (List β)} {x : List β}
    (h : l ++ [x] ++ l' = expected p ws) (hx : x = []) : l' = [] := by
  by_contra hne
  obtain ⟨m, y, rfl⟩ := (List.eq_nil_or_concat l').resolve_left hne
  simp only [List.concat_eq_append] at h
  rw [← List.append_assoc, expected] at h
  have := List.append_inj' h rfl
  have hmem : x ∈ ((ws.map Write.data).filter (fun d => !d.isEmpty)).map p.compress := by
    rw [← this.1]; simp
  obtain ⟨d, hd, hdx⟩ := List.mem_map.1 hmem
  have hd' : d ≠ [] := by
    have := (List.mem_filter.1 hd).2
    intro e; subst e; simp at this
  rw [hx] at hdx
  unfold Params.compress at hdx
  cases hz : p.compressor with
  | none => rw [hz] at hdx; exact hd' hdx
  | some z => rw [hz] at hdx; exact hp.compressor z hz d hd' hdx

/-! ## Theorems -/

/-- In every interleaving of the serializing thread with a client that reads the arrays at any time before its next call to `Pull`, the
client only sees a prefix of the expected arrays, in order, without loss, duplication or corruption; once it has seen the empty array it
has seen all of them; no check fails. -/
theorem C11_stream (p : Params β) (hp : p.Ok) (ws : List (Write β)) (hl : Legal p ws) (hf : Flushed ws) (junk : Nat → List β)
    (ls : List Label) (s : State β) (hr : run (step p) (init p junk ws) ls = some s) :
    s.received <+: expected p ws ∧ (finished s → s.received = expected p ws) ∧ s.writer ≠ .crashed := by
  have h := inv_run hp hl hr
  have hS := h.stream
  rw [rest_eq hp none ws hl hf (by simp)] at hS
  simp only [Option.toList_none, List.map_nil, List.nil_append, List.append_assoc] at hS
  refine ⟨⟨_, hS⟩, ?_, ?_⟩
  · intro hfin
    unfold finished at hfin
    obtain h0 | ⟨l, x, hlx⟩ := List.eq_nil_or_concat s.received
    · rw [h0] at hfin; simp at hfin
    · simp only [List.concat_eq_append] at hlx
      rw [hlx] at hfin hS
      have hx : x = [] := by simpa using hfin
      have := expected_nonempty hp ws hS hx
      rw [this, List.append_nil] at hS
      rw [hlx, hS]
  · intro hc
    have hW := h.writer
    simp only [WriterOk, hc] at hW

theorem flatten_expected (p : Params β) (h : p.compressor = none) (ws : List (Write β)) :
    (expected p ws).flatten = (ws.map Write.data).flatten := by
  induction ws with
  | nil => rfl
  | cons w ws ih =>
    rw [expected_cons]
    split
    · rename_i he
      rw [ih, List.map_cons, List.flatten_cons, List.isEmpty_iff.1 he, List.nil_append]
    · simp only [List.flatten_cons, List.map_cons, ih, Params.compress, h]

/-- Without a compressor, the concatenation of the arrays obtained by the client is exactly the sequence of bytes written by the
serialization. -/
theorem C11_bytes (p : Params β) (hp : p.Ok) (h : p.compressor = none) (ws : List (Write β)) (hl : Legal p ws) (hf : Flushed ws)
    (junk : Nat → List β) (ls : List Label) (s : State β) (hr : run (step p) (init p junk ws) ls = some s) (hfin : finished s) :
    s.received.flatten = (ws.map Write.data).flatten := by
  rw [(C11_stream p hp ws hl hf junk ls s hr).2.1 hfin, flatten_expected p h]

/-- The writer doesn't touch the arrays that are queued. -/
theorem writer_queue {p : Params β} (hp : p.Ok) {ws : List (Write β)} {s s' : State β} (h : Inv p ws s)
    (hs : writerStep p s = some s') :
    (∃ q, s'.queue = s.queue ++ q) ∧ ∀ a ∈ s.queue, contents s'.mem a = contents s.mem a := by
  have key : ∀ (c : Nat) (d : List β), c ∈ s.free → ∀ a ∈ s.queue, contents (write s.mem c d) a = contents s.mem a := by
    intro c d hc a ha
    exact contents_write_ne (fun e => head_not_queued h hc (List.mem_map.2 ⟨a, ha, e⟩))
  have hW := h.writer
  unfold writerStep at hs
  split at hs
  · repeat' split at hs
    all_goals (simp only [Option.some.injEq] at hs; subst hs; exact ⟨⟨[], by simp⟩, fun _ _ => rfl⟩)
  · rename_i w ws' hpc
    simp only [WriterOk, hpc] at hW
    have hcur : s.current ∈ s.free := List.mem_of_mem_head? hW.2.1
    rw [if_pos hp.size] at hs
    simp only at hs
    repeat' split at hs
    all_goals (simp only [Option.some.injEq] at hs; subst hs; exact ⟨⟨[], by simp⟩, key _ _ hcur⟩)
  · repeat' split at hs
    all_goals (simp only [Option.some.injEq] at hs; subst hs; exact ⟨⟨[], by simp⟩, fun _ _ => rfl⟩)
  · repeat' split at hs
    all_goals (simp only [Option.some.injEq] at hs; subst hs; exact ⟨⟨[], by simp⟩, fun _ _ => rfl⟩)
  · split at hs
    · rename_i z c free hz hf
      simp only [Option.some.injEq] at hs; subst hs
      exact ⟨⟨[], by simp⟩, key c _ (by rw [hf]; simp)⟩
    · simp only [Option.some.injEq] at hs; subst hs; exact ⟨⟨[], by simp⟩, fun _ _ => rfl⟩
  · split at hs
    · simp only at hs
      split at hs
      · split at hs
        · split at hs
          · simp only [Option.some.injEq] at hs; subst hs; exact ⟨⟨_, rfl⟩, fun _ _ => rfl⟩
          · simp only [Option.some.injEq] at hs; subst hs; exact ⟨⟨[], by simp⟩, fun _ _ => rfl⟩
        · simp only [Option.some.injEq] at hs; subst hs; exact ⟨⟨[], by simp⟩, fun _ _ => rfl⟩
      · simp only [Option.some.injEq] at hs; subst hs; exact ⟨⟨[], by simp⟩, fun _ _ => rfl⟩
    · simp at hs
  · simp at hs
  · simp at hs

/-- The array returned by `Pull` is the first one of the queue; neither it nor the bytes that it designates change as long as the client
doesn't call `Pull` again, whatever the serializing thread does. -/
theorem C11_array_is_stable (p : Params β) (hp : p.Ok) (ws : List (Write β)) (hl : Legal p ws) (junk : Nat → List β)
    (ls ls' : List Label) (s s' : State β) (hr : run (step p) (init p junk ws) ls = some s) (hr' : run (step p) s ls' = some s')
    (hn : Label.pull ∉ ls') (a : Nat × Nat) (ha : s.queue.head? = some a) :
    s'.queue.head? = some a ∧ contents s'.mem a = contents s.mem a := by
  have h := inv_run hp hl hr
  clear hr ls
  induction ls' generalizing s with
  | nil => simp only [run, Option.some.injEq] at hr'; subst hr'; exact ⟨ha, rfl⟩
  | cons l ls' ih =>
    simp only [run, Option.bind_eq_some_iff] at hr'
    obtain ⟨s1, h1, h2⟩ := hr'
    have hi := inv_step hp s l s1 h h1
    have hn' : Label.pull ∉ ls' := fun hh => hn (List.mem_cons_of_mem _ hh)
    have hstep : s1.queue.head? = some a ∧ contents s1.mem a = contents s.mem a := by
      cases l with
      | pull => exact absurd List.mem_cons_self hn
      | writer =>
        obtain ⟨⟨q, hq⟩, hc⟩ := writer_queue hp h h1
        refine ⟨?_, hc a (List.mem_of_mem_head? ha)⟩
        rw [hq]
        cases hs : s.queue with
        | nil => rw [hs] at ha; simp at ha
        | cons b l => rw [hs] at ha; simpa using ha
      | read =>
        simp only [step] at h1
        split at h1
        · simp only [Option.some.injEq] at h1; subst h1; exact ⟨ha, rfl⟩
        · simp at h1
    obtain ⟨r1, r2⟩ := ih s1 h2 hn' hstep.1 hi
    exact ⟨r1, r2.trans hstep.2⟩

/-- There is no deadlock: as long as the client has not seen the empty array, either it or the serializing thread can make progress. -/
theorem C11_no_deadlock (p : Params β) (hp : p.Ok) (ws : List (Write β)) (hl : Legal p ws) (junk : Nat → List β)
    (ls : List Label) (s : State β) (hr : run (step p) (init p junk ws) ls = some s) (hfin : ¬ finished s) :
    ∃ l, (step p s l).isSome := by
  have h := inv_run hp hl hr
  have hW := h.writer
  by_cases hrd : s.reading = true
  · refine ⟨.read, ?_⟩
    have := h.nonempty
    cases hq : s.queue with
    | nil => rw [hq] at this; simp at this
    | cons a q => simp [step, hrd, hq]
  · have hrd' : s.reading = false := by simpa using hrd
    by_cases h2 : 2 ≤ s.queue.length
    · refine ⟨.pull, ?_⟩
      have hfin' : finished s = false := by simpa using hfin
      simp only [step, hrd', hfin', Bool.or_self, Bool.false_eq_true, if_false]
      match hq : s.queue, h2 with
      | a :: b :: q, _ =>
        simp only [pull, hq]
        split <;> rfl
    · refine ⟨.writer, ?_⟩
      have h1 : s.queue.length = 1 := by have := h.nonempty; omega
      simp only [step]
      unfold writerStep
      have hchunks := hp.chunks
      split
      · repeat' split
        all_goals rfl
      · rw [if_pos hp.size]; simp only; repeat' split
        all_goals rfl
      · repeat' split
        all_goals rfl
      · repeat' split
        all_goals rfl
      · repeat' split
        all_goals rfl
      · rw [if_pos (by omega)]; simp only; repeat' split
        all_goals rfl
      · rename_i hpc
        exfalso
        apply hfin
        have hS := h.stream
        have hun : unread s = [] := by
          simp only [unread, hrd', Bool.false_eq_true, if_false, List.map_eq_nil_iff]
          match hq : s.queue, h1 with
          | [a], _ => rfl
        simp only [future, hpc, hun, List.append_nil] at hS
        unfold finished
        rw [hS]
        have : ∀ (pending : Option (List β)) (ws : List (Write β)), (rest p pending ws).getLast? = some [] := by
          intro pending ws
          induction ws generalizing pending with
          | nil => simp [rest]
          | cons w ws ih =>
            have hn : ∀ pending, rest p pending ws ≠ [] := by
              intro q hq
              have := ih q
              rw [hq] at this; simp at this
            rw [rest, List.getLast?_append]
            have : (if w.backUp then (if w.data.isEmpty then rest p none ws else p.compress w.data :: rest p none ws)
               else rest p (some w.data) ws).getLast? = some [] := by
              split
              · split
                · exact ih none
                · rw [List.getLast?_cons, ih none]; rfl
              · exact ih _
            rw [this]; rfl
        rw [this]; rfl
      · rename_i hpc
        simp only [WriterOk, hpc] at hW

/-- The number of steps that remain. -/
def Continuation.weight : Continuation β → Nat
  | .fill _ ws => 12 * ws.length + 18
  | .next ws => 12 * ws.length + 12
  | .done => 0

def measure (s : State β) : Nat :=
  (match s.writer with
   | .next ws => 12 * ws.length + 12
   | .fill _ ws => 12 * ws.length + 18
   | .push _ k => k.weight + 5
   | .compress _ k => k.weight + 4
   | .enqueue _ k => k.weight + 3
   | .done | .crashed => 0) + 2 * s.queue.length + if s.reading then 1 else 0

theorem weight_pc (k : Continuation β) : (match k.pc with
   | .next ws => 12 * ws.length + 12
   | .fill _ ws => 12 * ws.length + 18
   | .push _ k => k.weight + 5
   | .compress _ k => k.weight + 4
   | .enqueue _ k => k.weight + 3
   | .done | .crashed => 0) = k.weight := by
  cases k <;> rfl

theorem measure_step {p : Params β} (hp : p.Ok) {ws : List (Write β)} (s : State β) (l : Label) (s' : State β) (h : Inv p ws s)
    (hs : step p s l = some s') : measure s' < measure s := by
  cases l with
  | writer =>
    simp only [step] at hs
    unfold writerStep at hs
    split at hs
    all_goals rename_i hpc
    · repeat' split at hs
      all_goals
        simp only [Option.some.injEq] at hs; subst hs
        simp only [measure, hpc, Continuation.weight, List.length_cons]; omega
    · simp only at hs
      repeat' split at hs
      all_goals
        simp only [Option.some.injEq] at hs; subst hs
        simp only [measure, hpc, Continuation.weight, List.length_cons]; omega
    · repeat' split at hs
      all_goals
        simp only [Option.some.injEq] at hs; subst hs
        simp only [measure, hpc, Continuation.weight, List.length_nil]; omega
    · repeat' split at hs
      all_goals
        simp only [Option.some.injEq] at hs; subst hs
        simp only [measure, hpc]; omega
    · repeat' split at hs
      all_goals
        simp only [Option.some.injEq] at hs; subst hs
        simp only [measure, hpc]; omega
    · split at hs
      · simp only at hs
        repeat' split at hs
        · simp only [Option.some.injEq] at hs; subst hs
          simp only [measure, hpc, weight_pc, List.length_append, List.length_singleton]; omega
        all_goals
          simp only [Option.some.injEq] at hs; subst hs
          simp only [measure, hpc]; omega
      · simp at hs
    · simp at hs
    · simp at hs
  | pull =>
    simp only [step] at hs
    split at hs
    · simp at hs
    · rename_i hc
      simp only [Bool.or_eq_true, not_or] at hc
      have hr : s.reading = false := by simpa using hc.1
      have hi := inv_pull hp h hr hs
      unfold pull at hs
      split at hs
      · rename_i a b q hq
        split at hs
        · simp only [Option.some.injEq] at hs; subst hs
          simp only [measure, hq, hr, List.length_cons, if_true, Bool.false_eq_true, if_false]; omega
        · simp only [Option.some.injEq] at hs; subst hs
          have := hi.writer
          simp only [WriterOk] at this
      · simp at hs
  | read =>
    simp only [step] at hs
    split at hs
    · rename_i a q hr hq
      simp only [Option.some.injEq] at hs; subst hs
      simp only [measure, hr, if_true, Bool.false_eq_true, if_false]; omega
    · simp at hs

/-- Every execution is finite: a client that keeps pulling eventually gets the empty array, after a number of steps bounded by the
number of writes.  (With `C11_no_deadlock`: the executions that cannot be extended are those where the client is finished.) -/
theorem C11_termination (p : Params β) (hp : p.Ok) (ws : List (Write β)) (hl : Legal p ws) (junk : Nat → List β)
    (ls : List Label) (s : State β) (hr : run (step p) (init p junk ws) ls = some s) :
    ls.length ≤ 12 * ws.length + 14 := by
  have := run_length (Inv p ws) (inv_step hp) measure (measure_step hp) (inv_init p hp junk ws hl) hr
  simp only [measure, init, List.length_singleton, Bool.false_eq_true, if_false] at this
  omega

/-- If the serialization doesn't end by a call to `BackUp`, which happens if the size of the message is a multiple of that of the chunks
and the last call to `Next` needs not be adjusted, the last chunk is never seen by the client. -/
theorem C11_last_chunk_lost_counterexample :
    ∃ (p : Params Nat) (ws : List (Write Nat)) (ls : List Label) (s : State Nat),
      p.Ok ∧ Legal p ws ∧ run (step p) (init p (fun _ => []) ws) ls = some s ∧ finished s ∧
      s.received.flatten ≠ (ws.map Write.data).flatten := by
  refine ⟨⟨3, 1, none⟩, [⟨[7], false⟩], [.writer, .writer, .writer, .writer, .writer, .pull, .read], _, ?_, ?_, rfl, ?_, ?_⟩
  · exact ⟨by decide, by decide, by simp⟩
  · intro w hw; simp only [List.mem_singleton] at hw; subst hw; simp
  · decide
  · decide

/-- The hypotheses are satisfiable: three chunks written and read with a compressor that prepends a byte. -/
example : ∃ (p : Params Nat) (ws : List (Write Nat)) (ls : List Label) (s : State Nat),
    p.Ok ∧ Legal p ws ∧ Flushed ws ∧ run (step p) (init p (fun _ => []) ws) ls = some s ∧ finished s ∧
      s.received = [[9, 1, 2], [9, 3], []] := by
  refine ⟨⟨4, 2, some (9 :: ·)⟩, [⟨[1, 2], false⟩, ⟨[3], true⟩],
    [.writer, .writer, .writer, .writer, .writer, .writer, .pull, .writer, .writer, .writer, .read, .writer, .pull, .read,
     .writer, .writer, .writer, .pull, .read], _, ?_, ?_, ?_, rfl, ?_, ?_⟩
  · exact ⟨by decide, by decide, by rintro z hz l hl; simp only [Option.some.injEq] at hz; subst hz; simp⟩
  · intro w hw; fin_cases hw <;> simp
  · intro w hw; simp at hw; subst hw; rfl
  · decide
  · decide

end Principia.PullSerializer
