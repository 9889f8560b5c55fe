import Verif.Base.Lts

/-!
# Model of `base/pull_serializer_body.hpp`

The memory `data_` is modelled as `numberOfChunks` chunks, each designated by its number; the contents of a chunk is a list of
bytes (of an arbitrary type `β`).  That the chunks do not overlap (their addresses are multiples of `compressed_chunk_size_`, which is
not less than the number of bytes written in a chunk) is not modelled.

The serialization of the message makes an arbitrary legal sequence of calls to the `ZeroCopyOutputStream` API.  Such a sequence is
represented by a list of `Write`s.
-/

namespace Principia.PullSerializer

variable {β : Type}

/-- `numberOfChunks` and `chunkSize` are parameters of the constructor.  The compressor, if any, is an arbitrary function from the bytes
of a chunk to those of the compressed chunk. -/
structure Params (β : Type) where
  numberOfChunks : Nat
  chunkSize : Nat
  compressor : Option (List β → List β)

/-- base/pull_serializer_body.hpp:75: `number_of_compression_chunks_`. -/
def Params.compressionChunks (p : Params β) : Nat := if p.compressor.isSome then 1 else 0

/-- A call to `Next` followed by the writing of `data` in the array returned, and by a call to `BackUp` if `backUp` is true, with a
`count` which is the number of bytes not written.  Without a call to `BackUp`, the array must be filled. -/
structure Write (β : Type) where
  data : List β
  backUp : Bool

/-- What remains to be done by the serializing thread after a call to `Push`. -/
inductive Continuation (β : Type)
  | fill (w : Write β) (ws : List (Write β))   -- base/pull_serializer_body.hpp:31.
  | next (ws : List (Write β))                 -- base/pull_serializer_body.hpp:55.
  | done                                       -- base/pull_serializer_body.hpp:121.

/-- The program counter of the serializing thread. -/
inductive WriterPc (β : Type)
  | next (ws : List (Write β))                  -- About to call `Next`, or at line 115 if there is nothing left to write.
  | fill (w : Write β) (ws : List (Write β))    -- After `Next`: writing, and calling `BackUp`.
  | push (size : Nat) (k : Continuation β)      -- Line 146: `Push` called for the current chunk.
  | compress (size : Nat) (k : Continuation β)  -- Line 159.
  | enqueue (size : Nat) (k : Continuation β)   -- Line 168.
  | done
  | crashed                                     -- A failed `CHECK`.

structure State (β : Type) where
  mem : Nat → List β             -- The contents of the chunks.
  free : List Nat                -- `free_`.
  queue : List (Nat × Nat)       -- `queue_`: chunk and size.
  current : Nat                  -- The chunk of `bytes_`, either that of the stream or, in `Push`, the local variable.
  full : Bool                    -- `position_ == bytes_.size`; otherwise `position_` is 0.
  writer : WriterPc β
  reading : Bool                 -- Whether the client called `Pull` and did not read the result yet.
  received : List (List β)       -- Ghost: the contents of the arrays, as read by the client.

inductive Label
  | writer
  | pull
  | read

/-- base/pull_serializer_body.hpp:65-93: the constructor, and `Start` (107-123); the chunks contain arbitrary data. -/
def init (p : Params β) (junk : Nat → List β) (ws : List (Write β)) : State β :=
  { mem := junk, free := List.range (p.numberOfChunks - 1), queue := [(p.numberOfChunks - 1, 0)], current := 0, full := false,
    writer := .next ws, reading := false, received := [] }

/-- Writing at the beginning of a chunk. -/
def write (mem : Nat → List β) (c : Nat) (data : List β) : Nat → List β :=
  fun x => if x = c then data ++ (mem c).drop data.length else mem x

/-- The bytes of an array. -/
def contents (mem : Nat → List β) (a : Nat × Nat) : List β := (mem a.1).take a.2

def Continuation.pc : Continuation β → WriterPc β
  | .fill w ws => .fill w ws
  | .next ws => .next ws
  | .done => .done

/-- One step of the serializing thread. -/
def writerStep (p : Params β) (s : State β) : Option (State β) :=
  match s.writer with
  | .next (w :: ws) =>
    -- Lines 26-41 `Next`.
    if s.full then some { s with full := false, writer := .push p.chunkSize (.fill w ws) }
    else if 0 < p.chunkSize then some { s with writer := .fill w ws }
    else some { s with writer := .crashed }
  | .fill w ws =>
    if 0 < p.chunkSize then
      -- The caller of `Next` writes the data.
      let s := { s with mem := write s.mem s.current w.data, full := true }
      if w.backUp then
        -- Lines 43-59 `BackUp`.
        let s := { s with full := false }
        if 0 < w.data.length then some { s with writer := .push w.data.length (.next ws) }
        else some { s with writer := .next ws }
      else some { s with writer := .next ws }
    else some { s with writer := .crashed }
  | .next [] =>
    -- Lines 115-121.
    match s.free with
    | [] => some { s with writer := .crashed }
    | c :: _ => some { s with current := c, writer := .push 0 .done }
  | .push size k =>
    -- Lines 146-156.
    if p.chunkSize < size then some { s with writer := .crashed }
    else if 0 < size ∧ p.compressor.isSome then
      if 1 + p.compressionChunks ≤ s.free.length then
        match s.free with
        | _ :: c :: free => some { s with free := c :: free ++ [s.current], writer := .compress size k }
        | _ => some { s with writer := .crashed }
      else some { s with writer := .crashed }
    else some { s with writer := .enqueue size k }
  | .compress size k =>
    -- Lines 159-165.
    match p.compressor, s.free with
    | some z, c :: _ =>
      let data := z ((s.mem s.current).take size)
      some { s with mem := write s.mem c data, current := c, writer := .enqueue data.length k }
    | _, _ => some { s with writer := .crashed }
  | .enqueue size k =>
    -- Lines 168-185.
    if s.queue.length < p.numberOfChunks - p.compressionChunks - 1 then
      let queue := s.queue ++ [(s.current, size)]
      if 2 + p.compressionChunks ≤ s.free.length then
        match s.free with
        | c :: c' :: free =>
          if c = s.current ∧ p.numberOfChunks = queue.length + (free.length + 1) then
            some { s with queue := queue, free := c' :: free, current := c', writer := k.pc }
          else some { s with writer := .crashed }
        | _ => some { s with writer := .crashed }
      else some { s with writer := .crashed }
    else none
  | .done => none
  | .crashed => none

/-- base/pull_serializer_body.hpp:125-142 `Pull`; `none` if it blocks.  The failure of the `CHECK`s is represented by a crash of the
serializing thread. -/
def pull (p : Params β) (s : State β) : Option (State β) :=
  match s.queue with
  | a :: b :: queue =>
    if p.numberOfChunks = (b :: queue).length + (s.free ++ [a.1]).length then
      some { s with free := s.free ++ [a.1], queue := b :: queue, reading := true }
    else some { s with writer := .crashed }
  | _ => none

/-- The client has obtained an empty array. -/
def finished (s : State β) : Bool := s.received.getLast?.any List.isEmpty

/-- The client: it calls `Pull` and reads the contents of the result, at any time before the next call to `Pull`, until it gets an
empty array. -/
def step (p : Params β) (s : State β) : Label → Option (State β)
  | .writer => writerStep p s
  | .pull => if s.reading || finished s then none else pull p s
  | .read =>
    match s.reading, s.queue with
    | true, a :: _ => some { s with reading := false, received := s.received ++ [contents s.mem a] }
    | _, _ => none

end Principia.PullSerializer
