import Verif.Base.Lts

/-!
# Model of `base/push_deserializer_body.hpp`

One client thread makes a sequence of calls to `Push`.  The deserializing thread runs a parser which makes arbitrary calls to the
`ZeroCopyInputStream` API: they are chosen by the schedule.  The critical sections are atomic.  Arrays are modelled by their contents,
a list of bytes (of an arbitrary type `β`); the lifetime of the memory is represented by the time at which the callbacks run.
-/

namespace Principia.PushDeserializer

variable {β : Type}

/-- base/push_deserializer_body.hpp:107-119: the parameters of the constructor.  The compressor, if any, is an arbitrary function that
uncompresses an array; a failure of the decompression is not modelled.  `compressedChunkSize` is
`MaxCompressedLength(chunk_size)`. -/
structure Params (β : Type) where
  numberOfChunks : Nat
  chunkSize : Nat
  compressedChunkSize : Nat
  uncompress : Option (List β → List β)

/-- base/push_deserializer_body.hpp:189-195: `queued_chunk_size`. -/
def Params.queuedChunkSize (p : Params β) : Nat := if p.uncompress.isSome then p.compressedChunkSize else p.chunkSize

/-- The arguments of a call to `Push`; the callback is a number, or `none` for `nullptr`. -/
structure Push (β : Type) where
  bytes : List β
  done : Option Nat

/-- The program counter of the client. -/
inductive ClientPc (β : Type)
  | idle (ps : List (Push β))                                          -- About to call `Push`, or finished.
  | pushing (current : List β) (done : Option Nat) (ps : List (Push β)) -- Line 199.
  | crashed                                                             -- A failed `CHECK`.

/-- The program counter of the deserializing thread. -/
inductive ParserPc
  | reading                    -- Line 149, between calls to the stream.
  | skipping (remaining : Nat) -- Line 61.
  | ended                      -- Line 153: the parser has been told that there is no more data.
  | terminated                 -- After line 170.
  | crashed                    -- A failed `CHECK`.

structure State (β : Type) where
  queue : List (List β)        -- `queue_`.
  done : List (Option Nat)     -- `done_`.
  client : ClientPc β
  parser : ParserPc
  bytes : List β               -- `bytes_`.
  position : Nat               -- `position_`.
  last : Nat                   -- `last_returned_size_`.
  byteCount : Nat              -- `byte_count_`.
  seen : List β                -- Ghost: the bytes returned by `Next` and not backed up, and those skipped.
  calls : List Nat             -- Ghost: the callbacks that were run, in order.
  final : Nat                  -- Ghost: how many times the final callback was run.

inductive Label
  | client
  | next
  | backUp (count : Nat)
  | skip (count : Nat)
  | skipLoop
  | finish

/-- base/push_deserializer_body.hpp:107-122, and push_deserializer.hpp:49-55. -/
def init (pushes : List (Push β)) : State β :=
  { queue := [], done := [none], client := .idle pushes, parser := .reading, bytes := [], position := 0, last := 0, byteCount := 0,
    seen := [], calls := [], final := 0 }

/-- base/push_deserializer_body.hpp:174-218 `Push`: a step of the client. -/
def clientStep (p : Params β) (s : State β) : Option (State β) :=
  match s.client with
  | .idle [] => none
  | .idle (push :: ps) =>
    -- Lines 189-195.
    if p.uncompress.isSome ∧ p.compressedChunkSize < push.bytes.length then some { s with client := .crashed }
    else some { s with client := .pushing push.bytes push.done ps }
  | .pushing current done ps =>
    -- Lines 199-217.
    let isLast := current.length ≤ p.queuedChunkSize
    if s.queue.length < p.numberOfChunks then
      some { s with queue := s.queue ++ [current.take (min current.length p.queuedChunkSize)],
                    done := s.done ++ [if isLast then done else none],
                    client := if isLast then .idle ps else .pushing (current.drop p.queuedChunkSize) done ps }
    else none
  | .crashed => none

/-- base/push_deserializer_body.hpp:227-257 `Pull`: the new state and the array returned, `none` if it blocks. -/
def pull (p : Params β) (s : State β) : Option (State β × List β) :=
  match s.queue with
  | [] => none
  | front :: queue =>
    match s.done with
    | [] => some ({ s with parser := .crashed }, [])
    | done :: dones =>
      some ({ s with queue := queue, done := dones, calls := s.calls ++ done.toList },
            match p.uncompress with
            | none => front
            | some f => if front.length = 0 then front else f front)

/-- base/push_deserializer_body.hpp:38-44: the end of `Next`. -/
def nextEnd (s : State β) : State β :=
  if s.position < s.bytes.length then
    let last := s.bytes.length - s.position
    { s with last := last, byteCount := s.byteCount + last, position := s.position + last,
             seen := s.seen ++ s.bytes.drop s.position }
  else { s with parser := .crashed }

/-- base/push_deserializer_body.hpp:26-45 `Next`. -/
def next (p : Params β) (s : State β) : Option (State β) :=
  if s.position = s.bytes.length then do
    let (s, bytes) ← pull p s
    let s := { s with bytes := bytes, position := 0, last := 0 }
    if bytes.length = 0 then some { s with parser := .ended } else some (nextEnd s)
  else some (nextEnd s)

/-- base/push_deserializer_body.hpp:60-75: the loop of `Skip`. -/
def skipLoop (p : Params β) (s : State β) (remaining : Nat) : Option (State β) :=
  if s.bytes.length - s.position < remaining then do
    let n := s.bytes.length - s.position
    let (s', bytes) ← pull p s
    let s' := { s' with byteCount := s.byteCount + n, seen := s.seen ++ s.bytes.drop s.position, bytes := bytes, position := 0 }
    if bytes.length = 0 then some { s' with parser := .ended } else some { s' with parser := .skipping (remaining - n) }
  else some { s with byteCount := s.byteCount + remaining, position := s.position + remaining,
                     seen := s.seen ++ (s.bytes.drop s.position).take remaining, parser := .reading }

/-- One step.  The calls to `BackUp` that violate the contract (lines 48-51) are not considered. -/
def step (p : Params β) (s : State β) (l : Label) : Option (State β) :=
  match l, s.parser with
  | .client, _ => clientStep p s
  | .next, .reading => next p s
  | .backUp count, .reading =>
    -- Lines 47-55.
    if 0 < s.last ∧ count ≤ s.last then
      some { s with position := s.position - count, byteCount := s.byteCount - count, last := 0,
                    seen := s.seen.take (s.seen.length - count) }
    else none
  | .skip count, .reading => some { s with last := 0, parser := .skipping count }
  | .skipLoop, .skipping remaining => skipLoop p s remaining
  | .finish, .ended =>
    -- Lines 152-170.
    match s.done with
    | [done] => some { s with done := [], calls := s.calls ++ done.toList, final := s.final + 1, parser := .terminated }
    | _ => some { s with parser := .crashed }
  | _, _ => none

end Principia.PushDeserializer
