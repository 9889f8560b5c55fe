import Verif.Base.HexModel

/-!
# Model of the journal

The journal is a text file in which each call of the interface of the library is recorded, by `Recorder` and `Method`, as a
line for its arguments and a line for its results, and from which `Player` replays the calls.

Characters and bytes are numbers.  The contents of a protocol buffer message are opaque: a `Message` has the number of its
extension (one extension per function of the interface) and three optional fields of a type `D`.
-/

namespace Principia.Journal

open Principia.Hexadecimal

set_option linter.unusedVariables false

/-! ## Streams -/

/-- A `std::ifstream` in text mode: what remains to be read, `eofbit` and `failbit`. -/
structure IStream where
  rest : List Nat
  eof : Bool
  fail : Bool
deriving DecidableEq

/-- The extraction loop of `std::istream::getline`, with room for `k` more characters: the characters stored, what remains,
and the bits that are set.  The C++ standard prescribes that the three conditions are tested in this order. -/
def extract : Nat → List Nat → List Nat × IStream
  | _, [] => ([], ⟨[], true, false⟩)
  | 0, c :: cs => if c = 10 then ([], ⟨cs, false, false⟩) else ([], ⟨c :: cs, false, true⟩)
  | k + 1, c :: cs =>
    if c = 10 then ([], ⟨cs, false, false⟩)
    else
      let r := extract k cs
      (c :: r.1, r.2)

/-- `std::istream::getline(buffer, size)`; the `failbit` is set if the stream is not good at the beginning, or if no
character is extracted. -/
def IStream.getline (size : Nat) (s : IStream) : List Nat × IStream :=
  if s.eof || s.fail then ([], { s with fail := true })
  else if s.rest = [] then ([], ⟨[], true, true⟩)
  else extract (size - 1) s.rest

/-- base/get_line_body.hpp:15-27 `GetLineWithSize`; the construction of a string from a `char*` stops at the first null.
The recursion is bounded by `fuel`; `none` means that it is exhausted. -/
def getLineWithSize : Nat → Nat → IStream → Option (List Nat × IStream)
  | 0, _, _ => none
  | fuel + 1, size, s =>
    let r := s.getline size
    if !r.2.eof && r.2.fail then do
      let r' ← getLineWithSize fuel (2 * size) { r.2 with eof := false, fail := false }
      return (r.1.takeWhile (· ≠ 0) ++ r'.1, r'.2)
    else some (r.1.takeWhile (· ≠ 0), r.2)

/-- base/get_line_body.hpp:13, 29-31 `GetLine`, with as much fuel as there are characters to read. -/
def getLine (s : IStream) : Option (List Nat × IStream) := getLineWithSize (s.rest.length + 1) 200 s

/-! ## Messages -/

/-- A `serialization::Method`, with the only extension `profile`, whose fields `in`, `out` and `return` are either absent
or given. -/
structure Message (D : Type) where
  profile : Nat
  input : Option D
  output : Option D
  result : Option D
deriving DecidableEq

/-- The serialization of protocol buffers: `SerializeAsBytes` and `ParseFromArray`. -/
structure Codec (D : Type) where
  serialize : Message D → List Nat
  parse : List Nat → Option (Message D)

variable {D : Type}

/-- The memory in which an array is at address 0. -/
def load (l : List Nat) : Mem := fun a => l.getD a 0

/-- base/hexadecimal_body.hpp:72-80, the overload of `Encode` that allocates its result, for a null-terminated encoder;
then the output of its `char*` to a stream, which stops at the first null.  `none` is a failed `CHECK`. -/
def hexadecimalText (bytes : List Nat) : Option (List Nat) := do
  let n := bytes.length
  let m ← encode true 0 n n (encodedLength true n) (load bytes)
  return ((List.range (encodedLength true n)).map fun i => m (n + i)).takeWhile (· ≠ 0)

/-- base/hexadecimal_body.hpp:115-123, the overload of `Decode` that allocates its result.  `none` is a failed `CHECK` or
an undefined behaviour. -/
def hexadecimalBytes (line : List Nat) : Option (List Nat) :=
  let n := line.length
  if 0 < decodedLength n then do
    let m ← decode 0 (n / 2 * 2) n (decodedLength n) (load line)
    return (List.range (decodedLength n)).map fun i => m (n + i)
  else some []

/-- Why the program stops. -/
inductive Failure
  /-- A failed `CHECK` or a `LOG(FATAL)`. -/
  | check
  /-- An undefined behaviour: the use or destruction of a mutex that violates its preconditions, or the use of a deleted
  object. -/
  | undefined
deriving DecidableEq

/-- journal/recorder.cpp:64-70 `Recorder::WriteLocked`: the text to be written. -/
def textOf (codec : Codec D) (m : Message D) : Except Failure (List Nat) :=
  let bytes := codec.serialize m
  if 0 < bytes.length then
    match hexadecimalText bytes with
    | some h => .ok (h ++ [10])
    | none => .error .check
  else .error .check

/-! ## Recording -/

/-- An object of class `Method` (journal/method.hpp, journal/method_body.hpp): its profile, whether its `out_filler_` is
not null, `returned_`, and the value captured by its `return_filler_`. -/
structure MethodState (D : Type) where
  profile : Nat
  outFiller : Bool
  returned : Bool
  result : Option D

/-- Where a thread is in a journalled function of the interface.  `session` is the number of the recorder that the thread
has seen, which stands for its address.  `todo` is what it still has to write. -/
inductive Pc (D : Type)
  | idle
  /-- In the constructor, in the call to `Lock` of recorder.cpp:29. -/
  | waiting (session : Nat) (profile : Nat) (input : Option D) (hasOut : Bool)
  /-- In the constructor, writing; the lock is held. -/
  | writingIn (session : Nat) (profile : Nat) (hasOut : Bool) (todo : List Nat)
  /-- Between the constructor and the destructor. -/
  | running (m : MethodState D)
  /-- In the destructor, writing. -/
  | writingOut (session : Nat) (todo : List Nat)
  /-- In the destructor, in the call to `Unlock` of recorder.cpp:35. -/
  | unlocking (session : Nat)

/-- A `Recorder`: the contents of its file, and the thread that holds its lock. -/
structure Recorder where
  file : List Nat
  holder : Option Nat

/-- `active_recorder_`, the number of the recorders that were created before it, their files, and the threads. -/
structure State (D : Type) where
  recorder : Option Recorder
  closed : List (List Nat)
  pc : Nat → Pc D

/-- No recorder is active and no function of the interface is being called. -/
def State.init : State D := ⟨none, [], fun _ => .idle⟩

/-- An atomic step: of a thread, for the first six, or the activation or deactivation of the recorder. -/
inductive Label (D : Type)
  /-- The constructor of `Method`, up to the lock: the profile, what is put in the `in` field, if there is one, and
  whether there is an `out` field. -/
  | enter (t : Nat) (profile : Nat) (input : Option D) (hasOut : Bool)
  /-- The acquisition of the lock. -/
  | acquire (t : Nat)
  /-- The output of a character. -/
  | put (t : Nat)
  /-- The call to `Return`, with the value put in the `return` field, if there is one. -/
  | ret (t : Nat) (result : Option D)
  /-- The destructor of `Method`, up to the output: what is put in the `out` field if there is one. -/
  | exit (t : Nat) (output : Option D)
  /-- The release of the lock. -/
  | unlock (t : Nat)
  | activate
  | deactivate

def State.at (s : State D) (t : Nat) (p : Pc D) : State D := { s with pc := fun u => if u = t then p else s.pc u }

/-- The recorder of the given session, if it has not been deleted. -/
def State.session (s : State D) (k : Nat) : Option Recorder := if s.closed.length = k then s.recorder else none

/-- journal/method_body.hpp:16-71, the four constructors of `Method`, up to the call to `Lock`.  Simplification: the
functions of the interface do not call one another, so that a thread is in one of them at most (ksp_plugin/interface.cpp:1135
and 1155 violate this when the debugging option `PRINCIPIA_VERIFY_SERIALIZATION` is set: the thread then waits for itself
if a recorder is active). -/
def enter (s : State D) (t p : Nat) (i : Option D) (h : Bool) : Option (Except Failure (State D)) :=
  match s.pc t with
  | .idle =>
    match s.recorder with
    | some _ => some (.ok (s.at t (.waiting s.closed.length p i h)))
    | none => some (.ok (s.at t (.running ⟨p, false, false, none⟩)))
  | _ => none

/-- journal/recorder.cpp:28-31 `WriteAtConstruction`: `absl::Mutex::Lock`, and the computation of the text to write. -/
def acquire (codec : Codec D) (s : State D) (t : Nat) : Option (Except Failure (State D)) :=
  match s.pc t with
  | .waiting k p i h =>
    match s.session k with
    | none => some (.error .undefined)
    | some r =>
      match r.holder with
      | some _ => none
      | none =>
        match textOf codec ⟨p, i, none, none⟩ with
        | .error e => some (.error e)
        | .ok text => some (.ok ({ s with recorder := some { r with holder := some t } }.at t (.writingIn k p h text)))
  | _ => none

/-- journal/recorder.cpp:68-69: the output of a character; the last one is followed by the end of the constructor or of
`WriteLocked`. -/
def put (s : State D) (t : Nat) : Option (Except Failure (State D)) :=
  match s.pc t with
  | .writingIn k p h (c :: todo) =>
    match s.session k with
    | none => some (.error .undefined)
    | some r => some (.ok ({ s with recorder := some { r with file := r.file ++ [c] } }.at t
        (if todo = [] then .running ⟨p, h, false, none⟩ else .writingIn k p h todo)))
  | .writingOut k (c :: todo) =>
    match s.session k with
    | none => some (.error .undefined)
    | some r => some (.ok ({ s with recorder := some { r with file := r.file ++ [c] } }.at t
        (if todo = [] then .unlocking k else .writingOut k todo)))
  | _ => none

/-- journal/method_body.hpp:90-112, the two overloads of `Return`. -/
def ret (s : State D) (t : Nat) (x : Option D) : Option (Except Failure (State D)) :=
  match s.pc t with
  | .running m =>
    if m.returned then some (.error .check)
    else some (.ok (s.at t (.running { m with
      returned := true, result := if s.recorder.isSome then x else none })))
  | _ => none

/-- journal/method_body.hpp:73-88, the destructor of `Method`, and recorder.cpp:33-34 `WriteAtDestruction`. -/
def exit (codec : Codec D) (s : State D) (t : Nat) (o : Option D) : Option (Except Failure (State D)) :=
  match s.pc t with
  | .running m =>
    if m.returned then
      match s.recorder with
      | none => some (.ok (s.at t .idle))
      | some _ =>
        match textOf codec ⟨m.profile, none, if m.outFiller then o else none, m.result⟩ with
        | .error e => some (.error e)
        | .ok text => some (.ok (s.at t (.writingOut s.closed.length text)))
    else some (.error .check)
  | _ => none

/-- journal/recorder.cpp:35: `absl::Mutex::Unlock`, whose precondition is that the lock is held by the thread. -/
def unlock (s : State D) (t : Nat) : Option (Except Failure (State D)) :=
  match s.pc t with
  | .unlocking k =>
    match s.session k with
    | none => some (.error .undefined)
    | some r =>
      if r.holder = some t then some (.ok ({ s with recorder := some { r with holder := none } }.at t .idle))
      else some (.error .undefined)
  | _ => none

/-- journal/recorder.cpp:38-52 `Recorder::Activate`, with a new recorder (ksp_plugin/interface.cpp:344-361).  The call to
`GetVersion` that follows is not distinguished from the other calls. -/
def activate (s : State D) : Option (Except Failure (State D)) :=
  match s.recorder with
  | none => some (.ok { s with recorder := some ⟨[], none⟩ })
  | some _ => some (.error .check)

/-- journal/recorder.cpp:54-58 `Recorder::Deactivate`; a mutex must not be destroyed while it is held. -/
def deactivate (s : State D) : Option (Except Failure (State D)) :=
  match s.recorder with
  | none => some (.error .check)
  | some r =>
    match r.holder with
    | some _ => some (.error .undefined)
    | none => some (.ok { s with recorder := none, closed := s.closed ++ [r.file] })

/-- `none` if the step is not possible in the state. -/
def step (codec : Codec D) (s : State D) : Label D → Option (Except Failure (State D))
  | .enter t p i h => enter s t p i h
  | .acquire t => acquire codec s t
  | .put t => put s t
  | .ret t x => ret s t x
  | .exit t o => exit codec s t o
  | .unlock t => unlock s t
  | .activate => activate s
  | .deactivate => deactivate s

/-- The execution of a schedule, up to the first failure. -/
def run (codec : Codec D) : State D → List (Label D) → Option (Except Failure (State D))
  | s, [] => some (.ok s)
  | s, l :: ls =>
    match step codec s l with
    | none => none
    | some (.error e) => some (.error e)
    | some (.ok s') => run codec s' ls

/-! ## Replaying -/

/-- What the player knows: the profiles listed in player.generated.cc, the one of `GetVersion`, and whether the version and
platform that a journal contains are those of the binary (journal/player.cpp:91-109). -/
structure Player (D : Type) where
  profiles : List Nat
  getVersion : Nat
  acceptsVersion : Option D → Bool

/-- `MergeFrom`, for messages that have the same extension.  Simplification: the fields present on both sides would be
merged recursively; here that of the second message replaces that of the first. -/
def Message.merge (a b : Message D) : Message D :=
  ⟨a.profile, b.input.or a.input, b.output.or a.output, b.result.or a.result⟩

/-- journal/player.cpp:56-73 `Player::Read`.  `ok none` is a null pointer. -/
def read (codec : Codec D) (s : IStream) : Except Failure (Option (Message D) × IStream) :=
  match getLine s with
  | none => .error .undefined
  | some (line, s) =>
    if line = [] then .ok (none, s)
    else
      match hexadecimalBytes line with
      | none => .error .check
      | some bytes =>
        if line.length % 2 = 0 then
          match codec.parse bytes with
          | none => .error .check
          | some m => .ok (some m, s)
        else .error .check

/-- journal/player_body.hpp:16-30 `RunIfAppropriate`: `none` if the profile is not that of the message, otherwise what is
given to the `Run` function of the profile. -/
def runIfAppropriate (profile : Nat) (i o : Message D) : Except Failure (Option (Message D)) :=
  if i.profile = profile then
    if o.profile = profile then .ok (some (i.merge o)) else .error .check
  else .ok none

/-- journal/player.generated.cc, which is produced by tools/journal_proto_processor.cpp:195-204, 2115-2119: each of the
profiles is given the messages.  The result is the list of the messages given to `Run` functions. -/
def runAll (i o : Message D) : List Nat → Except Failure (List (Message D))
  | [] => .ok []
  | p :: ps => do
    let m ← runIfAppropriate p i o
    let ms ← runAll i o ps
    return m.toList ++ ms

/-- journal/player.cpp:75-142 `Player::Process`: what is returned, what was given to `Run` functions, and the stream. -/
def process (player : Player D) (codec : Codec D) (s : IStream) (play : Bool) :
    Except Failure (Bool × List (Message D) × IStream) := do
  let (methodIn, s) ← read codec s
  match methodIn with
  | none => return (false, [], s)
  | some i =>
    let (methodOut, s) ← read codec s
    match methodOut with
    | none => return (false, [], s)
    | some o =>
      if i.profile = player.getVersion ∧
          ¬ player.acceptsVersion (if o.profile = player.getVersion then o.output else none) then .error .check
      else if play then do
        let ran ← runAll i o player.profiles
        if ran = [] then .error .check else return (true, ran, s)
      else return (true, [], s)

/-- How a replay ends. -/
inductive End
  | finished
  | failed (e : Failure)
  /-- The fuel is exhausted. -/
  | unfinished
deriving DecidableEq

/-- `while (player.Play(count)) { ++count; }` (journal/player_test.cpp:91-93): what was given to `Run` functions, and how
the loop ends. -/
def playLoop (player : Player D) (codec : Codec D) : Nat → IStream → List (Message D) × End
  | 0, _ => ([], .unfinished)
  | fuel + 1, s =>
    match process player codec s true with
    | .error e => ([], .failed e)
    | .ok (false, _, _) => ([], .finished)
    | .ok (true, ran, s') =>
      let r := playLoop player codec fuel s'
      (ran ++ r.1, r.2)

/-- Replay of a file: journal/player.cpp:34-38, 40-42; an iteration reads one character at least. -/
def replay (player : Player D) (codec : Codec D) (file : List Nat) : List (Message D) × End :=
  playLoop player codec (file.length + 1) ⟨file, false, false⟩

end Principia.Journal
