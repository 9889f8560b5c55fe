import Verif.Base.Lts

/-!
# Model of `base/recurring_thread_body.hpp`

The inputs are identified by the ordinal of the call to `Put` that provided them.  The action is an arbitrary function of that ordinal
(therefore it may have side-effects and be non-deterministic); `none` stands for an error.  The critical sections are atomic.  The
passing of time is not modelled: the thread may sleep for an arbitrary time.
-/

namespace Principia.RecurringThread

variable {O : Type}

/-- The program counter of the thread. -/
inductive Pc (O : Type)
  | stopped                       -- There is no thread.
  | loop                          -- base/recurring_thread_body.hpp:45-46.
  | take                          -- base/recurring_thread_body.hpp:81-87.
  | taken (i : Nat)               -- base/recurring_thread_body.hpp:88.
  | act (i : Nat)                 -- base/recurring_thread_body.hpp:90.
  | acted (i : Nat) (o : Option O) -- base/recurring_thread_body.hpp:91.
  | publish (i : Nat) (o : Option O) -- base/recurring_thread_body.hpp:93-98.
  | loopEnd                       -- base/recurring_thread_body.hpp:50 and 44.

structure State (O : Type) where
  input : Option Nat              -- `input_`.
  output : Option O               -- `output_`.
  stopRequested : Bool            -- The stop token of the thread.
  pc : Pc O
  puts : Nat                      -- Ghost: the number of calls to `Put`.
  processed : List Nat            -- Ghost: the inputs for which the action was run, in order.
  produced : List O               -- Ghost: the values written to `output_`, in order.
  got : List O                    -- Ghost: the values returned by `Get`, in order.

inductive Label
  | put
  | get
  | start
  | stop
  | thread

/-- base/recurring_thread_body.hpp:54-59: the constructor. -/
def init : State O :=
  { input := none, output := none, stopRequested := false, pc := .stopped, puts := 0, processed := [], produced := [], got := [] }

/-- base/recurring_thread_body.hpp:42-52 `RepeatedlyRunAction` and 77-99 `RunAction`: a step of the thread. -/
def threadStep (action : Nat → Option O) (s : State O) : Option (State O) :=
  match s.pc with
  | .stopped => none
  | .loop => if s.stopRequested then some { s with pc := .stopped } else some { s with pc := .take }
  | .take =>
    match s.input with
    | none => some { s with pc := .loopEnd }
    | some i => some { s with input := none, pc := .taken i }
  | .taken i => if s.stopRequested then some { s with pc := .stopped } else some { s with pc := .act i }
  | .act i => some { s with pc := .acted i (action i), processed := s.processed ++ [i] }
  | .acted i o => if s.stopRequested then some { s with pc := .stopped } else some { s with pc := .publish i o }
  | .publish _ o =>
    match o with
    | none => some { s with pc := .loopEnd }
    | some o => some { s with output := some o, pc := .loopEnd, produced := s.produced ++ [o] }
  | .loopEnd => if s.stopRequested then some { s with pc := .stopped } else some { s with pc := .loop }

/-- One step: `Put` (61-65), `Get` (67-75), `Start` (18-24), the request made by `Stop` (26-29; the wait for the termination of the thread
is not a step) or a step of the thread.  `Restart` (31-36) is `Stop` followed by `Start`.

When `RETURN_IF_STOPPED` returns from `RunAction` (lines 88 and 91) the thread does so again at line 50 and terminates: this is a single
step. -/
def step (action : Nat → Option O) (s : State O) : Label → Option (State O)
  | .put => some { s with input := some s.puts, puts := s.puts + 1 }
  | .get => some { s with output := none, got := s.got ++ s.output.toList }
  | .start =>
    match s.pc with
    | .stopped => some { s with stopRequested := false, pc := .loop }
    | _ => if s.stopRequested then none else some s
  | .stop => some { s with stopRequested := true }
  | .thread => threadStep action s

end Principia.RecurringThread
