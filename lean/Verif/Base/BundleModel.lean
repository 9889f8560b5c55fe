import Verif.Base.Lts

/-!
# Model of `base/bundle.cpp`

One client thread calls `Add` for each of a list of tasks, then one of the `Join*` functions.  A status is its code, 0 for
`OK`; the tasks are represented by the status that they return.  Atomic steps are the accesses to the shared variables; the
critical sections, which do not nest, are atomic.
-/

namespace Principia.Bundle

/-- `absl::StatusCode::kDeadlineExceeded`. -/
def deadlineExceeded : Nat := 4

/-- base/bundle.cpp:59-77: the program counter of `Toil` in a worker thread. -/
inductive WorkerPc
  | running                   -- Line 60: the task has not returned.
  | returned                  -- Line 63.
  | decrement                 -- Line 73.
  | check (n : Int)           -- Line 74, with the value of the local `number_of_active_workers`.
  | notify                    -- Line 75.
  | done
  deriving DecidableEq

/-- The program counter of the client. -/
inductive ClientPc
  | adding (tasks : List Nat)                  -- Line 19-21, or 26 when there are no more tasks to add.
  | emplacing (task : Nat) (tasks : List Nat)  -- Line 22.
  | counting                                   -- Line 27, 37.
  | waiting                                    -- Line 28, 38.
  | expired                                    -- Line 39.
  | joining (i : Nat)                          -- Line 81-83: about to join the `i`th worker.
  | returning                                  -- Line 32, 44.
  | returned (status : Nat)
  | crashed                                    -- A failed `CHECK`.
  deriving DecidableEq

structure State where
  status : Nat                       -- `status_`.
  joining : Bool                     -- `joining_`.
  notifications : Nat                -- The number of calls to `all_done_.Notify()`.
  active : Int                       -- `number_of_active_workers_`.
  workers : List (Nat × WorkerPc)    -- `workers_`, each with the status that its task returns.
  client : ClientPc
  expired : Bool                     -- Ghost: whether the wait timed out.
  deriving DecidableEq

inductive Label
  | client
  | timeout
  | worker (i : Nat)
  deriving DecidableEq

/-- base/bundle.hpp:49-62: the initial state, and the arguments of the calls to `Add`. -/
def init (tasks : List Nat) : State :=
  { status := 0, joining := false, notifications := 0, active := 0, workers := [], client := .adding tasks, expired := false }

/-- `absl::Status::Update`: the status is only changed if it is `OK`. -/
def update (old new : Nat) : Nat := if old = 0 then new else old

/-- base/bundle.cpp:59-77 `Toil`: one step of a worker. -/
def workerStep (s : State) (i : Nat) : Option State := do
  let (task, pc) ← s.workers[i]?
  match pc with
  | .running => some { s with workers := s.workers.set i (task, .returned) }
  | .returned =>
    if task ≠ 0 then some { s with status := update s.status task, workers := s.workers.set i (task, .decrement) }
    else some { s with workers := s.workers.set i (task, .decrement) }
  | .decrement => some { s with active := s.active - 1, workers := s.workers.set i (task, .check (s.active - 1)) }
  | .check n =>
    if s.joining ∧ n = 0 then some { s with workers := s.workers.set i (task, .notify) }
    else some { s with workers := s.workers.set i (task, .done) }
  | .notify => some { s with notifications := s.notifications + 1, workers := s.workers.set i (task, .done) }
  | .done => none

/-- base/bundle.cpp:18-57, 79-84: one step of the client. -/
def clientStep (s : State) : Option State :=
  match s.client with
  | .adding (task :: tasks) =>
    if s.joining then some { s with client := .crashed }
    else some { s with active := s.active + 1, client := .emplacing task tasks }
  | .emplacing task tasks => some { s with workers := s.workers ++ [(task, .running)], client := .adding tasks }
  | .adding [] => some { s with joining := true, client := .counting }
  | .counting => some { s with client := if s.active > 0 then .waiting else .joining 0 }
  | .waiting => if 0 < s.notifications then some { s with client := .joining 0 } else none
  | .expired => some { s with status := deadlineExceeded, client := .joining 0 }
  | .joining i =>
    match s.workers[i]? with
    | some (_, .done) => some { s with client := .joining (i + 1) }
    | some _ => none
    | none => some { s with client := .returning }
  | .returning => some { s with client := .returned s.status }
  | .returned _ => none
  | .crashed => none

/-- One step; `timed` is true for `JoinWithin` and `JoinBefore` (lines 35-57), whose wait may time out at any time as long as
the notification did not happen, and false for `Join` (lines 25-33). -/
def step (timed : Bool) (s : State) : Label → Option State
  | .client => clientStep s
  | .worker i => workerStep s i
  | .timeout =>
    if timed ∧ s.client = .waiting ∧ s.notifications = 0 then some { s with client := .expired, expired := true } else none

end Principia.Bundle
