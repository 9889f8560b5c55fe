import Verif.Base.Lts

/-!
# Model of `base/thread_pool_body.hpp`

The calls are identified by natural numbers, which stand for the function and its promise.  Any number of clients may call `Add`
and `TryAdd` at any time.  The critical sections are atomic.
-/

namespace Principia.ThreadPool

/-- base/thread_pool_body.hpp:97-128: the program counter of `DequeueCallAndExecute`. -/
inductive ThreadPc
  | waiting               -- Lines 104-117.
  | executing (call : Nat) -- Line 121.
  | finishing             -- Lines 123-126.
  | terminated            -- Line 128.
  deriving DecidableEq

structure State where
  shutdown : Bool            -- `shutdown_`.
  calls : List Nat           -- `calls_`.
  busy : Int                 -- `busy_threads_`.
  threads : List ThreadPc    -- `threads_`.
  trying : List Nat          -- The calls to `TryAdd` that are between line 65 and line 67.
  added : List Nat           -- Ghost: the calls that were accepted, in order.
  started : List Nat         -- Ghost: the calls that were started, in order.
  completed : List Nat       -- Ghost: the calls whose promise was set.
  deriving DecidableEq

inductive Label
  | add (call : Nat)
  | tryStart (call : Nat)
  | tryFinish (call : Nat)
  | shutdown
  | thread (i : Nat)
  deriving DecidableEq

/-- base/thread_pool_body.hpp:27-32: the constructor. -/
def init (poolSize : Nat) : State :=
  { shutdown := false, calls := [], busy := 0, threads := List.replicate poolSize .waiting, trying := [],
    added := [], started := [], completed := [] }

/-- base/thread_pool_body.hpp:63-64, 70-71, 89-90.  The comparison of an unsigned and a signed integer is done on
`Int`. -/
def canSchedule (s : State) : Bool := (s.calls.length : Int) + 1 ≤ (s.threads.length : Int) - s.busy

/-- base/thread_pool_body.hpp:50, 72. -/
def push (s : State) (c : Nat) : State := { s with calls := s.calls ++ [c], added := s.added ++ [c] }

/-- base/thread_pool_body.hpp:96-128 `DequeueCallAndExecute`, with `ExecuteAndSetValue` (14-25): a step of a thread. -/
def threadStep (s : State) (i : Nat) : Option State := do
  match ← s.threads[i]? with
  | .waiting =>
    if s.shutdown then some { s with threads := s.threads.set i .terminated }
    else match s.calls with
      | [] => none
      | c :: cs => some { s with calls := cs, busy := s.busy + 1, threads := s.threads.set i (.executing c),
                                 started := s.started ++ [c] }
  | .executing c => some { s with threads := s.threads.set i .finishing, completed := s.completed ++ [c] }
  | .finishing => some { s with busy := s.busy - 1, threads := s.threads.set i .waiting }
  | .terminated => none

/-- One step: `Add` (45-54), the two critical sections of `TryAdd` (62-66 and 67-74), the critical section of the destructor
(36-39), or a step of a thread. -/
def step (s : State) : Label → Option State
  | .add c => some (push s c)
  | .tryStart c => if canSchedule s then some { s with trying := c :: s.trying } else some s
  | .tryFinish c =>
    if c ∈ s.trying then
      let s := { s with trying := s.trying.erase c }
      some (if canSchedule s then push s c else s)
    else none
  | .shutdown => some { s with shutdown := true }
  | .thread i => threadStep s i

end Principia.ThreadPool
