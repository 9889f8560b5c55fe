import Verif.Base.Lts

/-!
# Model of `base/push_pull_callback_body.hpp`

A task is represented by its interactions with the callback that it is given: it either returns a value or calls the callback with some
arguments and continues in a way that depends on the result.  The critical sections are atomic.
-/

namespace Principia.PushPull

/-- base/push_pull_callback.hpp:67: `Task`, a function which takes a callback from `A` to `R` and returns a `T`. -/
inductive Task (A R T : Type)
  | ret (value : T)
  | call (arguments : A) (continuation : R → Task A R T)

variable {A R T : Type}

/-- The program counter of the thread of the executor. -/
inductive TaskPc (A R T : Type)
  | running (task : Task A R T)              -- base/push_pull_callback_body.hpp:93, 37.
  | waiting (continuation : R → Task A R T)  -- base/push_pull_callback_body.hpp:38.
  | stopping                                 -- base/push_pull_callback_body.hpp:98.
  | done

/-- The program counter of the driver (the managed code): it calls `Pull` and `Push` alternately until `Pull` returns false. -/
inductive DriverPc
  | pulling
  | pushing
  | finished
  deriving DecidableEq

structure State (A R T : Type) where
  arguments : Option A        -- `PushPullCallback::arguments_`.
  result : Option R           -- `PushPullCallback::result_`.
  shutdown : Bool             -- `PushPullCallback::shutdown_`.
  value : Option T            -- `PushPullExecutor::result_`.
  task : TaskPc A R T
  driver : DriverPc
  seen : List A               -- Ghost: the arguments returned by `Pull`, in order.

inductive Label
  | task
  | driver

/-- base/push_pull_callback_body.hpp:91-99: the constructor of the executor. -/
def init (task : Task A R T) : State A R T :=
  { arguments := none, result := none, shutdown := false, value := none, task := .running task, driver := .pulling, seen := [] }

/-- A step of the thread of the executor. -/
def taskStep (s : State A R T) : Option (State A R T) :=
  match s.task with
  | .running (.ret v) => some { s with value := some v, task := .stopping }           -- Lines 94-97.
  | .running (.call a k) => some { s with arguments := some a, task := .waiting k }   -- Lines 48-53.
  | .waiting k =>                                                                     -- Lines 55-61, 77-88.
    match s.result with
    | none => none
    | some r => some { s with result := none, task := .running (k r) }
  | .stopping => some { s with shutdown := true, task := .done }                      -- Lines 42-46.
  | .done => none

/-- A step of the driver, where `reply` gives the result for the last of the arguments that it has seen. -/
def driverStep (reply : List A → R) (s : State A R T) : Option (State A R T) :=
  match s.driver with
  | .pulling =>                                                                       -- Lines 16-25, 63-75.
    if s.shutdown then some { s with driver := .finished }
    else match s.arguments with
      | none => none
      | some a => some { s with arguments := none, driver := .pushing, seen := s.seen ++ [a] }
  | .pushing => some { s with result := some (reply s.seen), driver := .pulling }     -- Lines 27-31.
  | .finished => none

def step (reply : List A → R) (s : State A R T) : Label → Option (State A R T)
  | .task => taskStep s
  | .driver => driverStep reply s

end Principia.PushPull
