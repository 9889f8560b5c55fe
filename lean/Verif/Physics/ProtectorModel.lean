import Verif.Base.Lts
import Verif.Base.SortedMultiset

/-!
# Model of `physics/protector.cpp`

The critical sections are atomic.  The callbacks are run outside of the critical sections, one at a time, in an arbitrary interleaving with
the other threads.  A callback is identified by the ordinal of the call to `RunWhenUnprotected` that registered it.
-/

namespace Principia.Protector

open Principia.SortedMultiset

variable {T : Type} [LinearOrder T]

structure State (T : Type) where
  starts : List T                    -- `protection_start_times_`.
  callbacks : List (T × Nat)         -- `callbacks_`.
  threads : List (List (T × Nat))    -- For each call to `RunWhenUnprotected` or `Unprotect`, the callbacks that it is about to run.
  ran : List (T × Nat)               -- Ghost: the callbacks that were run, in order.
  registered : List T                -- Ghost: the times given to `RunWhenUnprotected`.

inductive Label (T : Type)
  | runWhenUnprotected (t : T)
  | protect (t : T)
  | unprotect (t : T)
  | run (thread : Nat)               -- The given call runs its next callback.
  deriving DecidableEq

def init : State T := { starts := [], callbacks := [], threads := [], ran := [], registered := [] }

/-- physics/protector.cpp:18-19. -/
def isProtected (s : State T) (t : T) : Bool :=
  match s.starts.head? with
  | none => false
  | some start => start < t

/-- physics/protector.cpp:15-26, up to the point where the callback is called; the second element is the result. -/
def runWhenUnprotected (s : State T) (t : T) : State T × Bool :=
  let id := s.registered.length
  let s' := { s with registered := s.registered ++ [t] }
  if isProtected s t then ({ s' with callbacks := emplace s.callbacks t id, threads := s.threads ++ [[]] }, false)
  else ({ s' with threads := s.threads ++ [[(t, id)]] }, true)

/-- physics/protector.cpp:28-31. -/
def protect (s : State T) (t : T) : State T := { s with starts := insert s.starts t }

/-- physics/protector.cpp:33-57, up to the point where the first callback is called; `none` is a failed `CHECK`. -/
def unprotect (s : State T) (t : T) : Option (State T) := do
  let starts ← erase s.starts t
  let toRun : T × Nat → Bool := fun c => match starts.head? with
    | none => true
    | some first => c.1 ≤ first
  some { s with starts := starts, callbacks := s.callbacks.filter fun c => !toRun c,
                threads := s.threads ++ [s.callbacks.filter toRun] }

/-- physics/protector.cpp:24 and 60-62: a thread calls its next callback. -/
def runCallback (s : State T) (k : Nat) : Option (State T) :=
  match s.threads[k]? with
  | some (c :: cs) => some { s with threads := s.threads.set k cs, ran := s.ran ++ [c] }
  | _ => none

def step (s : State T) : Label T → Option (State T)
  | .runWhenUnprotected t => some (runWhenUnprotected s t).1
  | .protect t => some (protect s t)
  | .unprotect t => unprotect s t
  | .run k => runCallback s k

end Principia.Protector
