import Verif.Base.SortedMap
import Mathlib.Algebra.Order.Group.Defs
import Mathlib.Algebra.Order.Group.Unbundled.Basic

/-!
# Model of `physics/checkpointer_body.hpp`

Instants and times are the elements of an arbitrary linearly ordered additive group `T`.  The infinities returned by some of the functions
are represented by `none`.  The contents of the checkpoints is an arbitrary type `C`.  The locking is not modelled: the functions are atomic;
in particular the fact that `WriteToCheckpointLocked` releases the lock while it is calling the writer is not modelled.
-/

namespace Principia.Checkpointer

open Principia.SortedMap

variable {T C : Type} [AddCommGroup T] [LinearOrder T] [IsOrderedAddMonoid T]

/-- physics/checkpointer.hpp:151-170: `checkpoints_`. -/
abbrev State (T C : Type) := List (T × C)

/-- physics/checkpointer_body.hpp:58-65. -/
def oldest (s : State T C) : Option T := s.head?.map Prod.fst

/-- physics/checkpointer_body.hpp:67-74. -/
def newest (s : State T C) : Option T := s.getLast?.map Prod.fst

/-- physics/checkpointer_body.hpp:76-85. -/
def atOrAfter (s : State T C) (t : T) : Option T :=
  let it := lowerBound s t
  if it = s.length then none else s[it]?.map Prod.fst

/-- physics/checkpointer_body.hpp:87-96. -/
def atOrBefore (s : State T C) (t : T) : Option T :=
  let it := upperBound s t
  if it = 0 then none else s[it - 1]?.map Prod.fst

/-- physics/checkpointer_body.hpp:98-110. -/
def all (s : State T C) : List T := s.map Prod.fst

/-- physics/checkpointer_body.hpp:112-127. -/
def allAtOrBefore (s : State T C) (t : T) : List T := (s.take (upperBound s t)).map Prod.fst

/-- physics/checkpointer_body.hpp:129-151; `none` if the loop starts after its end, which is undefined behaviour. -/
def allBetween (s : State T C) (t1 t2 : T) : Option (List T) :=
  if t2 < t1 then some []
  else
    let it1 := lowerBound s t1
    let it2 := upperBound s t2
    if it2 < it1 then none else some (((s.drop it1).take (it2 - it1)).map Prod.fst)

/-- physics/checkpointer_body.hpp:288-300 `WriteToCheckpointLocked`, with the checkpoint produced by the writer; `none` is a failed
`CHECK`.  The hint of `emplace_hint` has no effect on the result. -/
def write (s : State T C) (t : T) (c : C) : Option (State T C) :=
  if contains s t then none else some (emplace s t c)

/-- physics/checkpointer_body.hpp:159-170. -/
def writeIfNeeded (s : State T C) (t maxTime : T) (c : C) : Option (State T C × Bool) :=
  match s.getLast? with
  | none => (write s t c).map fun s => (s, true)
  | some last => if maxTime < t - last.1 then (write s t c).map fun s => (s, true) else some (s, false)

/-- physics/checkpointer_body.hpp:172-183: the checkpoint given to the reader. -/
def readOldest (s : State T C) : Option C := s.head?.map Prod.snd

/-- physics/checkpointer_body.hpp:185-196. -/
def readNewest (s : State T C) : Option C := s.getLast?.map Prod.snd

/-- physics/checkpointer_body.hpp:198-212. -/
def readAtOrBefore (s : State T C) (t : T) : Option C :=
  let it := upperBound s t
  if it = 0 then none else s[it - 1]?.map Prod.snd

/-- physics/checkpointer_body.hpp:214-227. -/
def readAt (s : State T C) (t : T) : Option C := (find s t).map Prod.snd

/-- physics/checkpointer_body.hpp:235-245: each element of the message has the time and the contents of the checkpoint. -/
def writeToMessage (s : State T C) : List (T × C) := s.map fun a => (a.1, a.2)

/-- physics/checkpointer_body.hpp:247-286.  The futures are read in the order of the message. -/
def readFromMessage (rewriter : Option (C → C)) (message : List (T × C)) : State T C :=
  message.foldl (fun s a => emplace s a.1 (match rewriter with | none => a.2 | some f => f a.2)) []

/-- The calls that change the state. -/
inductive Op (T C : Type)
  | write (t : T) (c : C)
  | writeIfNeeded (t maxTime : T) (c : C)

def step (s : State T C) : Op T C → Option (State T C)
  | .write t c => write s t c
  | .writeIfNeeded t m c => (writeIfNeeded s t m c).map Prod.fst

end Principia.Checkpointer
