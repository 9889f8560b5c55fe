import Verif.Base.SortedMultiset

/-!
# Model of `physics/clientele_body.hpp` and `base/monostable_body.hpp`

All the functions of `Clientele` hold the lock, therefore a concurrent execution is a sequence of calls.
-/

namespace Principia.Clientele

open Principia.SortedMultiset

variable {K : Type} [LinearOrder K]

/-- physics/clientele.hpp:32-35. -/
structure State (K : Type) where
  defaultKey : K
  clients : List K

/-- physics/clientele_body.hpp:10-12. -/
def init (defaultKey : K) : State K := { defaultKey := defaultKey, clients := [] }

/-- physics/clientele_body.hpp:14-18. -/
def join (s : State K) (key : K) : State K := { s with clients := insert s.clients key }

/-- physics/clientele_body.hpp:20-26; `none` is a failed `CHECK`. -/
def leave (s : State K) (key : K) : Option (State K) := do
  let clients ← erase s.clients key
  some { s with clients := clients }

/-- physics/clientele_body.hpp:28-36. -/
def first (s : State K) : K :=
  match s.clients with
  | [] => s.defaultKey
  | k :: _ => k

inductive Op (K : Type)
  | join (key : K)
  | leave (key : K)
  deriving DecidableEq

def step (s : State K) : Op K → Option (State K)
  | .join k => some (join s k)
  | .leave k => leave s k

/-- physics/clientele_body.hpp:38-47: the effect on the clientele of a scope where a `Client` is live: its constructor, some calls, and its
destructor. -/
def withClient (key : K) (ops : List (Op K)) : List (Op K) := .join key :: ops ++ [.leave key]

end Principia.Clientele

namespace Principia.Monostable

/-- base/monostable.hpp:22. -/
structure State where
  transient : Bool

/-- base/monostable.hpp:22. -/
def init : State := { transient := true }

/-- base/monostable_body.hpp:10-12. -/
def flop (_ : State) : State := { transient := false }

/-- base/monostable_body.hpp:14-16. -/
def toBool (s : State) : Bool := s.transient

end Principia.Monostable
