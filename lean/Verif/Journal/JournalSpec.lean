import Verif.Journal.JournalModel
import Verif.Base.HexProps

/-!
# Specification of the journal
-/

namespace Principia.Journal

open Principia.Hexadecimal

variable {D : Type}

/-- A call of a function of the interface: the function, its arguments, the values that its output parameters have when
it returns, and its result.  They are `none` if the function does not have any. -/
structure Call (D : Type) where
  profile : Nat
  input : Option D
  output : Option D
  result : Option D
deriving DecidableEq

/-- All that there is to know about a call, in a single message. -/
def Call.message (c : Call D) : Message D := ⟨c.profile, c.input, c.output, c.result⟩

/-- The hexadecimal digits of a list of bytes. -/
def hexDigits (bytes : List Nat) : List Nat := bytes.flatMap fun b => [digit (b / 16), digit (b % 16)]

/-- The digits that represent the arguments of a call. -/
def Call.digitsIn (codec : Codec D) (c : Call D) : List Nat := hexDigits (codec.serialize ⟨c.profile, c.input, none, none⟩)

/-- The digits that represent the outcome of a call. -/
def Call.digitsOut (codec : Codec D) (c : Call D) : List Nat :=
  hexDigits (codec.serialize ⟨c.profile, none, c.output, c.result⟩)

/-- The two lines of the journal for a call; 10 is the end of a line. -/
def Call.text (codec : Codec D) (c : Call D) : List Nat :=
  c.digitsIn codec ++ [10] ++ c.digitsOut codec ++ [10]

/-- The journal of a sequence of calls. -/
def journalText (codec : Codec D) (calls : List (Call D)) : List Nat := calls.flatMap (Call.text codec)

/-- What is relied upon for protocol buffers: a message has a serialization, which is not empty, it can be read back, and
it cannot if it is truncated. -/
structure Codec.Lawful (codec : Codec D) : Prop where
  bytes : ∀ m, ∀ b ∈ codec.serialize m, b < 256
  nonempty : ∀ m, codec.serialize m ≠ []
  parse : ∀ m, codec.parse (codec.serialize m) = some m
  truncated : ∀ m k, 0 < k → k < (codec.serialize m).length → codec.parse ((codec.serialize m).take k) = none

/-- What an observer knows of a schedule: the call that each thread is or was last making (and whether the function has
output parameters), the calls completed since the last activation of a recorder, and those of the previous recorders. -/
structure History (D : Type) where
  pending : Nat → Call D × Bool
  calls : List (Call D)
  past : List (List (Call D))

def History.set (h : History D) (t : Nat) (c : Call D × Bool) : History D :=
  { h with pending := fun u => if u = t then c else h.pending u }

/-- What is observed when a step is executed.  A recorded call is completed when its lock is released. -/
def History.next (h : History D) : Label D → History D
  | .enter t p i o => h.set t (⟨p, i, none, none⟩, o)
  | .ret t x => h.set t ({ (h.pending t).1 with result := x }, (h.pending t).2)
  | .exit t o => h.set t ({ (h.pending t).1 with output := if (h.pending t).2 then o else none }, (h.pending t).2)
  | .unlock t => { h with calls := h.calls ++ [(h.pending t).1] }
  | .deactivate => { h with calls := [], past := h.past ++ [h.calls] }
  | .acquire _ => h
  | .put _ => h
  | .activate => h

/-- What is observed of a schedule. -/
def history (ls : List (Label D)) : History D := ls.foldl History.next ⟨fun _ => (⟨0, none, none, none⟩, false), [], []⟩

/-- Recorders are only activated and deactivated when no journalled function is being called. -/
def Quiescent (codec : Codec D) (ls : List (Label D)) : Prop :=
  ∀ ls₁ l ls₂ s, ls = ls₁ ++ l :: ls₂ → (l = .activate ∨ l = .deactivate) →
    run codec State.init ls₁ = some (.ok s) → ∀ t, s.pc t = .idle

end Principia.Journal
