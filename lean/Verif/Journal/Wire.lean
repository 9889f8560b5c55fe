import Verif.Journal.JournalSpec
import Mathlib.Tactic.ByContra
import Mathlib.Tactic.SplitIfs

/-!
# A lawful serialization of messages

The part of the encoding of protocol buffers that matters for the journal: a `Method` is serialized as the key of its
extension, the length of the extension, and the extension, whose fields are encoded in the same way (serialization/journal.proto:
each message extends `Method`, and has fields `in`, `out` and `return` numbered from 1 to 3).  This shows that the laws required of
the serialization by the theorems on the journal are those of an actual serialization.
-/

namespace Principia.Journal.Wire

set_option linter.unusedSimpArgs false
set_option linter.unusedVariables false

/-- The base-128 encoding of integers, least significant group first. -/
def varintAux : Nat → Nat → List Nat
  | 0, n => [n]
  | fuel + 1, n => if n < 128 then [n] else (n % 128 + 128) :: varintAux fuel (n / 128)

/-- The encoding of an integer, with as much fuel as necessary. -/
def varint (n : Nat) : List Nat := varintAux n n

theorem varintAux_fuel (f g n : Nat) (hf : n ≤ f) (hg : n ≤ g) : varintAux f n = varintAux g n := by
  induction f generalizing g n with
  | zero =>
    have : n = 0 := by omega
    subst this
    cases g <;> rfl
  | succ f ih =>
    cases g with
    | zero =>
      have : n = 0 := by omega
      subst this; rfl
    | succ g =>
      simp only [varintAux]
      by_cases h : n < 128
      · rw [if_pos h, if_pos h]
      · rw [if_neg h, if_neg h, ih g (n / 128) (by omega) (by omega)]

theorem varint_eq (n : Nat) : varint n = if n < 128 then [n] else (n % 128 + 128) :: varint (n / 128) := by
  cases n with
  | zero => rfl
  | succ n =>
    show (if n + 1 < 128 then [n + 1] else ((n + 1) % 128 + 128) :: varintAux n ((n + 1) / 128)) = _
    by_cases h : n + 1 < 128
    · rw [if_pos h, if_pos h]
    · rw [if_neg h, if_neg h, varint, varintAux_fuel n ((n + 1) / 128) _ (by omega) (by omega)]

/-- The inverse of `varint`: the number and what follows. -/
def readVarint : List Nat → Option (Nat × List Nat)
  | [] => none
  | b :: bs => if b < 128 then some (b, bs) else (readVarint bs).map fun r => (r.1 * 128 + (b - 128), r.2)

theorem readVarint_varint (n : Nat) (r : List Nat) : readVarint (varint n ++ r) = some (n, r) := by
  induction n using Nat.strongRecOn with
  | _ n ih =>
    rw [varint_eq]
    by_cases h : n < 128
    · rw [if_pos h]; simp [readVarint, h]
    · rw [if_neg h]
      simp only [List.cons_append, readVarint]
      rw [if_neg (by omega), ih (n / 128) (by omega)]
      simp only [Option.map_some, Option.some.injEq, Prod.mk.injEq, and_true]
      omega

theorem readVarint_truncated (n k : Nat) (hk : k < (varint n).length) : readVarint ((varint n).take k) = none := by
  induction n using Nat.strongRecOn generalizing k with
  | _ n ih =>
    rw [varint_eq] at hk ⊢
    by_cases h : n < 128
    · rw [if_pos h] at hk ⊢
      have : k = 0 := by simpa using hk
      subst this; rfl
    · rw [if_neg h] at hk ⊢
      cases k with
      | zero => rfl
      | succ k =>
        simp only [List.take_succ_cons, readVarint]
        rw [if_neg (by omega), ih (n / 128) (by omega) k (by simpa using hk)]
        rfl

theorem varint_bytes (n : Nat) : ∀ b ∈ varint n, b < 256 := by
  induction n using Nat.strongRecOn with
  | _ n ih =>
    rw [varint_eq]
    by_cases h : n < 128
    · rw [if_pos h]; intro b hb; simp at hb; omega
    · rw [if_neg h]; intro b hb
      rcases List.mem_cons.mp hb with rfl | hb
      · omega
      · exact ih _ (by omega) b hb

theorem varint_ne (n : Nat) : varint n ≠ [] := by
  rw [varint_eq]; split <;> simp

/-- The bytes of a field. -/
abbrev Bytes := List (Fin 256)

/-- An optional field of key `key`. -/
def field (key : Nat) : Option Bytes → List Nat
  | none => []
  | some d => key :: (varint d.length ++ d.map Fin.val)

def toBytes (l : List Nat) : Bytes := l.map fun b => Fin.ofNat 256 b

/-- The inverse of `field`, and what follows. -/
def readField (key : Nat) : List Nat → Option (Option Bytes × List Nat)
  | [] => some (none, [])
  | b :: bs =>
    if b = key then
      match readVarint bs with
      | none => none
      | some (n, r) => if n ≤ r.length then some (some (toBytes (r.take n)), r.drop n) else none
    else some (none, b :: bs)

theorem toBytes_map (d : Bytes) : toBytes (d.map Fin.val) = d := by
  unfold toBytes
  rw [List.map_map]
  conv_rhs => rw [← List.map_id d]
  refine List.map_congr_left fun b _ => ?_
  apply Fin.ext; simp [Fin.ofNat, Nat.mod_eq_of_lt b.isLt]

theorem readField_field (key : Nat) (d : Option Bytes) (r : List Nat) (hr : ∀ b bs, r = b :: bs → b ≠ key) :
    readField key (field key d ++ r) = some (d, r) := by
  cases d with
  | none =>
    simp only [field, List.nil_append]
    cases r with
    | nil => rfl
    | cons b bs => simp only [readField]; rw [if_neg (hr b bs rfl)]
  | some d =>
    simp only [field, List.cons_append, List.append_assoc, readField, ↓reduceIte, readVarint_varint]
    rw [if_pos (by simp)]
    rw [List.take_append_of_le_length (by simp), List.drop_append_of_le_length (by simp)]
    rw [List.take_of_length_le (by simp), List.drop_of_length_le (by simp), toBytes_map]; rfl

/-- The fields of an extension. -/
def payload (m : Message Bytes) : List Nat := field 10 m.input ++ (field 18 m.output ++ field 26 m.result)

theorem field_head {key : Nat} {d : Option Bytes} {b : Nat} {bs : List Nat} {r : List Nat} (h : field key d ++ r = b :: bs) :
    b = key ∨ r = b :: bs := by
  cases d with
  | none => exact .inr h
  | some d => simp only [field, List.cons_append, List.cons.injEq] at h; exact .inl h.1.symm

/-- The encoding of a message. -/
def serialize (m : Message Bytes) : List Nat :=
  varint (8 * m.profile + 2) ++ (varint (payload m).length ++ payload m)

/-- The decoding of a message, with exactly one extension. -/
def parse (l : List Nat) : Option (Message Bytes) := do
  let (key, l) ← readVarint l
  let (n, l) ← readVarint l
  if key % 8 = 2 ∧ l.length = n then do
    let (i, l) ← readField 10 l
    let (o, l) ← readField 18 l
    let (x, l) ← readField 26 l
    if l = [] then some ⟨key / 8, i, o, x⟩ else none
  else none

def codec : Codec Bytes := ⟨serialize, parse⟩

theorem take_append_lt {α : Type} (a b : List α) (k : Nat) (h : k < a.length) : (a ++ b).take k = a.take k :=
  List.take_append_of_le_length (by omega)

theorem lawful : codec.Lawful where
  bytes := by
    have hf : ∀ key d, key < 256 → ∀ b ∈ field key d, b < 256 := by
      intro key d hkey b hb
      cases d with
      | none => simp [field] at hb
      | some d =>
        rcases List.mem_cons.mp hb with rfl | hb
        · exact hkey
        · rcases List.mem_append.mp hb with hb | hb
          · exact varint_bytes _ b hb
          · obtain ⟨x, -, rfl⟩ := List.mem_map.mp hb; exact x.isLt
    intro m b hb
    rcases List.mem_append.mp hb with hb | hb
    · exact varint_bytes _ b hb
    rcases List.mem_append.mp hb with hb | hb
    · exact varint_bytes _ b hb
    rcases List.mem_append.mp hb with hb | hb
    · exact hf _ _ (by omega) b hb
    rcases List.mem_append.mp hb with hb | hb
    · exact hf _ _ (by omega) b hb
    · exact hf _ _ (by omega) b hb
  nonempty := fun m h => varint_ne _ (List.append_eq_nil_iff.mp h).1
  parse := by
    intro m
    show parse (serialize m) = _
    unfold parse serialize
    have h3 : readField 26 (field 26 m.result) = some (m.result, []) := by
      simpa using readField_field 26 m.result [] (by simp)
    have h2 : readField 18 (field 18 m.output ++ field 26 m.result) = some (m.output, field 26 m.result) :=
      readField_field 18 m.output _ (fun b bs h => by
        rcases field_head (r := []) (by simpa using h) with h | h
        · omega
        · simp at h)
    have h1 : readField 10 (payload m) = some (m.input, field 18 m.output ++ field 26 m.result) :=
      readField_field 10 m.input _ (fun b bs h => by
        rcases field_head h with h | h
        · omega
        · rcases field_head (r := []) (by simpa using h) with h | h
          · omega
          · simp at h)
    simp only [readVarint_varint, Option.bind_eq_bind, Option.bind_some, h1, h2, h3]
    rw [if_pos ⟨by omega, trivial⟩, if_pos trivial]
    have : (8 * m.profile + 2) / 8 = m.profile := by omega
    rw [this]
  truncated := by
    intro m k hk hlt
    show parse ((serialize m).take k) = none
    change k < (serialize m).length at hlt
    unfold parse serialize
    unfold serialize at hlt
    rw [List.length_append, List.length_append] at hlt
    by_cases h1 : k < (varint (8 * m.profile + 2)).length
    · rw [take_append_lt _ _ _ h1, readVarint_truncated _ _ h1]; rfl
    · obtain ⟨j, rfl⟩ := Nat.exists_eq_add_of_le (Nat.not_lt.mp h1)
      rw [List.take_length_add_append, readVarint_varint]
      simp only [Option.bind_eq_bind, Option.bind_some]
      by_cases h2 : j < (varint (payload m).length).length
      · rw [take_append_lt _ _ _ h2, readVarint_truncated _ _ h2]; rfl
      · obtain ⟨i, rfl⟩ := Nat.exists_eq_add_of_le (Nat.not_lt.mp h2)
        rw [List.take_length_add_append, readVarint_varint]
        simp only [Option.bind_some]
        rw [if_neg]
        rintro ⟨-, h3⟩
        rw [List.length_take] at h3
        omega

end Principia.Journal.Wire
