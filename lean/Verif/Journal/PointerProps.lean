import Verif.Journal.PlayerProps

/-!
# C46: the pointers, and examples
-/

namespace Principia.Journal

set_option linter.unusedSimpArgs false
set_option linter.unusedVariables false

/-! ## Model of the pointer map -/

/-- `Player::PointerMap` (journal/player.hpp:21): from the addresses recorded in the journal to the addresses of the objects in the
program that replays it.  Addresses are numbers; 0 is the null pointer. -/
abbrev PointerMap := Nat → Option Nat

/-- journal/profiles.cpp:43-57 `Insert`. -/
def insertPointer (address pointer : Nat) (map : PointerMap) : Except Failure PointerMap :=
  if address = 0 then
    if pointer = 0 then .ok map else .error .check
  else
    match map address with
    | none => .ok fun a => if a = address then some pointer else map a
    | some p => if p = pointer then .ok map else .error .check

/-- journal/profiles.cpp:59-68 `Delete`. -/
def deletePointer (address : Nat) (map : PointerMap) : Except Failure PointerMap :=
  if address ≠ 0 then
    match map address with
    | none => .error .check
    | some _ => .ok fun a => if a = address then none else map a
  else .ok map

/-- journal/profiles.cpp:70-85 `DeserializePointer`. -/
def deserializePointer (address : Nat) (map : PointerMap) : Except Failure Nat :=
  if address = 0 then .ok 0
  else
    match map address with
    | none => .error .check
    | some p => .ok p

def deleteAll : List Nat → PointerMap → Except Failure PointerMap
  | [], map => .ok map
  | a :: as, map => do deleteAll as (← deletePointer a map)

def insertAll : List (Nat × Nat) → PointerMap → Except Failure PointerMap
  | [], map => .ok map
  | (a, p) :: as, map => do insertAll as (← insertPointer a p map)

def deserializeAll : List Nat → PointerMap → Except Failure (List Nat)
  | [], _ => .ok []
  | a :: as, map => do return (← deserializePointer a map) :: (← deserializeAll as map)

/-- The pointers in the messages of a call: the arguments, those among the arguments that are `is_consumed`, and those that are
`is_produced`. -/
structure PointerFields where
  used : List Nat
  consumed : List Nat
  produced : List Nat

/-- The `Run` function of a profile, in journal/profiles.generated.cc, which is produced by
tools/journal_proto_processor.cpp:1309-1366, 1995, 2036-2067: the arguments are deserialized, the function is called, and its
consumed arguments are removed from the map before its results are inserted.  `body` is the function: it is given
the pointers to its arguments and returns those that it produces.  The result is what was given to the function,
and the new map. -/
def runProfile (f : PointerFields) (body : List Nat → List Nat) (map : PointerMap) :
    Except Failure (List Nat × PointerMap) := do
  let arguments ← deserializeAll f.used map
  let map ← deleteAll f.consumed map
  let map ← insertAll (f.produced.zip (body arguments)) map
  return (arguments, map)

/-! ## Specification -/

/-- A call, in terms of the objects that are exchanged with the client; `none` is a null pointer. -/
structure ObjectCall where
  used : List (Option Nat)
  consumed : List Nat
  produced : List (Option Nat)

/-- The address of an object or of nothing. -/
def addressOf (a : Nat → Nat) : Option Nat → Nat
  | none => 0
  | some x => a x

/-- What is recorded for a call, if object `x` is at address `a x`. -/
def ObjectCall.fields (a : Nat → Nat) (c : ObjectCall) : PointerFields :=
  ⟨c.used.map (addressOf a), c.consumed.map a, c.produced.map (addressOf a)⟩

/-- The objects that the client knows after a call. -/
def ObjectCall.after (c : ObjectCall) (live : Nat → Prop) : Nat → Prop :=
  fun x => (live x ∧ x ∉ c.consumed) ∨ some x ∈ c.produced

/-- The client only uses objects that it knows, consumes them once, and the objects that it knows are at different
addresses. -/
def Valid (a : Nat → Nat) : (Nat → Prop) → List ObjectCall → Prop
  | _, [] => True
  | live, c :: cs =>
    (∀ x, some x ∈ c.used → live x) ∧ (∀ x ∈ c.consumed, live x) ∧ c.consumed.Nodup ∧
    (∀ x, c.after live x → a x ≠ 0) ∧ (∀ x y, c.after live x → c.after live y → a x = a y → x = y) ∧
    Valid a (c.after live) cs

/-- The replay of a list of calls, in a program where object `x` is at address `b x`: the pointers given to each function. -/
def replayPointers (a b : Nat → Nat) : List ObjectCall → PointerMap → Except Failure (List (List Nat))
  | [], _ => .ok []
  | c :: cs, map => do
    let (arguments, map) ← runProfile (c.fields a) (fun _ => c.produced.map (addressOf b)) map
    return arguments :: (← replayPointers a b cs map)

/-! ## Proof -/

/-- The map relates the addresses of the objects that are known. -/
def Agrees (a b : Nat → Nat) (live : Nat → Prop) (map : PointerMap) : Prop :=
  ∀ k p, map k = some p ↔ ∃ x, live x ∧ a x = k ∧ b x = p

theorem deserializeAll_eq {a b : Nat → Nat} {live : Nat → Prop} {map : PointerMap} (hm : Agrees a b live map)
    (hz : ∀ x, live x → a x ≠ 0) (used : List (Option Nat)) (hu : ∀ x, some x ∈ used → live x) :
    deserializeAll (used.map (addressOf a)) map = .ok (used.map (addressOf b)) := by
  induction used with
  | nil => rfl
  | cons o used ih =>
    have h1 : deserializePointer (addressOf a o) map = .ok (addressOf b o) := by
      cases o with
      | none => rfl
      | some x =>
        have hl := hu x (by simp)
        unfold deserializePointer addressOf
        rw [if_neg (hz x hl)]
        simp only []
        rw [(hm (a x) (b x)).mpr ⟨x, hl, rfl, rfl⟩]
    simp only [List.map_cons, deserializeAll, h1, ih fun x h => hu x (by simp [h])]; rfl

theorem deleteAll_eq {a b : Nat → Nat} {live : Nat → Prop} {map : PointerMap} (hm : Agrees a b live map)
    (hz : ∀ x, live x → a x ≠ 0) (hinj : ∀ x y, live x → live y → a x = a y → x = y)
    (consumed : List Nat) (hu : ∀ x ∈ consumed, live x) (hn : consumed.Nodup) :
    ∃ map', deleteAll (consumed.map a) map = .ok map' ∧ Agrees a b (fun x => live x ∧ x ∉ consumed) map' := by
  induction consumed generalizing map live with
  | nil => exact ⟨map, rfl, fun k p => by simpa using hm k p⟩
  | cons o consumed ih =>
    obtain ⟨hn1, hn2⟩ := List.nodup_cons.mp hn
    have hl := hu o (by simp)
    have h1 : deletePointer (a o) map = .ok fun k => if k = a o then none else map k := by
      unfold deletePointer
      rw [if_pos (hz o hl), (hm (a o) (b o)).mpr ⟨o, hl, rfl, rfl⟩]
    have h2 : Agrees a b (fun x => live x ∧ x ≠ o) (fun k => if k = a o then none else map k) := by
      intro k p
      by_cases hk : k = a o
      · subst hk
        simp only [↓reduceIte]
        refine ⟨fun h => (by simp at h), fun ⟨x, ⟨hx, hne⟩, hax, _⟩ => absurd (hinj x o hx hl hax) hne⟩
      · simp only [hk, ↓reduceIte]
        rw [hm k p]
        constructor
        · rintro ⟨x, hx, hax, hbx⟩
          exact ⟨x, ⟨hx, fun h => hk (by rw [← hax, h])⟩, hax, hbx⟩
        · rintro ⟨x, ⟨hx, -⟩, hax, hbx⟩
          exact ⟨x, hx, hax, hbx⟩
    obtain ⟨map', h3, h4⟩ := ih h2 (fun x hx => hz x hx.1) (fun x y hx hy => hinj x y hx.1 hy.1)
      (fun x hx => ⟨hu x (by simp [hx]), fun h => hn1 (h ▸ hx)⟩) hn2
    refine ⟨map', ?_, fun k p => ?_⟩
    · simp only [List.map_cons, deleteAll, h1]; exact h3
    · rw [h4 k p]
      simp only [List.mem_cons, not_or, and_assoc]

theorem insertAll_eq {a b : Nat → Nat} {live : Nat → Prop} {map : PointerMap} (hm : Agrees a b live map)
    (produced : List (Option Nat)) (hz : ∀ x, some x ∈ produced → a x ≠ 0)
    (hinj : ∀ x y, (live x ∨ some x ∈ produced) → (live y ∨ some y ∈ produced) → a x = a y → x = y) :
    ∃ map', insertAll ((produced.map (addressOf a)).zip (produced.map (addressOf b))) map = .ok map' ∧
      Agrees a b (fun x => live x ∨ some x ∈ produced) map' := by
  induction produced generalizing map live with
  | nil => exact ⟨map, rfl, fun k p => by simpa using hm k p⟩
  | cons o produced ih =>
    cases o with
    | none =>
      obtain ⟨map', h3, h4⟩ := ih hm (fun x hx => hz x (by simp [hx])) (fun x y hx hy => hinj x y (by simpa using hx) (by simpa using hy))
      refine ⟨map', ?_, fun k p => ?_⟩
      · simp only [List.map_cons, List.zip_cons_cons, insertAll]; exact h3
      · rw [h4 k p]; simp
    | some o =>
      have hz' := hz o (by simp)
      obtain ⟨map1, h1, h2⟩ : ∃ map1, insertPointer (a o) (b o) map = .ok map1 ∧ Agrees a b (fun x => live x ∨ x = o) map1 := by
        unfold insertPointer
        rw [if_neg hz']
        cases hmo : map (a o) with
        | some q =>
          obtain ⟨x, hx, hax, hbx⟩ := (hm (a o) q).mp hmo
          have hxo : x = o := hinj x o (.inl hx) (.inr (by simp)) hax
          subst hxo
          refine ⟨map, by simp [hbx], fun k p => ?_⟩
          rw [hm k p]
          constructor
          · rintro ⟨y, hy, h⟩; exact ⟨y, .inl hy, h⟩
          · rintro ⟨y, hy | rfl, h⟩
            · exact ⟨y, hy, h⟩
            · exact ⟨y, hx, h⟩
        | none =>
          refine ⟨_, rfl, fun k p => ?_⟩
          by_cases hk : k = a o
          · subst hk
            simp only [↓reduceIte, Option.some.injEq]
            constructor
            · rintro rfl; exact ⟨o, .inr rfl, rfl, rfl⟩
            · rintro ⟨y, hy, hay, hby⟩
              have : y = o := hinj y o (hy.imp id fun h => by simp [h]) (.inr (by simp)) hay
              rw [← hby, this]
          · simp only [hk, ↓reduceIte]
            rw [hm k p]
            constructor
            · rintro ⟨y, hy, h⟩; exact ⟨y, .inl hy, h⟩
            · rintro ⟨y, hy | rfl, h⟩
              · exact ⟨y, hy, h⟩
              · exact absurd h.1.symm hk
      obtain ⟨map', h3, h4⟩ := ih h2 (fun x hx => hz x (by simp [hx])) (fun x y hx hy => hinj x y
        (by simp only [List.mem_cons, Option.some.injEq]; tauto) (by simp only [List.mem_cons, Option.some.injEq]; tauto))
      refine ⟨map', ?_, fun k p => ?_⟩
      · simp only [List.map_cons, List.zip_cons_cons, insertAll, addressOf, h1]; exact h3
      · rw [h4 k p]; simp only [List.mem_cons, Option.some.injEq, or_assoc]

theorem replayPointers_eq (a b : Nat → Nat) (live : Nat → Prop) (calls : List ObjectCall) (map : PointerMap)
    (hm : Agrees a b live map) (hz : ∀ x, live x → a x ≠ 0) (hinj : ∀ x y, live x → live y → a x = a y → x = y)
    (hv : Valid a live calls) :
    replayPointers a b calls map = .ok (calls.map fun c => c.used.map (addressOf b)) := by
  induction calls generalizing live map with
  | nil => rfl
  | cons c calls ih =>
    obtain ⟨h1, h2, h3, h4, h5, h6⟩ := hv
    obtain ⟨map1, h7, h8⟩ := deleteAll_eq hm hz hinj c.consumed h2 h3
    obtain ⟨map2, h9, h10⟩ := insertAll_eq h8 c.produced (fun x hx => h4 x (.inr hx)) h5
    have h11 : runProfile (c.fields a) (fun _ => c.produced.map (addressOf b)) map
        = .ok (c.used.map (addressOf b), map2) := by
      unfold runProfile ObjectCall.fields
      simp only [deserializeAll_eq hm hz c.used h1, bind, Except.bind, h7, h9]; rfl
    simp only [replayPointers, h11, bind, Except.bind, ih (c.after live) map2 h10 h4 h5 h6]; rfl

/-- When a journal is replayed, each function is given the same objects as when it was recorded, even though they are at other
addresses, provided that the client is told of the destruction of the objects by the calls that consume them: the same
address may then be used again for other objects. -/
theorem C46_pointers (a b : Nat → Nat) (calls : List ObjectCall) (hv : Valid a (fun _ => False) calls) :
    replayPointers a b calls (fun _ => none) = .ok (calls.map fun c => c.used.map (addressOf b)) :=
  replayPointers_eq a b _ calls _ (fun k p => by simp) (by simp) (by simp) hv

/-- Object 0 is created, used and destroyed; object 1 is created at the same address, and used with a null pointer.  Both have other
addresses when replaying. -/
example : replayPointers (fun _ => 7) (fun x => 100 + x)
    [⟨[], [], [some 0]⟩, ⟨[some 0], [], [some 0, none]⟩, ⟨[some 0], [0], [some 1]⟩, ⟨[some 1, none], [], []⟩] (fun _ => none)
      = .ok [[], [100], [100], [101, 0]] :=
  C46_pointers _ _ _ (by simp [Valid, ObjectCall.after])

/-- If an object is destroyed without being consumed and its address is used again, the replay fails. -/
theorem C46_reused_address_counterexample :
    replayPointers (fun _ => 7) (fun x => 100 + x) [⟨[], [], [some 0]⟩, ⟨[], [], [some 1]⟩] (fun _ => none)
      = .error .check := by
  decide +kernel

/-! ## Examples of recordings -/

theorem quiescent_of_first {D : Type} (codec : Codec D) (ls : List (Label D)) (h : ∀ l ∈ ls, l ≠ .activate ∧ l ≠ .deactivate) :
    Quiescent codec (.activate :: ls) := by
  intro ls₁ l ls₂ s he hl hr t
  cases ls₁ with
  | nil =>
    simp only [run, Option.some.injEq, Except.ok.injEq] at hr
    rw [← hr]; rfl
  | cons l' ls₁ =>
    simp only [List.cons_append, List.cons.injEq] at he
    have := h l (by rw [he.2]; simp)
    tauto

/-- Two threads call functions, whose profiles are 5001 and 5002, at the same time; the second one has no output parameters
and stops the program after having written three characters of its second line. -/
def sampleSchedule : List (Label Wire.Bytes) :=
  [.enter 1 5001 (some [42]) true, .enter 2 5002 none false, .acquire 2] ++ List.replicate 9 (.put 2) ++
  [.ret 2 (some [1, 2]), .exit 2 (some [9])] ++ List.replicate 17 (.put 2) ++ [.unlock 2, .acquire 1] ++ List.replicate 15 (.put 1) ++
  [.ret 1 none, .exit 1 (some [])] ++ List.replicate 3 (.put 1)

def fileOf {D : Type} : Option (Except Failure (State D)) → Option (List Nat)
  | some (.ok s) => s.recorder.map Recorder.file
  | _ => none

theorem sample_file : fileOf (run Wire.codec State.init (.activate :: sampleSchedule)) =
    some ("D2B80200\nD2B802041A020102\nCAB802030A012A\nCAB".toList.map Char.toNat) := by
  decide +kernel

theorem sample_history : (history (.activate :: sampleSchedule)).calls = [⟨5002, none, none, some [1, 2]⟩] ∧
    ((history (.activate :: sampleSchedule)).pending 1).1 = ⟨5001, some [42], some [], none⟩ := by
  decide +kernel

def samplePlayer : Player Wire.Bytes := ⟨[5000, 5001, 5002], 5000, fun v => decide (v = some [3])⟩

/-- The hypotheses of the theorems are met by this schedule. -/
example : Quiescent Wire.codec (.activate :: sampleSchedule) ∧
    (∃ s r, run Wire.codec State.init (.activate :: sampleSchedule) = some (.ok s) ∧ s.recorder = some r ∧
      replay samplePlayer Wire.codec r.file = ([⟨5002, none, none, some [1, 2]⟩], .failed .check)) := by
  refine ⟨quiescent_of_first _ _ ?_, ?_⟩
  · intro l hl
    simp [sampleSchedule] at hl
    rcases hl with rfl | rfl | rfl | rfl | rfl | rfl | rfl | rfl | rfl | rfl | rfl | rfl | rfl <;> simp
  · have h := sample_file
    unfold fileOf at h
    split at h
    · rename_i s hs
      cases hr : s.recorder with
      | none => rw [hr] at h; simp at h
      | some r =>
        refine ⟨s, r, hs, hr, ?_⟩
        rw [hr] at h
        simp only [Option.map_some, Option.some.injEq] at h
        rw [h]
        decide +kernel
    · simp at h

def failureOf {D : Type} : Option (Except Failure (State D)) → Option Failure
  | some (.error e) => some e
  | _ => none

/-- If the recorder is activated during a call, a mutex that is not held is released (and the journal contains the outcome of
the call, but not its arguments); if it is deactivated during a call, a mutex that is held is destroyed. -/
theorem C46_activation_counterexample :
    failureOf (run Wire.codec State.init
      ([.enter 1 1 none false, .activate, .ret 1 none, .exit 1 none] ++ List.replicate 5 (.put 1) ++ [.unlock 1]))
        = some .undefined ∧
    fileOf (run Wire.codec State.init
      ([.enter 1 1 none false, .activate, .ret 1 (some [5]), .exit 1 none] ++ List.replicate 11 (.put 1)))
        = some ("0A031A0105\n".toList.map Char.toNat) ∧
    failureOf (run Wire.codec State.init ([.activate, .enter 1 1 none false, .acquire 1] ++ List.replicate 5 (.put 1) ++ [.deactivate]))
        = some .undefined := by
  decide +kernel

end Principia.Journal
