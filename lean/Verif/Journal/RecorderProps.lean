import Verif.Journal.JournalText
import Mathlib.Data.List.Induction

/-!
# C46: what is recorded
-/

namespace Principia.Journal

open Principia.Hexadecimal

set_option linter.unusedSimpArgs false
set_option linter.unusedVariables false

variable {D : Type}

theorem textOf_eq {codec : Codec D} (hc : codec.Lawful) (m : Message D) :
    textOf codec m = .ok (hexDigits (codec.serialize m) ++ [10]) := by
  unfold textOf
  simp only [List.length_pos_iff.mpr (hc.nonempty m), ↓reduceIte, hexadecimalText_eq _ (hc.bytes m) (hc.nonempty m)]

/-- What the threads that do not hold the lock are doing, when a recorder is active. -/
def Outside (s : State D) (h : History D) (t : Nat) : Prop :=
  s.pc t = .idle ∨ ∃ p i o, s.pc t = .waiting s.closed.length p i o ∧ h.pending t = (⟨p, i, none, none⟩, o)

/-- What the thread that holds the lock is doing, and what it has written so far. -/
def Inside (codec : Codec D) (s : State D) (h : History D) (r : Recorder) (u : Nat) : Prop :=
  (∃ p i o done todo, s.pc u = .writingIn s.closed.length p o todo ∧ todo ≠ [] ∧
    h.pending u = (⟨p, i, none, none⟩, o) ∧
    done ++ todo = hexDigits (codec.serialize ⟨p, i, none, none⟩) ++ [10] ∧
    r.file = journalText codec h.calls ++ done) ∨
  (∃ p i o b x, s.pc u = .running ⟨p, o, b, x⟩ ∧ h.pending u = (⟨p, i, none, x⟩, o) ∧
    r.file = journalText codec h.calls ++ (hexDigits (codec.serialize ⟨p, i, none, none⟩) ++ [10])) ∨
  (∃ c o done todo, s.pc u = .writingOut s.closed.length todo ∧ todo ≠ [] ∧ h.pending u = (c, o) ∧
    done ++ todo = c.digitsOut codec ++ [10] ∧
    r.file = journalText codec h.calls ++ (c.digitsIn codec ++ [10] ++ done)) ∨
  (∃ c o, s.pc u = .unlocking s.closed.length ∧ h.pending u = (c, o) ∧
    r.file = journalText codec h.calls ++ c.text codec)

/-- The invariant of the recorder. -/
structure Inv (codec : Codec D) (s : State D) (h : History D) : Prop where
  closed : s.closed = h.past.map (journalText codec)
  inactive : s.recorder = none → h.calls = [] ∧
    ∀ t, s.pc t = .idle ∨ ∃ m, s.pc t = .running m
  free : ∀ r, s.recorder = some r → r.holder = none → r.file = journalText codec h.calls ∧ ∀ t, Outside s h t
  held : ∀ r u, s.recorder = some r → r.holder = some u →
    Inside codec s h r u ∧ ∀ t, t ≠ u → Outside s h t

theorem Inv.init (codec : Codec D) : Inv codec State.init (history []) where
  closed := rfl
  inactive := fun _ => ⟨rfl, fun _ => .inl rfl⟩
  free := by intro r hr; cases hr
  held := by intro r u hr; cases hr

theorem at_self (s : State D) (t : Nat) (p : Pc D) : (s.at t p).pc t = p := by simp [State.at]

theorem at_ne (s : State D) (t u : Nat) (p : Pc D) (h : u ≠ t) : (s.at t p).pc u = s.pc u := by simp [State.at, h]

theorem set_self (h : History D) (t : Nat) (c : Call D × Bool) : (h.set t c).pending t = c := by simp [History.set]

theorem set_ne (h : History D) (t u : Nat) (c : Call D × Bool) (hu : u ≠ t) : (h.set t c).pending u = h.pending u := by
  simp [History.set, hu]

theorem session_self (s : State D) : s.session s.closed.length = s.recorder := by simp [State.session]

theorem Outside.congr {s s' : State D} {h h' : History D} {t : Nat} (ho : Outside s h t) (hpc : s'.pc t = s.pc t)
    (hcl : s'.closed = s.closed) (hp : h'.pending t = h.pending t) : Outside s' h' t := by
  rcases ho with ho | ⟨p, i, o, ho, hq⟩
  · exact .inl (by rw [hpc, ho])
  · exact .inr ⟨p, i, o, by rw [hpc, ho, hcl], by rw [hp, hq]⟩

theorem Inside.congr {codec : Codec D} {s s' : State D} {h h' : History D} {r : Recorder} {t : Nat}
    (ho : Inside codec s h r t) (hpc : s'.pc t = s.pc t) (hcl : s'.closed = s.closed)
    (hp : h'.pending t = h.pending t) (hcalls : h'.calls = h.calls) : Inside codec s' h' r t := by
  unfold Inside at ho ⊢
  rw [hpc, hcl, hp, hcalls]
  exact ho

theorem journalText_append (codec : Codec D) (a b : List (Call D)) :
    journalText codec (a ++ b) = journalText codec a ++ journalText codec b := List.flatMap_append

theorem journalText_singleton (codec : Codec D) (a : Call D) : journalText codec [a] = a.text codec := by
  simp [journalText]

section Steps

variable {codec : Codec D} {s s' : State D} {h : History D}

theorem Inv.enter (hi : Inv codec s h) {t p : Nat} {i : Option D} {o : Bool}
    (hs : enter s t p i o = some (.ok s')) : Inv codec s' (h.next (.enter t p i o)) := by
  unfold Journal.enter at hs
  have hidle : s.pc t = .idle := by
    cases hp : s.pc t <;> rw [hp] at hs <;> first | rfl | (simp at hs)
  rw [hidle] at hs
  show Inv codec s' (h.set t (⟨p, i, none, none⟩, o))
  cases hr : s.recorder with
  | none =>
    rw [hr] at hs
    simp only [Option.some.injEq, Except.ok.injEq] at hs
    subst hs
    refine ⟨hi.closed, fun _ => ⟨(hi.inactive hr).1, fun u => ?_⟩, fun r h1 => ?_, fun r u h1 => ?_⟩
    · by_cases hu : u = t
      · subst hu; rw [at_self]; exact .inr ⟨_, rfl⟩
      · rw [at_ne _ _ _ _ hu]; exact (hi.inactive hr).2 u
    · exact absurd (h1.symm.trans hr) (by simp)
    · exact absurd (h1.symm.trans hr) (by simp)
  | some r =>
    rw [hr] at hs
    simp only [Option.some.injEq, Except.ok.injEq] at hs
    subst hs
    have hout : ∀ u, (u ≠ t → Outside s h u) →
        Outside (s.at t (.waiting s.closed.length p i o)) (h.set t (⟨p, i, none, none⟩, o)) u := by
      intro u h1
      by_cases hu : u = t
      · subst hu; exact .inr ⟨p, i, o, at_self _ _ _, set_self _ _ _⟩
      · exact (h1 hu).congr (at_ne _ _ _ _ hu) rfl (set_ne _ _ _ _ hu)
    refine ⟨hi.closed, fun h1 => ?_, fun r1 h1 h2 => ?_, fun r1 u h1 h2 => ?_⟩
    · exact absurd (h1.symm.trans hr) (by simp)
    · have := hi.free r1 h1 h2
      exact ⟨this.1, fun u => hout u fun _ => this.2 u⟩
    · have := hi.held r1 u h1 h2
      have hut : u ≠ t := by
        rintro rfl
        have h3 := this.1
        unfold Inside at h3
        rw [hidle] at h3
        rcases h3 with ⟨_, _, _, _, _, h, _⟩ | ⟨_, _, _, _, _, h, _⟩ | ⟨_, _, _, _, h, _⟩ | ⟨_, _, h, _⟩ <;> cases h
      exact ⟨this.1.congr (at_ne _ _ _ _ hut) rfl (set_ne _ _ _ _ hut) rfl,
        fun v hv => hout v fun hvt => this.2 v hv⟩

theorem Inv.acquire (hc : codec.Lawful) (hi : Inv codec s h) {t : Nat}
    (hs : acquire codec s t = some (.ok s')) : Inv codec s' (h.next (.acquire t)) := by
  unfold Journal.acquire at hs
  show Inv codec s' h
  split at hs
  case h_2 => simp at hs
  rename_i k p i o hpc
  split at hs
  · simp at hs
  rename_i r hsess
  split at hs
  · simp at hs
  rename_i hfree
  rw [textOf_eq hc] at hs
  simp only [Option.some.injEq, Except.ok.injEq] at hs
  subst hs
  have hk : s.closed.length = k ∧ s.recorder = some r := by
    unfold State.session at hsess
    split at hsess
    · exact ⟨by assumption, hsess⟩
    · simp at hsess
  obtain ⟨hk, hr⟩ := hk
  have hf := hi.free r hr hfree
  have hpend : h.pending t = (⟨p, i, none, none⟩, o) := by
    rcases hf.2 t with h1 | ⟨p', i', o', h1, h2⟩
    · rw [hpc] at h1; cases h1
    · rw [hpc] at h1; cases h1; exact h2
  refine ⟨hi.closed, fun h1 => (by cases h1), fun r1 h1 h2 => ?_, fun r1 u h1 h2 => ?_⟩
  · cases h1; cases h2
  · cases h1; cases h2
    refine ⟨.inl ⟨p, i, o, [], _, ?_, ?_, hpend, rfl, ?_⟩, fun v hv => ?_⟩
    · rw [at_self, ← hk]; rfl
    · simp
    · simp [hf.1]
    · exact (hf.2 v).congr (at_ne _ _ _ _ hv) rfl rfl

theorem Inv.put (hi : Inv codec s h) {t : Nat} (hs : put s t = some (.ok s')) : Inv codec s' (h.next (.put t)) := by
  unfold Journal.put at hs
  show Inv codec s' h
  have key : ∀ r : Recorder, s.recorder = some r → ((∃ k p o todo, s.pc t = .writingIn k p o todo) ∨ (∃ k todo, s.pc t = .writingOut k todo)) →
      r.holder = some t := by
    intro r hr hp
    cases hh : r.holder with
    | none =>
      have := (hi.free r hr hh).2 t
      rcases this with h1 | ⟨_, _, _, h1, _⟩ <;> rw [h1] at hp <;> simp at hp
    | some u =>
      by_contra hne
      have hut : t ≠ u := fun h => hne (by rw [h])
      have := (hi.held r u hr hh).2 t hut
      rcases this with h1 | ⟨_, _, _, h1, _⟩ <;> rw [h1] at hp <;> simp at hp
  split at hs
  · rename_i k p o c todo hpc
    split at hs
    · simp at hs
    rename_i r hsess
    have hk : s.closed.length = k ∧ s.recorder = some r := by
      unfold State.session at hsess
      split at hsess
      · exact ⟨by assumption, hsess⟩
      · simp at hsess
    obtain ⟨hk, hr⟩ := hk
    have hhold := key r hr (.inl ⟨_, _, _, _, hpc⟩)
    simp only [Option.some.injEq, Except.ok.injEq] at hs
    subst hs
    obtain ⟨hin, hout⟩ := hi.held r t hr hhold
    refine ⟨hi.closed, fun h1 => (by cases h1), fun r1 h1 h2 => ?_, fun r1 u h1 h2 => ?_⟩
    · cases h1; rw [hhold] at h2; cases h2
    · cases h1
      have hu : u = t := by rw [hhold] at h2; cases h2; rfl
      subst hu
      refine ⟨?_, fun v hv => (hout v hv).congr (at_ne _ _ _ _ hv) rfl rfl⟩
      unfold Inside at hin
      rw [hpc] at hin
      rcases hin with ⟨p', i, o', done, todo', h1, h2, h3, h4, h5⟩ | ⟨_, _, _, _, _, h1, _⟩ | ⟨_, _, _, _, h1, _⟩ | ⟨_, _, h1, _⟩ <;> cases h1
      by_cases ht : todo = []
      · subst ht
        refine .inr (.inl ⟨p, i, o, false, none, ?_, h3, ?_⟩)
        · rw [at_self, if_pos rfl]
        · show r.file ++ [c] = _
          rw [h5, List.append_assoc, h4]
      · refine .inl ⟨p, i, o, done ++ [c], todo, ?_, ht, h3, ?_, ?_⟩
        · rw [at_self, if_neg ht]; rfl
        · rw [← h4]; simp
        · show r.file ++ [c] = _
          rw [h5, List.append_assoc]
  · rename_i k c todo hpc
    split at hs
    · simp at hs
    rename_i r hsess
    have hk : s.closed.length = k ∧ s.recorder = some r := by
      unfold State.session at hsess
      split at hsess
      · exact ⟨by assumption, hsess⟩
      · simp at hsess
    obtain ⟨hk, hr⟩ := hk
    have hhold := key r hr (.inr ⟨_, _, hpc⟩)
    simp only [Option.some.injEq, Except.ok.injEq] at hs
    subst hs
    obtain ⟨hin, hout⟩ := hi.held r t hr hhold
    refine ⟨hi.closed, fun h1 => (by cases h1), fun r1 h1 h2 => ?_, fun r1 u h1 h2 => ?_⟩
    · cases h1; rw [hhold] at h2; cases h2
    · cases h1
      have hu : u = t := by rw [hhold] at h2; cases h2; rfl
      subst hu
      refine ⟨?_, fun v hv => (hout v hv).congr (at_ne _ _ _ _ hv) rfl rfl⟩
      unfold Inside at hin
      rw [hpc] at hin
      rcases hin with ⟨_, _, _, _, _, h1, _⟩ | ⟨_, _, _, _, _, h1, _⟩ | ⟨cl, o, done, todo', h1, h2, h3, h4, h5⟩ | ⟨_, _, h1, _⟩ <;> cases h1
      by_cases ht : todo = []
      · subst ht
        refine .inr (.inr (.inr ⟨cl, o, ?_, h3, ?_⟩))
        · rw [at_self, if_pos rfl]; rfl
        · show r.file ++ [c] = _
          rw [h5]
          unfold Call.text
          rw [List.append_assoc, List.append_assoc _ done, h4]
          simp only [List.append_assoc]
      · refine .inr (.inr (.inl ⟨cl, o, done ++ [c], todo, ?_, ht, h3, ?_, ?_⟩))
        · rw [at_self, if_neg ht]; rfl
        · rw [← h4]; simp
        · show r.file ++ [c] = _
          rw [h5]; simp only [List.append_assoc]
  · simp at hs

theorem Inv.running_holder (hi : Inv codec s h) {t : Nat} {m : MethodState D} (hp : s.pc t = .running m) {r : Recorder}
    (hr : s.recorder = some r) : r.holder = some t := by
  cases hh : r.holder with
  | none =>
    have := (hi.free r hr hh).2 t
    rcases this with h1 | ⟨_, _, _, h1, _⟩ <;> rw [h1] at hp <;> cases hp
  | some u =>
    by_contra hne
    have hut : t ≠ u := fun h => hne (by rw [h])
    have := (hi.held r u hr hh).2 t hut
    rcases this with h1 | ⟨_, _, _, h1, _⟩ <;> rw [h1] at hp <;> cases hp

theorem Inv.ret (hi : Inv codec s h) {t : Nat} {x : Option D} (hs : ret s t x = some (.ok s')) :
    Inv codec s' (h.next (.ret t x)) := by
  unfold Journal.ret at hs
  split at hs
  case h_2 => simp at hs
  rename_i m hpc
  split at hs
  · simp at hs
  simp only [Option.some.injEq, Except.ok.injEq] at hs
  subst hs
  show Inv codec _ (h.set t ({ (h.pending t).1 with result := x }, (h.pending t).2))
  refine ⟨hi.closed, fun hr => ?_, fun r h1 h2 => ?_, fun r u h1 h2 => ?_⟩
  · refine ⟨(hi.inactive hr).1, fun u => ?_⟩
    by_cases hu : u = t
    · subst hu; exact .inr ⟨_, at_self _ _ _⟩
    · rw [at_ne _ _ _ _ hu]; exact (hi.inactive hr).2 u
  · have h3 := hi.running_holder hpc h1
    rw [h2] at h3; cases h3
  · have h1' : s.recorder = some r := h1
    have h3 := hi.running_holder hpc h1'
    have hu : u = t := by rw [h2] at h3; cases h3; rfl
    subst hu
    obtain ⟨hin, hout⟩ := hi.held r u h1 h2
    refine ⟨?_, fun v hv => (hout v hv).congr (at_ne _ _ _ _ hv) rfl (set_ne _ _ _ _ hv)⟩
    unfold Inside at hin
    rw [hpc] at hin
    rcases hin with ⟨_, _, _, _, _, h1, _⟩ | ⟨p, i, o, b, y, h4, h5, h6⟩ | ⟨cl, o, done, todo', h1, _⟩ | ⟨_, _, h1, _⟩
    · cases h1
    · cases h4
      refine .inr (.inl ⟨p, i, o, true, x, ?_, ?_, h6⟩)
      · rw [at_self, h1']; rfl
      · rw [set_self, h5]
    · cases h1
    · cases h1

theorem Inv.exit (hc : codec.Lawful) (hi : Inv codec s h) {t : Nat} {x : Option D}
    (hs : exit codec s t x = some (.ok s')) : Inv codec s' (h.next (.exit t x)) := by
  unfold Journal.exit at hs
  split at hs
  case h_2 => simp at hs
  rename_i m hpc
  split at hs
  case isFalse => simp at hs
  show Inv codec _ (h.set t ({ (h.pending t).1 with output := if (h.pending t).2 then x else none }, (h.pending t).2))
  cases hr : s.recorder with
  | none =>
    rw [hr] at hs
    simp only [Option.some.injEq, Except.ok.injEq] at hs
    subst hs
    refine ⟨hi.closed, fun _ => ⟨(hi.inactive hr).1, fun u => ?_⟩, fun r h1 => ?_, fun r u h1 => ?_⟩
    · by_cases hu : u = t
      · subst hu; rw [at_self]; exact .inl rfl
      · rw [at_ne _ _ _ _ hu]; exact (hi.inactive hr).2 u
    · exact absurd (h1.symm.trans hr) (by simp)
    · exact absurd (h1.symm.trans hr) (by simp)
  | some r =>
    rw [hr] at hs
    simp only [textOf_eq hc, Option.some.injEq, Except.ok.injEq] at hs
    subst hs
    have h3 := hi.running_holder hpc hr
    obtain ⟨hin, hout⟩ := hi.held r t hr h3
    refine ⟨hi.closed, fun h1 => absurd (h1.symm.trans hr) (by simp), fun r1 h1 h2 => ?_, fun r1 u h1 h2 => ?_⟩
    · have : r1 = r := by have := h1.symm.trans hr; cases this; rfl
      subst this; rw [h2] at h3; cases h3
    · have : r1 = r := by have := h1.symm.trans hr; cases this; rfl
      subst this
      have hu : u = t := by rw [h2] at h3; cases h3; rfl
      subst hu
      refine ⟨?_, fun v hv => (hout v hv).congr (at_ne _ _ _ _ hv) rfl (set_ne _ _ _ _ hv)⟩
      unfold Inside at hin
      rw [hpc] at hin
      rcases hin with ⟨_, _, _, _, _, h1, _⟩ | ⟨p, i, o, b, y, h4, h5, h6⟩ | ⟨cl, o, done, todo', h1, _⟩ | ⟨_, _, h1, _⟩
      · cases h1
      · cases h4
        refine .inr (.inr (.inl ⟨⟨p, i, if o then x else none, y⟩, o, [], _, at_self _ _ _, ?_, ?_, rfl, ?_⟩))
        · simp
        · rw [set_self, h5]
        · rw [h6, List.append_nil]; rfl
      · cases h1
      · cases h1

theorem Inv.unlock (hi : Inv codec s h) {t : Nat} (hs : unlock s t = some (.ok s')) :
    Inv codec s' (h.next (.unlock t)) := by
  unfold Journal.unlock at hs
  split at hs
  case h_2 => simp at hs
  rename_i k hpc
  split at hs
  · simp at hs
  rename_i r hsess
  have hk : s.closed.length = k ∧ s.recorder = some r := by
    unfold State.session at hsess
    split at hsess
    · exact ⟨by assumption, hsess⟩
    · simp at hsess
  obtain ⟨hk, hr⟩ := hk
  split at hs
  case isFalse => simp at hs
  rename_i hhold
  simp only [Option.some.injEq, Except.ok.injEq] at hs
  subst hs
  obtain ⟨hin, hout⟩ := hi.held r t hr hhold
  refine ⟨hi.closed, fun h1 => (by cases h1), fun r1 h1 h2 => ?_, fun r1 u h1 h2 => ?_⟩
  · cases h1
    unfold Inside at hin
    rw [hpc] at hin
    rcases hin with ⟨_, _, _, _, _, h1, _⟩ | ⟨_, _, _, _, _, h1, _⟩ | ⟨_, _, _, _, h1, _⟩ | ⟨cl, o, h1, h2, h3⟩ <;> cases h1
    refine ⟨?_, fun v => ?_⟩
    · show r.file = journalText codec (h.calls ++ [(h.pending t).1])
      rw [h3, journalText_append, journalText_singleton, h2]
    · by_cases hv : v = t
      · subst hv; exact .inl (at_self _ _ _)
      · exact (hout v hv).congr (at_ne _ _ _ _ hv) rfl rfl
  · cases h1; cases h2

theorem Inv.activate (hi : Inv codec s h) (hq : ∀ t, s.pc t = .idle) (hs : activate s = some (.ok s')) :
    Inv codec s' (h.next .activate) := by
  unfold Journal.activate at hs
  split at hs
  case h_2 => simp at hs
  rename_i hr
  simp only [Option.some.injEq, Except.ok.injEq] at hs
  subst hs
  refine ⟨hi.closed, fun h1 => (by cases h1), fun r1 h1 h2 => ?_, fun r1 u h1 h2 => ?_⟩
  · cases h1
    refine ⟨?_, fun t => .inl (hq t)⟩
    show [] = journalText codec h.calls
    rw [(hi.inactive hr).1]; rfl
  · cases h1; cases h2

theorem Inv.deactivate (hi : Inv codec s h) (hq : ∀ t, s.pc t = .idle) (hs : deactivate s = some (.ok s')) :
    Inv codec s' (h.next .deactivate) := by
  unfold Journal.deactivate at hs
  split at hs
  · simp at hs
  rename_i r hr
  split at hs
  · simp at hs
  rename_i hfree
  simp only [Option.some.injEq, Except.ok.injEq] at hs
  subst hs
  refine ⟨?_, fun _ => ⟨rfl, fun t => .inl (hq t)⟩, fun r1 h1 => (by cases h1), fun r1 u h1 => (by cases h1)⟩
  show s.closed ++ [r.file] = (h.past ++ [h.calls]).map (journalText codec)
  rw [List.map_append, ← hi.closed, (hi.free r hr hfree).1]; rfl

theorem Inv.step (hc : codec.Lawful) (hi : Inv codec s h) {l : Label D}
    (hq : l = .activate ∨ l = .deactivate → ∀ t, s.pc t = .idle) (hs : step codec s l = some (.ok s')) :
    Inv codec s' (h.next l) := by
  cases l with
  | enter t p i o => exact hi.enter hs
  | acquire t => exact hi.acquire hc hs
  | put t => exact hi.put hs
  | ret t x => exact hi.ret hs
  | exit t o => exact hi.exit hc hs
  | unlock t => exact hi.unlock hs
  | activate => exact hi.activate (hq (.inl rfl)) hs
  | deactivate => exact hi.deactivate (hq (.inr rfl)) hs

end Steps

theorem run_append_ok (codec : Codec D) (s s' : State D) (l l' : List (Label D)) (h : run codec s l = some (.ok s')) :
    run codec s (l ++ l') = run codec s' l' := by
  induction l generalizing s with
  | nil => simp only [run, Option.some.injEq, Except.ok.injEq] at h; rw [h]; rfl
  | cons a l ih =>
    simp only [List.cons_append, run] at h ⊢
    cases hst : Journal.step codec s a with
    | none => rw [hst] at h; simp at h
    | some e =>
      cases e with
      | error e => rw [hst] at h; simp at h
      | ok s1 => rw [hst] at h; exact ih s1 h

theorem run_snoc {codec : Codec D} {s s' : State D} {ls : List (Label D)} {l : Label D}
    (h : run codec s (ls ++ [l]) = some (.ok s')) :
    ∃ s1, run codec s ls = some (.ok s1) ∧ step codec s1 l = some (.ok s') := by
  induction ls generalizing s with
  | nil =>
    refine ⟨s, rfl, ?_⟩
    simp only [List.nil_append, run] at h
    cases hst : step codec s l with
    | none => rw [hst] at h; simp at h
    | some e =>
      cases e with
      | error e => rw [hst] at h; simp at h
      | ok s1 => rw [hst] at h; simpa using h
  | cons a ls ih =>
    simp only [List.cons_append, run] at h ⊢
    cases hst : step codec s a with
    | none => rw [hst] at h; simp at h
    | some e =>
      cases e with
      | error e => rw [hst] at h; simp at h
      | ok s1 => rw [hst] at h; exact ih h

/-- The invariant holds after every schedule. -/
theorem inv_of_run {codec : Codec D} (hc : codec.Lawful) {ls : List (Label D)} (hq : Quiescent codec ls) {s : State D}
    (hr : run codec State.init ls = some (.ok s)) : Inv codec s (history ls) := by
  induction ls using List.reverseRecOn generalizing s with
  | nil => simp only [run, Option.some.injEq, Except.ok.injEq] at hr; rw [← hr]; exact Inv.init codec
  | append_singleton ls l ih =>
    obtain ⟨s1, h1, h2⟩ := run_snoc hr
    have hi := ih (fun ls₁ l' ls₂ s' he => hq ls₁ l' (ls₂ ++ [l]) s' (by rw [he]; simp)) h1
    have : history (ls ++ [l]) = (history ls).next l := by simp [history, List.foldl_append]
    rw [this]
    exact hi.step hc (fun hl => hq ls l [] s1 rfl hl h1) h2

/-- What the file of the active recorder contains when the program crashes, or otherwise: the completed calls, in order, in
pairs of lines, then possibly part of the lines of a call that is being made. -/
theorem C46_recorded {codec : Codec D} (hc : codec.Lawful) {ls : List (Label D)} (hq : Quiescent codec ls) {s : State D}
    (hr : run codec State.init ls = some (.ok s)) :
    s.closed = (history ls).past.map (journalText codec) ∧
    ∀ r, s.recorder = some r → ∃ rest, r.file = journalText codec (history ls).calls ++ rest ∧
      (rest = [] ∨ ∃ t, s.pc t ≠ .idle ∧ rest <+: ((history ls).pending t).1.text codec) := by
  have hi := inv_of_run hc hq hr
  refine ⟨hi.closed, fun r h1 => ?_⟩
  cases hh : r.holder with
  | none => exact ⟨[], by rw [List.append_nil]; exact (hi.free r h1 hh).1, .inl rfl⟩
  | some u =>
    rcases (hi.held r u h1 hh).1 with ⟨p, i, o, done, todo, h2, h3, h4, h5, h6⟩ | ⟨p, i, o, b, x, h2, h3, h4⟩ |
      ⟨c, o, done, todo, h2, h3, h4, h5, h6⟩ | ⟨c, o, h2, h3, h4⟩
    · refine ⟨done, h6, .inr ⟨u, by rw [h2]; simp, ?_⟩⟩
      refine ⟨todo ++ (Call.digitsOut codec ⟨p, i, none, none⟩ ++ [10]), ?_⟩
      rw [← List.append_assoc, h5, h4]; simp [Call.text, Call.digitsIn]
    · refine ⟨_, h4, .inr ⟨u, by rw [h2]; simp, ?_⟩⟩
      refine ⟨Call.digitsOut codec ⟨p, i, none, x⟩ ++ [10], ?_⟩
      rw [h3]; simp [Call.text, Call.digitsIn]
    · refine ⟨_, h6, .inr ⟨u, by rw [h2]; simp, ?_⟩⟩
      refine ⟨todo, ?_⟩
      rw [List.append_assoc, h5, h4]; simp [Call.text]
    · exact ⟨_, h4, .inr ⟨u, by rw [h2]; simp, by rw [h3]; exact List.prefix_rfl⟩⟩

/-- The journal is made of the completed calls, exactly, when no call is being made. -/
theorem C46_recorded_quiescent {codec : Codec D} (hc : codec.Lawful) {ls : List (Label D)} (hq : Quiescent codec ls)
    {s : State D} (hr : run codec State.init ls = some (.ok s)) (hidle : ∀ t, s.pc t = .idle) (r : Recorder)
    (h : s.recorder = some r) : r.file = journalText codec (history ls).calls := by
  obtain ⟨rest, h1, rfl | ⟨t, h2, -⟩⟩ := (C46_recorded hc hq hr).2 r h
  · rw [h1, List.append_nil]
  · exact absurd (hidle t) h2

/-- The preconditions of the mutex are never violated, and no deleted recorder is used.  A `CHECK` only fails if a function
returns twice or not at all, or if a recorder is activated or deactivated twice. -/
theorem C46_no_undefined_behaviour {codec : Codec D} (hc : codec.Lawful) {ls : List (Label D)} {l : Label D}
    (hq : Quiescent codec (ls ++ [l])) {s : State D} (hr : run codec State.init ls = some (.ok s)) {e : Failure}
    (he : step codec s l = some (.error e)) :
    e = .check ∧ (
      (∃ t x m, l = .ret t x ∧ s.pc t = .running m ∧ m.returned = true) ∨
      (∃ t x m, l = .exit t x ∧ s.pc t = .running m ∧ m.returned = false) ∨
      (l = .activate ∧ s.recorder.isSome) ∨ (l = .deactivate ∧ s.recorder = none)) := by
  have hi := inv_of_run hc (fun ls₁ l' ls₂ s' he => hq ls₁ l' (ls₂ ++ [l]) s' (by rw [he]; simp)) hr
  have hidle : l = .activate ∨ l = .deactivate → ∀ t, s.pc t = .idle := fun hl => hq ls l [] s rfl hl hr
  -- What a thread in a given place sees.
  have hwait : ∀ t k p i o, s.pc t = .waiting k p i o → s.session k = s.recorder ∧ s.recorder ≠ none := by
    intro t k p i o hp
    have hne : s.recorder ≠ none := by
      intro h0
      rcases (hi.inactive h0).2 t with h | ⟨m, h⟩ <;> rw [hp] at h <;> cases h
    obtain ⟨r, hrec⟩ := Option.ne_none_iff_exists'.mp hne
    have hout : Outside s (history ls) t := by
      cases hh : r.holder with
      | none => exact (hi.free r hrec hh).2 t
      | some u =>
        by_cases hu : t = u
        · subst hu
          have := (hi.held r t hrec hh).1
          unfold Inside at this
          rw [hp] at this
          rcases this with ⟨_, _, _, _, _, h, _⟩ | ⟨_, _, _, _, _, h, _⟩ | ⟨_, _, _, _, h, _⟩ | ⟨_, _, h, _⟩ <;> cases h
        · exact (hi.held r u hrec hh).2 t hu
    refine ⟨?_, hne⟩
    rcases hout with h | ⟨p', i', o', h, -⟩
    · rw [hp] at h; cases h
    · rw [hp] at h; cases h; exact session_self s
  have hin : ∀ t, ((∃ k p o todo, s.pc t = .writingIn k p o todo) ∨ (∃ k todo, s.pc t = .writingOut k todo) ∨
      ∃ k, s.pc t = .unlocking k) → ∃ r, s.recorder = some r ∧ r.holder = some t ∧
        ((∃ p o todo, s.pc t = .writingIn s.closed.length p o todo) ∨ (∃ todo, s.pc t = .writingOut s.closed.length todo) ∨
      s.pc t = .unlocking s.closed.length) := by
    intro t hp
    have hne : s.recorder ≠ none := by
      intro h0
      rcases (hi.inactive h0).2 t with h | ⟨m, h⟩ <;> rw [h] at hp <;> simp at hp
    obtain ⟨r, hrec⟩ := Option.ne_none_iff_exists'.mp hne
    refine ⟨r, hrec, ?_⟩
    have hno : ¬ Outside s (history ls) t := by
      rintro (h | ⟨p', i', o', h, -⟩) <;> rw [h] at hp <;> simp at hp
    cases hh : r.holder with
    | none => exact absurd ((hi.free r hrec hh).2 t) hno
    | some u =>
      by_cases hu : t = u
      · subst hu
        refine ⟨rfl, ?_⟩
        have := (hi.held r t hrec hh).1
        rcases this with ⟨p, _, o, _, todo, h, _⟩ | ⟨_, _, _, _, _, h, _⟩ | ⟨_, _, _, todo, h, _⟩ | ⟨_, _, h, _⟩
        · exact .inl ⟨p, o, todo, h⟩
        · rw [h] at hp; simp at hp
        · exact .inr (.inl ⟨todo, h⟩)
        · exact .inr (.inr h)
      · exact absurd ((hi.held r u hrec hh).2 t hu) hno
  cases l with
  | enter t p i o =>
    exfalso
    simp only [step, enter] at he
    split at he
    · split at he <;> simp at he
    · simp at he
  | acquire t =>
    exfalso
    simp only [step, acquire] at he
    split at he
    · rename_i k p i o hp
      obtain ⟨h1, h2⟩ := hwait t k p i o hp
      rw [h1] at he
      split at he
      · contradiction
      · split at he
        · simp at he
        · rw [textOf_eq hc] at he; simp at he
    · simp at he
  | put t =>
    exfalso
    simp only [step, put] at he
    split at he
    · rename_i k p o c todo hp
      obtain ⟨r, h1, h2, h3⟩ := hin t (.inl ⟨_, _, _, _, hp⟩)
      rw [hp] at h3
      have hk : k = s.closed.length := by
        rcases h3 with ⟨_, _, _, h⟩ | ⟨_, h⟩ | h <;> cases h
        rfl
      rw [hk, session_self, h1] at he
      simp at he
    · rename_i k c todo hp
      obtain ⟨r, h1, h2, h3⟩ := hin t (.inr (.inl ⟨_, _, hp⟩))
      rw [hp] at h3
      have hk : k = s.closed.length := by
        rcases h3 with ⟨_, _, _, h⟩ | ⟨_, h⟩ | h <;> cases h
        rfl
      rw [hk, session_self, h1] at he
      simp at he
    · simp at he
  | ret t x =>
    simp only [step, ret] at he
    split at he
    · rename_i m hp
      split at he
      · rename_i hm
        simp only [Option.some.injEq, Except.error.injEq] at he
        exact ⟨he.symm, .inl ⟨t, x, m, rfl, hp, hm⟩⟩
      · simp at he
    · simp at he
  | exit t x =>
    simp only [step, exit] at he
    split at he
    · rename_i m hp
      split at he
      · split at he
        · simp at he
        · rw [textOf_eq hc] at he; simp at he
      · rename_i hm
        simp only [Option.some.injEq, Except.error.injEq] at he
        exact ⟨he.symm, .inr (.inl ⟨t, x, m, rfl, hp, by simpa using hm⟩)⟩
    · simp at he
  | unlock t =>
    exfalso
    simp only [step, unlock] at he
    split at he
    · rename_i k hp
      obtain ⟨r, h1, h2, h3⟩ := hin t (.inr (.inr ⟨_, hp⟩))
      rw [hp] at h3
      have hk : k = s.closed.length := by
        rcases h3 with ⟨_, _, _, h⟩ | ⟨_, h⟩ | h <;> cases h
        rfl
      rw [hk, session_self, h1] at he
      simp [h2] at he
    · simp at he
  | activate =>
    simp only [step, activate] at he
    split at he
    · simp at he
    · rename_i r hrec
      simp only [Option.some.injEq, Except.error.injEq] at he
      exact ⟨he.symm, .inr (.inr (.inl ⟨rfl, by rw [hrec]; rfl⟩))⟩
  | deactivate =>
    simp only [step, deactivate] at he
    split at he
    · rename_i hrec
      simp only [Option.some.injEq, Except.error.injEq] at he
      exact ⟨he.symm, .inr (.inr (.inr ⟨rfl, hrec⟩))⟩
    · rename_i r hrec
      exfalso
      split at he
      · rename_i u hh
        have := (hi.held r u hrec hh).1
        unfold Inside at this
        rw [hidle (.inr rfl) u] at this
        rcases this with ⟨_, _, _, _, _, h, _⟩ | ⟨_, _, _, _, _, h, _⟩ | ⟨_, _, _, _, h, _⟩ | ⟨_, _, h, _⟩ <;> cases h
      · simp at he

/-- A thread which makes a call is never blocked forever: as long as a call is being made, the thread that holds the lock,
or one that waits for it if it is free, can execute a step. -/
theorem C46_progress {codec : Codec D} (hc : codec.Lawful) {ls : List (Label D)} (hq : Quiescent codec ls) {s : State D}
    (hr : run codec State.init ls = some (.ok s)) {t : Nat} (ht : s.pc t ≠ .idle) :
    ∃ u l,
      (l = .acquire u ∨ l = .put u ∨ (∃ x, l = .ret u x) ∨ (∃ x, l = .exit u x) ∨ l = .unlock u) ∧
      ∃ s', step codec s l = some (.ok s') := by
  have hi := inv_of_run hc hq hr
  have hrun : ∀ u m, s.pc u = .running m → ∃ u l,
      (l = .acquire u ∨ l = .put u ∨ (∃ x, l = .ret u x) ∨ (∃ x, l = .exit u x) ∨ l = .unlock u) ∧
      ∃ s', step codec s l = some (.ok s') := by
    intro u m hp
    cases hm : m.returned with
    | false =>
      refine ⟨u, .ret u none, .inr (.inr (.inl ⟨none, rfl⟩)), ?_⟩
      simp only [step, ret, hp, hm]; exact ⟨_, rfl⟩
    | true =>
      refine ⟨u, .exit u none, ?_⟩
      cases hrec : s.recorder with
      | none =>
        refine ⟨.inr (.inr (.inr (.inl ⟨none, rfl⟩))), ?_⟩
        simp only [step, exit, hp, hm, hrec]; exact ⟨_, rfl⟩
      | some r =>
        refine ⟨.inr (.inr (.inr (.inl ⟨none, rfl⟩))), ?_⟩
        simp only [step, exit, hp, hm, hrec, textOf_eq hc]; exact ⟨_, rfl⟩
  cases hrec : s.recorder with
  | none =>
    rcases (hi.inactive hrec).2 t with h | ⟨m, h⟩
    · exact absurd h ht
    · exact hrun t m h
  | some r =>
    cases hh : r.holder with
    | none =>
      rcases (hi.free r hrec hh).2 t with h | ⟨p, i, o, h, -⟩
      · exact absurd h ht
      · refine ⟨t, .acquire t, .inl rfl, ?_⟩
        simp only [step, acquire, h, session_self, hrec, hh, textOf_eq hc]; exact ⟨_, rfl⟩
    | some u =>
      rcases (hi.held r u hrec hh).1 with ⟨p, i, o, done, todo, h2, h3, h4, h5, h6⟩ | ⟨p, i, o, b, x, h2, h3, h4⟩ |
        ⟨c, o, done, todo, h2, h3, h4, h5, h6⟩ | ⟨c, o, h2, h3, h4⟩
      · obtain ⟨a, todo', rfl⟩ := List.exists_cons_of_ne_nil h3
        refine ⟨u, .put u, .inr (.inl rfl), ?_⟩
        simp only [step, put, h2, session_self, hrec]; exact ⟨_, rfl⟩
      · exact hrun u _ h2
      · obtain ⟨a, todo', rfl⟩ := List.exists_cons_of_ne_nil h3
        refine ⟨u, .put u, .inr (.inl rfl), ?_⟩
        simp only [step, put, h2, session_self, hrec]; exact ⟨_, rfl⟩
      · refine ⟨u, .unlock u, .inr (.inr (.inr (.inr rfl))), ?_⟩
        simp only [step, unlock, h2, session_self, hrec, hh]; exact ⟨_, rfl⟩

end Principia.Journal
