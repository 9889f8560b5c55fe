import Verif.Journal.RecorderProps
import Verif.Journal.Wire

/-!
# C46: what is replayed
-/

namespace Principia.Journal

open Principia.Hexadecimal

set_option linter.unusedSimpArgs false
set_option linter.unusedVariables false

variable {D : Type}

/-- The player knows the function that is called; if it is `GetVersion`, it returned the version of the player. -/
def Player.Knows (player : Player D) (c : Call D) : Prop :=
  c.profile ∈ player.profiles ∧ (c.profile = player.getVersion → player.acceptsVersion c.output = true)

theorem hexDigits_ne_nil {codec : Codec D} (hc : codec.Lawful) (m : Message D) : hexDigits (codec.serialize m) ≠ [] := by
  intro h
  have h1 := hexDigits_length (codec.serialize m)
  have h2 := List.length_pos_iff.mpr (hc.nonempty m)
  rw [h] at h1; simp only [List.length_nil] at h1; omega

theorem hexadecimalBytes_hexDigits {codec : Codec D} (hc : codec.Lawful) (m : Message D) :
    hexadecimalBytes (hexDigits (codec.serialize m)) = some (codec.serialize m) := by
  have := hexadecimalBytes_take _ (hc.bytes m) (2 * (codec.serialize m).length) (Nat.le_refl _)
  rwa [List.take_of_length_le (by rw [hexDigits_length]), List.take_of_length_le (by omega)] at this

theorem read_line {codec : Codec D} (hc : codec.Lawful) (m : Message D) (more : List Nat) :
    read codec ⟨hexDigits (codec.serialize m) ++ 10 :: more, false, false⟩ = .ok (some m, ⟨more, false, false⟩) := by
  unfold read
  rw [getLine_line _ _ fun c h => ⟨(hexDigits_mem h).2, (hexDigits_mem h).1⟩]
  simp only [hexDigits_ne_nil hc, ↓reduceIte, hexadecimalBytes_hexDigits hc, hexDigits_length, Nat.mul_mod_right, hc.parse]

theorem read_last {codec : Codec D} (hc : codec.Lawful) (m : Message D) :
    read codec ⟨hexDigits (codec.serialize m), false, false⟩ = .ok (some m, ⟨[], true, false⟩) := by
  unfold read
  rw [getLine_end _ (fun c h => ⟨(hexDigits_mem h).2, (hexDigits_mem h).1⟩) (hexDigits_ne_nil hc m)]
  simp only [hexDigits_ne_nil hc, ↓reduceIte, hexadecimalBytes_hexDigits hc, hexDigits_length, Nat.mul_mod_right, hc.parse]

theorem read_nil (codec : Codec D) (e : Bool) : ∃ s, read codec ⟨[], e, false⟩ = .ok (none, s) := by
  obtain ⟨s, hs⟩ := getLine_nil e
  exact ⟨s, by unfold read; rw [hs]; rfl⟩

theorem read_truncated {codec : Codec D} (hc : codec.Lawful) (m : Message D) (k : Nat) (hk : 0 < k)
    (hlt : k < (hexDigits (codec.serialize m)).length) :
    read codec ⟨(hexDigits (codec.serialize m)).take k, false, false⟩ = .error .check := by
  have hlen : ((hexDigits (codec.serialize m)).take k).length = k := by rw [List.length_take]; omega
  have hne : (hexDigits (codec.serialize m)).take k ≠ [] := by
    intro h; rw [h] at hlen; simp at hlen; omega
  unfold read
  rw [getLine_end _ (fun c h => ⟨(hexDigits_mem (List.mem_of_mem_take h)).2, (hexDigits_mem (List.mem_of_mem_take h)).1⟩) hne]
  rw [hexDigits_length] at hlt
  simp only [hne, ↓reduceIte, hexadecimalBytes_take _ (hc.bytes m) k (by omega), hlen]
  by_cases he : k % 2 = 0
  · rw [if_pos he, hc.truncated m (k / 2) (by omega) (by omega)]
  · rw [if_neg he]

theorem runAll_eq (i o : Message D) (ps : List Nat) (hn : ps.Nodup) (hp : o.profile = i.profile) :
    runAll i o ps = .ok (if i.profile ∈ ps then [i.merge o] else []) := by
  induction ps with
  | nil => rfl
  | cons p ps ih =>
    obtain ⟨h1, h2⟩ := List.nodup_cons.mp hn
    unfold runAll runIfAppropriate
    rw [ih h2]
    by_cases h : i.profile = p
    · subst h
      rw [if_pos rfl, if_pos hp, if_neg h1]
      simp only [List.mem_cons, true_or, ↓reduceIte]; rfl
    · rw [if_neg h]
      simp only [List.mem_cons, h, false_or]
      by_cases h' : i.profile ∈ ps <;> simp [h'] <;> rfl

theorem runAll_call (player : Player D) (hn : player.profiles.Nodup) (c : Call D) (hk : player.Knows c) :
    runAll (⟨c.profile, c.input, none, none⟩ : Message D) ⟨c.profile, none, c.output, c.result⟩ player.profiles = .ok [c.message] := by
  rw [runAll_eq (⟨c.profile, c.input, none, none⟩ : Message D) ⟨c.profile, none, c.output, c.result⟩ _ hn rfl, if_pos hk.1]
  have : ∀ x : Option D, x.or none = x := by intro x; cases x <;> rfl
  simp only [Message.merge, Option.none_or, this, Call.message]

/-- A complete call is replayed, whether its last line is ended or not. -/
theorem process_call {player : Player D} {codec : Codec D} (hc : codec.Lawful) (hn : player.profiles.Nodup) (c : Call D)
    (hk : player.Knows c) (more : List Nat) :
    process player codec ⟨c.text codec ++ more, false, false⟩ true = .ok (true, [c.message], ⟨more, false, false⟩) := by
  have h1 : c.text codec ++ more = hexDigits (codec.serialize ⟨c.profile, c.input, none, none⟩) ++ 10 ::
      (hexDigits (codec.serialize ⟨c.profile, none, c.output, c.result⟩) ++ 10 :: more) := by
    simp [Call.text, Call.digitsIn, Call.digitsOut]
  unfold process
  rw [h1, read_line hc]
  simp only [bind, Except.bind, read_line hc, runAll_call player hn c hk]
  rw [if_neg]
  · rfl
  · rintro ⟨h2, h3⟩; rw [if_pos h2] at h3; exact h3 (hk.2 h2)

theorem process_last {player : Player D} {codec : Codec D} (hc : codec.Lawful) (hn : player.profiles.Nodup) (c : Call D)
    (hk : player.Knows c) :
    process player codec ⟨c.digitsIn codec ++ [10] ++ c.digitsOut codec, false, false⟩ true
      = .ok (true, [c.message], ⟨[], true, false⟩) := by
  have h1 : c.digitsIn codec ++ [10] ++ c.digitsOut codec = hexDigits (codec.serialize ⟨c.profile, c.input, none, none⟩) ++ 10 ::
      hexDigits (codec.serialize ⟨c.profile, none, c.output, c.result⟩) := by
    simp [Call.text, Call.digitsIn, Call.digitsOut]
  unfold process
  rw [h1, read_line hc]
  simp only [bind, Except.bind, read_last hc, runAll_call player hn c hk]
  rw [if_neg]
  · rfl
  · rintro ⟨h2, h3⟩; rw [if_pos h2] at h3; exact h3 (hk.2 h2)

theorem playLoop_append {player : Player D} {codec : Codec D} (hc : codec.Lawful) (hn : player.profiles.Nodup)
    (calls : List (Call D)) (hk : ∀ c ∈ calls, player.Knows c) (rest : List Nat) (f : Nat) :
    playLoop player codec (calls.length + f) ⟨journalText codec calls ++ rest, false, false⟩
      = (calls.map Call.message ++ (playLoop player codec f ⟨rest, false, false⟩).1,
          (playLoop player codec f ⟨rest, false, false⟩).2) := by
  induction calls with
  | nil => simp [journalText]
  | cons c calls ih =>
    have h1 : journalText codec (c :: calls) ++ rest = c.text codec ++ (journalText codec calls ++ rest) := by
      simp [journalText]
    rw [h1, List.length_cons, show calls.length + 1 + f = (calls.length + f) + 1 by omega]
    conv_lhs => unfold playLoop
    rw [process_call hc hn c (hk c (by simp))]
    simp only [ih fun c' h => hk c' (by simp [h])]
    simp

theorem playLoop_nil (player : Player D) (codec : Codec D) (e : Bool) (f : Nat) :
    playLoop player codec (f + 1) ⟨[], e, false⟩ = ([], .finished) := by
  obtain ⟨s, hs⟩ := read_nil codec e
  unfold playLoop process
  rw [hs]; rfl

theorem text_pos (codec : Codec D) (c : Call D) : 0 < (c.text codec).length := by simp [Call.text]; omega

theorem journalText_length (codec : Codec D) (calls : List (Call D)) : calls.length ≤ (journalText codec calls).length := by
  induction calls with
  | nil => simp
  | cons c calls ih =>
    have : journalText codec (c :: calls) = c.text codec ++ journalText codec calls := rfl
    rw [this, List.length_append, List.length_cons]
    have := text_pos codec c
    omega

theorem replay_append {player : Player D} {codec : Codec D} (hc : codec.Lawful) (hn : player.profiles.Nodup)
    (calls : List (Call D)) (hk : ∀ c ∈ calls, player.Knows c) (rest : List Nat) :
    ∃ f, rest.length ≤ f ∧ replay player codec (journalText codec calls ++ rest)
      = (calls.map Call.message ++ (playLoop player codec (f + 1) ⟨rest, false, false⟩).1,
          (playLoop player codec (f + 1) ⟨rest, false, false⟩).2) := by
  have h1 := journalText_length codec calls
  obtain ⟨j, hj⟩ := Nat.exists_eq_add_of_le h1
  refine ⟨j + rest.length, by omega, ?_⟩
  unfold replay
  rw [List.length_append, hj, show calls.length + j + rest.length + 1 = calls.length + (j + rest.length + 1) by omega]
  exact playLoop_append hc hn calls hk rest _

/-- A complete journal is replayed entirely, call by call, in order: the function that is called, its arguments, and the values
that it is expected to produce. -/
theorem C46_replay {player : Player D} {codec : Codec D} (hc : codec.Lawful) (hn : player.profiles.Nodup)
    (calls : List (Call D)) (hk : ∀ c ∈ calls, player.Knows c) :
    replay player codec (journalText codec calls) = (calls.map Call.message, .finished) := by
  obtain ⟨f, -, h⟩ := replay_append hc hn calls hk []
  rw [List.append_nil] at h
  rw [h, playLoop_nil]; simp

/-- What is replayed from a journal whose last call is incomplete, for instance because the recording program crashed: the
complete calls, and also the last one if only the end of the line is missing.  Then the replay stops; with an error if,
and only if, the file ends in the middle of a line. -/
theorem C46_replay_incomplete {player : Player D} {codec : Codec D} (hc : codec.Lawful) (hn : player.profiles.Nodup)
    (calls : List (Call D)) (hk : ∀ c ∈ calls, player.Knows c) (c : Call D) (hkc : player.Knows c) (rest : List Nat)
    (hr : rest <+: c.text codec) :
    replay player codec (journalText codec calls ++ rest) =
      if rest = [] ∨ rest = c.digitsIn codec ∨ rest = c.digitsIn codec ++ [10] then (calls.map Call.message, .finished)
      else if rest = c.digitsIn codec ++ [10] ++ c.digitsOut codec ∨ rest = c.text codec then
        (calls.map Call.message ++ [c.message], .finished)
      else (calls.map Call.message, .failed .check) := by
  obtain ⟨f, hf, h⟩ := replay_append hc hn calls hk rest
  rw [h]
  have hne1 : c.digitsIn codec ≠ [] := hexDigits_ne_nil hc _
  have hne2 : c.digitsOut codec ≠ [] := hexDigits_ne_nil hc _
  have hl1 := List.length_pos_iff.mpr hne1
  have hl2 := List.length_pos_iff.mpr hne2
  have unpaired : ∀ (i : Message D) (e : Bool) (s : IStream), read codec s = .ok (some i, ⟨[], e, false⟩) →
      playLoop player codec (f + 1) s = ([], .finished) := by
    intro i e s h1
    obtain ⟨s', hs'⟩ := read_nil codec e
    unfold playLoop process
    simp only [bind, Except.bind, h1, hs']; rfl
  have hpre : rest = (c.text codec).take rest.length := List.prefix_iff_eq_take.mp hr
  have htext : c.text codec = c.digitsIn codec ++ (10 :: (c.digitsOut codec ++ [10])) := by simp [Call.text]
  have hlen : (c.text codec).length = (c.digitsIn codec).length + (c.digitsOut codec).length + 2 := by
    rw [htext]; simp; omega
  have hle : rest.length ≤ (c.text codec).length := hr.length_le
  -- The five positions where the file may end at the end of a line.
  by_cases h0 : rest = []
  · subst h0
    rw [if_pos (.inl rfl), playLoop_nil]; simp
  by_cases h1 : rest = c.digitsIn codec
  · rw [if_pos (.inr (.inl h1)), h1,
      show playLoop player codec (f + 1) ⟨c.digitsIn codec, false, false⟩ = _ from unpaired _ _ _ (read_last hc _)]; simp
  by_cases h2 : rest = c.digitsIn codec ++ [10]
  · rw [if_pos (.inr (.inr h2)), h2,
      show playLoop player codec (f + 1) ⟨c.digitsIn codec ++ [10], false, false⟩ = _ from unpaired _ _ _ (read_line hc _ [])]; simp
  rw [if_neg (by tauto)]
  by_cases h3 : rest = c.digitsIn codec ++ [10] ++ c.digitsOut codec
  · rw [if_pos (.inl h3)]
    have hf1 : 1 ≤ f := by
      have : 0 < rest.length := List.length_pos_iff.mpr h0
      omega
    obtain ⟨g, rfl⟩ := Nat.exists_eq_add_of_le hf1
    have h4 : playLoop player codec (1 + g + 1) ⟨rest, false, false⟩ = ([c.message], .finished) := by
      rw [h3, show 1 + g + 1 = (g + 1) + 1 by omega]
      conv_lhs => unfold playLoop
      rw [process_last hc hn c hkc]
      simp only [playLoop_nil]; rfl
    rw [h4]
  by_cases h4 : rest = c.text codec
  · rw [if_pos (.inr h4)]
    have hf1 : 1 ≤ f := by
      have : 0 < rest.length := List.length_pos_iff.mpr h0
      omega
    obtain ⟨g, rfl⟩ := Nat.exists_eq_add_of_le hf1
    have h5 : playLoop player codec (1 + g + 1) ⟨rest, false, false⟩ = ([c.message], .finished) := by
      have := process_call hc hn c hkc []
      rw [List.append_nil] at this
      rw [h4, show 1 + g + 1 = (g + 1) + 1 by omega]
      conv_lhs => unfold playLoop
      rw [this]
      simp only [playLoop_nil]; rfl
    rw [h5]
  rw [if_neg (by tauto)]
  -- The file ends in the middle of a line.
  have hfail : playLoop player codec (f + 1) ⟨rest, false, false⟩ = ([], .failed .check) := by
    by_cases hlt : rest.length < (c.digitsIn codec).length
    · have h5 : rest = (c.digitsIn codec).take rest.length := by
        conv_lhs => rw [hpre, htext]
        rw [List.take_append_of_le_length (by omega)]
      have h6 := read_truncated hc ⟨c.profile, c.input, none, none⟩ rest.length (List.length_pos_iff.mpr h0) hlt
      unfold playLoop process
      have h7 : read codec ⟨rest, false, false⟩ = .error .check := by rw [h5]; exact h6
      rw [h7]; rfl
    · obtain ⟨j, hj⟩ := Nat.exists_eq_add_of_le (Nat.not_lt.mp hlt)
      have h5 : rest = c.digitsIn codec ++ (10 :: (c.digitsOut codec ++ [10])).take j := by
        conv_lhs => rw [hpre, htext, hj]
        rw [List.take_length_add_append]
      cases j with
      | zero => exact absurd (by rw [h5]; simp) h1
      | succ j =>
        rw [List.take_succ_cons] at h5
        have hjpos : 0 < j := by
          rcases Nat.eq_zero_or_pos j with rfl | h
          · exact absurd (by rw [h5]; simp) h2
          · exact h
        have hjlt : j < (c.digitsOut codec).length := by
          by_contra hge
          rcases Nat.lt_or_eq_of_le (Nat.not_lt.mp hge) with h6 | h6
          · refine h4 ?_
            rw [h5, List.take_of_length_le (by simp; omega), htext]
          · refine h3 ?_
            rw [h5, ← h6, List.take_append_of_le_length (by omega), List.take_of_length_le (by omega)]; simp
        rw [List.take_append_of_le_length (by omega)] at h5
        have h6 := read_truncated hc ⟨c.profile, none, c.output, c.result⟩ j hjpos hjlt
        have h7 : read codec ⟨rest, false, false⟩ = .ok (some ⟨c.profile, c.input, none, none⟩,
            ⟨(c.digitsOut codec).take j, false, false⟩) := by
          rw [h5]; exact read_line hc _ _
        have h8 : read codec ⟨(c.digitsOut codec).take j, false, false⟩ = .error .check := h6
        unfold playLoop process
        simp only [bind, Except.bind, h7, h8]
  rw [hfail]; simp

/-- Recording, then replaying: whatever the number of threads and the interleaving of their steps, and wherever the recording
program stops, the calls that were completed while the recorder was active are replayed, in order; there may be
one more, which was being completed. -/
theorem C46_record_replay {player : Player D} {codec : Codec D} (hc : codec.Lawful) (hn : player.profiles.Nodup)
    {ls : List (Label D)} (hq : Quiescent codec ls) {s : State D} (hr : run codec State.init ls = some (.ok s))
    {r : Recorder} (hrec : s.recorder = some r) (hk : ∀ c ∈ (history ls).calls, player.Knows c)
    (hkp : ∀ t, s.pc t ≠ .idle → player.Knows ((history ls).pending t).1) :
    ∃ e, (replay player codec r.file = ((history ls).calls.map Call.message, e) ∨
        ∃ t, s.pc t ≠ .idle ∧
          replay player codec r.file = ((history ls).calls.map Call.message ++ [((history ls).pending t).1.message], e)) ∧
      (e = .finished ∨ (∃ t, s.pc t ≠ .idle) ∧ e = .failed .check) := by
  obtain ⟨rest, h1, h2 | ⟨t, h2, h3⟩⟩ := (C46_recorded hc hq hr).2 r hrec
  · subst h2
    rw [List.append_nil] at h1
    exact ⟨.finished, .inl (by rw [h1]; exact C46_replay hc hn _ hk), .inl rfl⟩
  · have := C46_replay_incomplete hc hn _ hk _ (hkp t h2) rest h3
    rw [← h1] at this
    split at this
    · exact ⟨_, .inl this, .inl rfl⟩
    · split at this
      · exact ⟨_, .inr ⟨t, h2, this⟩, .inl rfl⟩
      · exact ⟨_, .inl this, .inr ⟨⟨t, h2⟩, rfl⟩⟩

/-- The journals of the recorders that have been deactivated are replayed entirely. -/
theorem C46_record_replay_closed {player : Player D} {codec : Codec D} (hc : codec.Lawful) (hn : player.profiles.Nodup)
    {ls : List (Label D)} (hq : Quiescent codec ls) {s : State D} (hr : run codec State.init ls = some (.ok s))
    (hk : ∀ calls ∈ (history ls).past, ∀ c ∈ calls, player.Knows c) :
    s.closed.map (replay player codec) = (history ls).past.map fun calls => (calls.map Call.message, .finished) := by
  rw [(C46_recorded hc hq hr).1, List.map_map]
  exact List.map_congr_left fun calls hm => C46_replay hc hn calls (hk calls hm)

end Principia.Journal
