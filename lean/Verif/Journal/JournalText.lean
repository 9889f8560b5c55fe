import Verif.Journal.JournalSpec
import Mathlib.Data.List.GetD
import Mathlib.Data.List.TakeWhile
import Mathlib.Tactic.SplitIfs
import Mathlib.Tactic.ByContra

/-!
# Texts of the journal: encoding, decoding, reading of lines
-/

namespace Principia.Journal

open Principia.Hexadecimal

set_option linter.unusedSimpArgs false
set_option linter.unusedVariables false

theorem hexDigits_length (l : List Nat) : (hexDigits l).length = 2 * l.length := by
  induction l with
  | nil => rfl
  | cons b l ih =>
    have : hexDigits (b :: l) = digit (b / 16) :: digit (b % 16) :: hexDigits l := rfl
    rw [this]; simp only [List.length_cons, ih]; omega

theorem hexDigits_getD (l : List Nat) (j : Nat) (hj : j < l.length) :
    (hexDigits l).getD (2 * j) 0 = digit (l.getD j 0 / 16) ∧ (hexDigits l).getD (2 * j + 1) 0 = digit (l.getD j 0 % 16) := by
  induction l generalizing j with
  | nil => simp at hj
  | cons b l ih =>
    have : hexDigits (b :: l) = digit (b / 16) :: digit (b % 16) :: hexDigits l := rfl
    rw [this]
    cases j with
    | zero => exact ⟨rfl, rfl⟩
    | succ j =>
      have := ih j (by simpa using hj)
      rw [show 2 * (j + 1) = 2 * j + 1 + 1 by omega]
      simpa using this

theorem digit_ne (d : Nat) : digit d ≠ 0 ∧ digit d ≠ 10 := by
  have h0 : '0'.toNat = 48 := rfl
  have hA : 'A'.toNat = 65 := rfl
  unfold digit; split <;> omega

theorem hexDigits_mem {l : List Nat} {c : Nat} (h : c ∈ hexDigits l) : c ≠ 0 ∧ c ≠ 10 := by
  simp only [hexDigits, List.mem_flatMap, List.mem_cons, List.not_mem_nil, or_false] at h
  obtain ⟨b, _, rfl | rfl⟩ := h <;> exact digit_ne _

theorem takeWhile_all {l : List Nat} (h : ∀ c ∈ l, c ≠ 0) (r : List Nat) :
    (l ++ 0 :: r).takeWhile (· ≠ 0) = l := by
  rw [List.takeWhile_append_of_pos (by simpa using h)]
  simp

theorem takeWhile_self {l : List Nat} (h : ∀ c ∈ l, c ≠ 0) : l.takeWhile (· ≠ 0) = l :=
  List.takeWhile_eq_self_iff.mpr (by simpa using h)

/-- The encoder of the recorder writes the hexadecimal digits of the bytes. -/
theorem hexadecimalText_eq (bytes : List Nat) (hb : ∀ b ∈ bytes, b < 256) (hn : bytes ≠ []) :
    hexadecimalText bytes = some (hexDigits bytes) := by
  have hpos : 0 < bytes.length := List.length_pos_iff.mpr hn
  obtain ⟨m', hm'⟩ := C03_encode_accepts true 0 bytes.length bytes.length (load bytes) (by omega)
  have hb' : ∀ i, i < bytes.length → load bytes (0 + i) < 256 := by
    intro i hi
    rw [Nat.zero_add, load, List.getD_eq_getElem _ _ hi]
    exact hb _ (List.getElem_mem hi)
  have hspec := C03_encode_null_terminated 0 bytes.length bytes.length _ (load bytes) m' hb' (by omega) hm'
  have hlen : encodedLength true bytes.length = 2 * bytes.length + 1 := by
    unfold encodedLength; rw [Nat.shiftLeft_eq]; simp; omega
  have hlist : ((List.range (encodedLength true bytes.length)).map fun i => m' (bytes.length + i)) = hexDigits bytes ++ [0] := by
    apply List.ext_getElem
    · simp [hlen, hexDigits_length]
    · intro i h1 h2
      rw [List.length_map, List.length_range, hlen] at h1
      simp only [List.getElem_map, List.getElem_range]
      by_cases hi : i < 2 * bytes.length
      · rw [List.getElem_append_left (by rw [hexDigits_length]; exact hi)]
        rw [← List.getD_eq_getElem _ 0]
        have hj : i / 2 < bytes.length := by omega
        have hd := hexDigits_getD bytes (i / 2) hj
        have hs := hspec.1 (i / 2) hj
        rw [Nat.zero_add] at hs
        rcases Nat.mod_two_eq_zero_or_one i with h | h
        · have hi2 : i = 2 * (i / 2) := by omega
          rw [hi2, hd.1, hs.1]; rfl
        · have hi2 : i = 2 * (i / 2) + 1 := by omega
          rw [hi2, hd.2, ← Nat.add_assoc, hs.2]; rfl
      · have hi' : i = 2 * bytes.length := by omega
        subst hi'
        rw [List.getElem_append_right (by rw [hexDigits_length])]
        simp [hexDigits_length, hspec.2.1]
  unfold hexadecimalText
  simp only [hm', Option.bind_eq_bind, Option.bind_some, hlist]
  rw [takeWhile_all fun c hc => (hexDigits_mem hc).1]
  rfl

/-- The decoder of the player finds back the bytes, or the first ones if the digits are truncated. -/
theorem hexadecimalBytes_take (bytes : List Nat) (hb : ∀ b ∈ bytes, b < 256) (k : Nat) (hk : k ≤ 2 * bytes.length) :
    hexadecimalBytes ((hexDigits bytes).take k) = some (bytes.take (k / 2)) := by
  have hlen : ((hexDigits bytes).take k).length = k := by
    rw [List.length_take, hexDigits_length]; omega
  have hdl : decodedLength k = k / 2 := by unfold decodedLength; rw [Nat.shiftRight_eq_div_pow]
  unfold hexadecimalBytes
  simp only [hlen, hdl]
  by_cases hpos : 0 < k / 2
  · rw [if_pos hpos]
    have hdig : ∀ i, i < k / 2 → bytes.getD i 0 < 256 ∧
        load ((hexDigits bytes).take k) (0 + 2 * i) = digit (bytes.getD i 0 / 16) ∧
        load ((hexDigits bytes).take k) (0 + 2 * i + 1) = digit (bytes.getD i 0 % 16) := by
      intro i hi
      have hi' : i < bytes.length := by omega
      have hd := hexDigits_getD bytes i hi'
      refine ⟨?_, ?_, ?_⟩
      · rw [List.getD_eq_getElem _ _ hi']; exact hb _ (List.getElem_mem hi')
      · rw [Nat.zero_add, ← hd.1]
        simp only [load, List.getD_eq_getElem?_getD, List.getElem?_take, if_pos (show 2 * i < k by omega)]
      · rw [Nat.zero_add, ← hd.2]
        simp only [load, List.getD_eq_getElem?_getD, List.getElem?_take, if_pos (show 2 * i + 1 < k by omega)]
    have h2 : k / 2 * 2 / 2 = k / 2 := by omega
    obtain ⟨m', hm', hval, -⟩ := C03_decode 0 (k / 2 * 2) k (k / 2) (load ((hexDigits bytes).take k))
      (fun i => bytes.getD i 0)
      (fun i hi => by
        obtain ⟨a, b, c⟩ := hdig i (by omega)
        exact ⟨a, .inl b, .inl c⟩)
      (by omega) (by unfold decodedLength; rw [Nat.shiftRight_eq_div_pow]; omega)
    simp only [hm', Option.bind_eq_bind, Option.bind_some]
    refine congrArg some ?_
    apply List.ext_getElem
    · simp; omega
    · intro i h1 h2
      simp only [List.length_map, List.length_range] at h1
      simp only [List.getElem_map, List.getElem_range, List.getElem_take]
      rw [hval i (by omega), List.getD_eq_getElem]
  · rw [if_neg hpos]
    have : k / 2 = 0 := by omega
    rw [this]; rfl

/-! ## Reading of lines -/

theorem extract_line (k : Nat) (line more : List Nat) (hl : ∀ c ∈ line, c ≠ 10) (hk : line.length ≤ k) :
    extract k (line ++ 10 :: more) = (line, ⟨more, false, false⟩) := by
  induction line generalizing k with
  | nil => cases k <;> rfl
  | cons c line ih =>
    cases k with
    | zero => simp at hk
    | succ k =>
      have hc : c ≠ 10 := hl c (by simp)
      have := ih k (fun c h => hl c (by simp [h])) (by simpa using hk)
      show (if c = 10 then _ else _) = _
      rw [if_neg hc]
      show (c :: (extract k (line ++ 10 :: more)).1, (extract k (line ++ 10 :: more)).2) = _
      rw [this]

theorem extract_end (k : Nat) (line : List Nat) (hl : ∀ c ∈ line, c ≠ 10) (hk : line.length ≤ k) :
    extract k line = (line, ⟨[], true, false⟩) := by
  induction line generalizing k with
  | nil => cases k <;> rfl
  | cons c line ih =>
    cases k with
    | zero => simp at hk
    | succ k =>
      have hc : c ≠ 10 := hl c (by simp)
      have := ih k (fun c h => hl c (by simp [h])) (by simpa using hk)
      show (if c = 10 then _ else _) = _
      rw [if_neg hc]
      show (c :: (extract k line).1, (extract k line).2) = _
      rw [this]

theorem extract_long (k : Nat) (a b : List Nat) (ha : ∀ c ∈ a, c ≠ 10) (hk : a.length = k)
    (hb : ∃ c r, b = c :: r ∧ c ≠ 10) : extract k (a ++ b) = (a, ⟨b, false, true⟩) := by
  obtain ⟨d, r, rfl, hd⟩ := hb
  induction a generalizing k with
  | nil =>
    subst hk
    show (if d = 10 then _ else _) = _
    rw [if_neg hd]
  | cons c a ih =>
    cases k with
    | zero => simp at hk
    | succ k =>
      have hc : c ≠ 10 := ha c (by simp)
      have := ih k (fun c h => ha c (by simp [h])) (by simpa using hk)
      show (if c = 10 then _ else _) = _
      rw [if_neg hc]
      show (c :: (extract k (a ++ d :: r)).1, (extract k (a ++ d :: r)).2) = _
      rw [this]

theorem getLineWithSize_line (fuel size : Nat) (line more : List Nat) (hl : ∀ c ∈ line, c ≠ 10 ∧ c ≠ 0)
    (hsize : 2 ≤ size) (hf : line.length < fuel) :
    getLineWithSize fuel size ⟨line ++ 10 :: more, false, false⟩ = some (line, ⟨more, false, false⟩) := by
  induction fuel generalizing size line with
  | zero => omega
  | succ fuel ih =>
    have hg : IStream.getline size ⟨line ++ 10 :: more, false, false⟩ = extract (size - 1) (line ++ 10 :: more) := by
      unfold IStream.getline; simp
    unfold getLineWithSize
    simp only [hg]
    by_cases h : line.length ≤ size - 1
    · rw [extract_line _ _ _ (fun c hc => (hl c hc).1) h]
      simp only [Bool.not_false, Bool.and_false, Bool.false_eq_true, ↓reduceIte]
      rw [takeWhile_self fun c hc => (hl c hc).2]
    · have hsplit : line = line.take (size - 1) ++ line.drop (size - 1) := (List.take_append_drop _ _).symm
      have hdl : (line.drop (size - 1)).length = line.length - (size - 1) := List.length_drop
      have hne : line.drop (size - 1) ≠ [] := by
        intro h0; rw [h0] at hdl; simp at hdl; omega
      obtain ⟨d, r, hdr⟩ := List.exists_cons_of_ne_nil hne
      have hd : d ≠ 10 := (hl d (List.mem_of_mem_drop (by rw [hdr]; simp))).1
      have he : extract (size - 1) (line ++ 10 :: more)
          = (line.take (size - 1), ⟨line.drop (size - 1) ++ 10 :: more, false, true⟩) := by
        conv_lhs => rw [hsplit, List.append_assoc]
        exact extract_long _ _ _ (fun c hc => (hl c (List.mem_of_mem_take hc)).1) (by rw [List.length_take]; omega)
          ⟨d, r ++ 10 :: more, by rw [hdr]; rfl, hd⟩
      rw [he]
      simp only [Bool.not_false, Bool.and_true, ↓reduceIte]
      rw [ih (2 * size) (line.drop (size - 1)) (fun c hc => hl c (List.mem_of_mem_drop hc)) (by omega) (by omega)]
      simp only [Option.bind_eq_bind, Option.bind_some]
      rw [takeWhile_self fun c hc => (hl c (List.mem_of_mem_take hc)).2, List.take_append_drop]
      rfl

theorem getLineWithSize_end (fuel size : Nat) (line : List Nat) (hl : ∀ c ∈ line, c ≠ 10 ∧ c ≠ 0)
    (hsize : 2 ≤ size) (hf : line.length < fuel) (hne : line ≠ []) :
    getLineWithSize fuel size ⟨line, false, false⟩ = some (line, ⟨[], true, false⟩) := by
  induction fuel generalizing size line with
  | zero => omega
  | succ fuel ih =>
    have hg : IStream.getline size ⟨line, false, false⟩ = extract (size - 1) line := by
      unfold IStream.getline; simp [hne]
    unfold getLineWithSize
    simp only [hg]
    by_cases h : line.length ≤ size - 1
    · rw [extract_end _ _ (fun c hc => (hl c hc).1) h]
      simp only [Bool.not_true, Bool.and_false, Bool.false_eq_true, ↓reduceIte]
      rw [takeWhile_self fun c hc => (hl c hc).2]
    · have hsplit : line = line.take (size - 1) ++ line.drop (size - 1) := (List.take_append_drop _ _).symm
      have hdl : (line.drop (size - 1)).length = line.length - (size - 1) := List.length_drop
      have hne : line.drop (size - 1) ≠ [] := by
        intro h0; rw [h0] at hdl; simp at hdl; omega
      obtain ⟨d, r, hdr⟩ := List.exists_cons_of_ne_nil hne
      have hd : d ≠ 10 := (hl d (List.mem_of_mem_drop (by rw [hdr]; simp))).1
      have he : extract (size - 1) line = (line.take (size - 1), ⟨line.drop (size - 1), false, true⟩) := by
        conv_lhs => rw [hsplit]
        exact extract_long _ _ _ (fun c hc => (hl c (List.mem_of_mem_take hc)).1) (by rw [List.length_take]; omega)
          ⟨d, r, hdr, hd⟩
      rw [he]
      simp only [Bool.not_false, Bool.and_true, ↓reduceIte]
      rw [ih (2 * size) (line.drop (size - 1)) (fun c hc => hl c (List.mem_of_mem_drop hc)) (by omega) (by omega) hne]
      simp only [Option.bind_eq_bind, Option.bind_some]
      rw [takeWhile_self fun c hc => (hl c (List.mem_of_mem_take hc)).2, List.take_append_drop]
      rfl

/-- A line of any length is read entirely, without its end. -/
theorem getLine_line (line more : List Nat) (hl : ∀ c ∈ line, c ≠ 10 ∧ c ≠ 0) :
    getLine ⟨line ++ 10 :: more, false, false⟩ = some (line, ⟨more, false, false⟩) :=
  getLineWithSize_line _ _ _ _ hl (by omega) (by simp; omega)

/-- A last line that has no end is read entirely. -/
theorem getLine_end (line : List Nat) (hl : ∀ c ∈ line, c ≠ 10 ∧ c ≠ 0) (hne : line ≠ []) :
    getLine ⟨line, false, false⟩ = some (line, ⟨[], true, false⟩) :=
  getLineWithSize_end _ _ _ hl (by omega) (by simp) hne

/-- At the end of the file, an empty line is read. -/
theorem getLine_nil (e : Bool) : ∃ s, getLine ⟨[], e, false⟩ = some ([], s) := by
  cases e
  · exact ⟨⟨[], true, true⟩, rfl⟩
  · exact ⟨⟨[], true, true⟩, rfl⟩

end Principia.Journal
