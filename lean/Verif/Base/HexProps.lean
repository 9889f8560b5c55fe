import Verif.Base.HexModel

/-!
# C03: properties of the hexadecimal encoder
-/

namespace Principia.Hexadecimal

/-- Specification: the character code of the upper case hexadecimal digit of value `d`. -/
def digit (d : Nat) : Nat := if d < 10 then '0'.toNat + d else 'A'.toNat + (d - 10)
/-- Specification: the character code of the lower case hexadecimal digit of value `d`. -/
def digitLower (d : Nat) : Nat := if d < 10 then '0'.toNat + d else 'a'.toNat + (d - 10)

/-- Linear-time check of the table against the specification. -/
def checkTable : List Nat → Nat → Bool
  | x :: y :: r, b => x == digit (b / 16) && (y == digit (b % 16) && checkTable r (b + 1))
  | _, _ => true

theorem checkTable_getD (l : List Nat) (b i : Nat) (h : checkTable l b = true) (hl : 2 * i + 1 < l.length) :
    l.getD (2 * i) 0 = digit ((b + i) / 16) ∧ l.getD (2 * i + 1) 0 = digit ((b + i) % 16) := by
  induction i generalizing l b with
  | zero =>
    match l, hl, h with
    | x :: y :: r, _, h => simp [checkTable] at h; simp [h.1, h.2.1]
  | succ i ih =>
    match l, hl, h with
    | x :: y :: r, hl, h =>
      simp [checkTable] at h
      have := ih r (b + 1) h.2.2 (by simp at hl; omega)
      rw [show b + (i + 1) = b + 1 + i by omega, show 2 * (i + 1) = 2 * i + 1 + 1 by omega]
      simpa using this

theorem table_check : checkTable byteToHexadecimalDigits 0 = true ∧ byteToHexadecimalDigits.length = 512 := by
  decide +kernel

theorem table_encode (b : Nat) (hb : b < 256) :
    byteToHexadecimalDigits.getD (b <<< 1) 0 = digit (b / 16) ∧
    byteToHexadecimalDigits.getD ((b <<< 1) + 1) 0 = digit (b % 16) := by
  have := checkTable_getD byteToHexadecimalDigits 0 b table_check.1 (by rw [table_check.2]; omega)
  rw [Nat.shiftLeft_eq, show b * 2 ^ 1 = 2 * b by omega]
  simpa using this

theorem table_decode : ∀ d, d < 16 →
    nibble (digit d) = some d ∧ nibble (digitLower d) = some d := by
  decide +kernel

theorem combine (b : Nat) : b < 256 → ((b / 16) <<< 4 ||| (b % 16)) % 256 = b := by
  revert b; decide +kernel

theorem encodeLoop_outside (ia oa n : Nat) (m : Mem) (a : Nat) (ha : a < oa ∨ oa + 2 * n ≤ a) :
    encodeLoop ia oa n m a = m a := by
  induction n generalizing m with
  | zero => rfl
  | succ n ih =>
    unfold encodeLoop
    rw [ih _ (by omega)]
    simp only [Mem.set]
    rw [if_neg (by omega), if_neg (by omega)]

theorem encodeLoop_inside (ia oa n : Nat) (m : Mem) (hb : ∀ i, i < n → m (ia + i) < 256)
    (hov : ia ≤ oa + 1 ∨ oa + 2 * n ≤ ia) (i : Nat) (hi : i < n) :
    encodeLoop ia oa n m (oa + 2 * i) = digit (m (ia + i) / 16) ∧
    encodeLoop ia oa n m (oa + 2 * i + 1) = digit (m (ia + i) % 16) := by
  induction n generalizing m with
  | zero => omega
  | succ n ih =>
    have ht := table_encode (m (ia + n)) (hb n (by omega))
    unfold encodeLoop
    by_cases h : i = n
    · subst h
      rw [encodeLoop_outside _ _ _ _ _ (by omega), encodeLoop_outside _ _ _ _ _ (by omega)]
      simp only [Mem.set]
      rw [if_neg (by omega), if_pos trivial, if_pos trivial]
      exact ht
    · -- The bytes of lower index are not overwritten by this step.
      have hkeep : ∀ j, j < n →
          ((m.set (oa + 2 * n) (byteToHexadecimalDigits.getD (m (ia + n) <<< 1) 0)).set (oa + 2 * n + 1)
            (byteToHexadecimalDigits.getD ((m (ia + n) <<< 1) + 1) 0)) (ia + j) = m (ia + j) := by
        intro j hj
        simp only [Mem.set]
        rw [if_neg (by omega), if_neg (by omega)]
      have := ih ((m.set (oa + 2 * n) (byteToHexadecimalDigits.getD (m (ia + n) <<< 1) 0)).set (oa + 2 * n + 1)
            (byteToHexadecimalDigits.getD ((m (ia + n) <<< 1) + 1) 0))
        (fun j hj => by rw [hkeep j hj]; exact hb j (by omega)) (by omega) (by omega)
      rw [hkeep i (by omega)] at this
      exact this

/-- **C03** (encoding, without terminator): whenever the call does not fail its checks, including when the buffers
overlap in the permitted way, the output buffer contains the two digits of each byte of the original input, in order, and
no memory outside of the output buffer is modified. -/
theorem C03_encode (ia n oa osize : Nat) (m m' : Mem) (hb : ∀ i, i < n → m (ia + i) < 256)
    (h : encode false ia n oa osize m = some m') :
    (∀ i, i < n → m' (oa + 2 * i) = digit (m (ia + i) / 16) ∧ m' (oa + 2 * i + 1) = digit (m (ia + i) % 16)) ∧
    (∀ a, a < oa ∨ oa + osize ≤ a → m' a = m a) := by
  unfold encode at h
  split at h
  · rename_i hov
    by_cases hsz : 2 * n + (if (false : Bool) = true then 1 else 0) ≤ osize
    · rw [if_pos hsz] at h
      simp at h hsz
      subst h
      exact ⟨fun i hi => encodeLoop_inside ia oa n m hb hov i hi,
        fun a ha => encodeLoop_outside ia oa n m a (by omega)⟩
    · rw [if_neg hsz] at h; simp at h
  · simp at h

/-- **C03** (encoding, with terminator): as above provided that the terminator does not fall on the input
(see `C03_terminator_counterexample`); the terminator is written after the digits. -/
theorem C03_encode_null_terminated (ia n oa osize : Nat) (m m' : Mem) (hb : ∀ i, i < n → m (ia + i) < 256)
    (hdisj : oa + 2 * n ≠ ia)
    (h : encode true ia n oa osize m = some m') :
    (∀ i, i < n → m' (oa + 2 * i) = digit (m (ia + i) / 16) ∧ m' (oa + 2 * i + 1) = digit (m (ia + i) % 16)) ∧
    m' (oa + 2 * n) = 0 ∧
    (∀ a, a < oa ∨ oa + osize ≤ a → m' a = m a) := by
  unfold encode at h
  split at h
  · rename_i hov
    by_cases hsz : 2 * n + (if (true : Bool) = true then 1 else 0) ≤ osize
    · rw [if_pos hsz] at h
      simp at h hsz
      subst h
      have hkeep : ∀ j, j < n → (m.set (oa + 2 * n) 0) (ia + j) = m (ia + j) := by
        intro j hj; simp only [Mem.set]; rw [if_neg (by omega)]
      refine ⟨fun i hi => ?_, ?_, fun a ha => ?_⟩
      · have := encodeLoop_inside ia oa n (m.set (oa + 2 * n) 0)
          (fun j hj => by rw [hkeep j hj]; exact hb j hj) hov i hi
        rwa [hkeep i hi] at this
      · rw [encodeLoop_outside _ _ _ _ _ (by omega)]; simp [Mem.set]
      · rw [encodeLoop_outside _ _ _ _ _ (by omega)]; simp only [Mem.set]; rw [if_neg (by omega)]
    · rw [if_neg hsz] at h; simp at h
  · simp at h

/-- The encoder accepts disjoint buffers, and in-place encoding at the start of the output buffer. -/
theorem C03_encode_accepts (nt : Bool) (ia n oa : Nat) (m : Mem) (h : ia = oa ∨ ia + n ≤ oa ∨ oa + 2 * n ≤ ia) :
    ∃ m', encode nt ia n oa (encodedLength nt n) m = some m' := by
  unfold encode encodedLength
  rw [if_pos (by omega), if_pos (by rw [Nat.shiftLeft_eq]; omega)]
  exact ⟨_, rfl⟩

example : ∃ m', encode false 10 3 10 6 (fun a => a) = some m' ∧ m' 10 = '0'.toNat ∧ m' 11 = 'A'.toNat := by
  obtain ⟨m', h⟩ := C03_encode_accepts false 10 3 10 (fun a => a) (Or.inl rfl)
  have := (C03_encode 10 3 10 6 (fun a => a) m' (by intro i hi; omega) h).1 0 (by omega)
  exact ⟨m', h, by simpa [digit] using this⟩

/-- The overlap check is too weak when the output is null-terminated: with the input immediately after the last digit
(a layout which the check accepts as being free of overlap), the terminator overwrites the first byte of the input before
it is read, and `Encode` does not produce the digits of its argument. -/
theorem C03_terminator_counterexample :
    ∃ m m' : Mem, encode true 2 1 0 3 m = some m' ∧ m 2 = 0xFF ∧ m' 0 ≠ digit (0xFF / 16) := by
  refine ⟨fun _ => 0xFF, _, rfl, rfl, ?_⟩
  decide +kernel

theorem decodeLoop_spec (ia oa k : Nat) (m : Mem) (ds : Nat → Nat)
    (hd : ∀ i, i < k → ds i < 256 ∧
      (m (ia + 2 * i) = digit (ds i / 16) ∨ m (ia + 2 * i) = digitLower (ds i / 16)) ∧
      (m (ia + 2 * i + 1) = digit (ds i % 16) ∨ m (ia + 2 * i + 1) = digitLower (ds i % 16)))
    (hov : oa ≤ ia + 1 ∨ ia + 2 * k ≤ oa) :
    ∃ m', decodeLoop ia oa k m = some m' ∧ (∀ i, i < k → m' (oa + i) = ds i) ∧
      (∀ a, a < oa ∨ oa + k ≤ a → m' a = m a) := by
  induction k generalizing ia oa m ds with
  | zero => exact ⟨m, rfl, fun i hi => by omega, fun _ _ => rfl⟩
  | succ k ih =>
    obtain ⟨h256, hhi, hlo⟩ := hd 0 (by omega)
    have ehi : nibble (m ia) = some (ds 0 / 16) := by
      have := table_decode (ds 0 / 16) (by omega)
      simp only [Nat.mul_zero, Nat.add_zero] at hhi
      rcases hhi with h | h <;> rw [h] <;> simp [this]
    have elo : nibble (m (ia + 1)) = some (ds 0 % 16) := by
      have := table_decode (ds 0 % 16) (by omega)
      simp only [Nat.mul_zero, Nat.add_zero] at hlo
      rcases hlo with h | h <;> rw [h] <;> simp [this]
    unfold decodeLoop
    simp only [ehi, elo, Option.bind_eq_bind, Option.bind_some]
    rw [combine _ h256]
    obtain ⟨m', h1, h2, h3⟩ := ih (ia + 2) (oa + 1) (m.set oa (ds 0)) (fun i => ds (i + 1)) (by
      intro i hi
      obtain ⟨g1, g2, g3⟩ := hd (i + 1) (by omega)
      refine ⟨g1, ?_, ?_⟩
      · simp only [Mem.set]
        rw [if_neg (by omega), show ia + 2 + 2 * i = ia + 2 * (i + 1) by omega]; exact g2
      · simp only [Mem.set]
        rw [if_neg (by omega), show ia + 2 + 2 * i + 1 = ia + 2 * (i + 1) + 1 by omega]; exact g3) (by omega)
    refine ⟨m', h1, fun i hi => ?_, fun a ha => ?_⟩
    · cases i with
      | zero => rw [h3 _ (by omega)]; simp [Mem.set]
      | succ i => rw [show oa + (i + 1) = oa + 1 + i by omega]; exact h2 i (by omega)
    · rw [h3 a (by omega)]; simp only [Mem.set]; rw [if_neg (by omega)]

/-- **C03** (decoding): decoding `2 n` (or `2 n + 1`, the last one being ignored) characters which are the digits, upper
or lower case, of the bytes `ds 0`, …, `ds (n - 1)`, yields these bytes, also when decoding in place, and modifies no
memory outside of the output. -/
theorem C03_decode (ia isize oa osize : Nat) (m : Mem) (ds : Nat → Nat)
    (hd : ∀ i, i < isize / 2 → ds i < 256 ∧
      (m (ia + 2 * i) = digit (ds i / 16) ∨ m (ia + 2 * i) = digitLower (ds i / 16)) ∧
      (m (ia + 2 * i + 1) = digit (ds i % 16) ∨ m (ia + 2 * i + 1) = digitLower (ds i % 16)))
    (hov : oa ≤ ia + 1 ∨ ia + isize ≤ oa) (hsz : decodedLength isize ≤ osize) :
    ∃ m', decode ia isize oa osize m = some m' ∧ (∀ i, i < isize / 2 → m' (oa + i) = ds i) ∧
      (∀ a, a < oa ∨ oa + osize ≤ a → m' a = m a) := by
  have hdl : decodedLength isize = isize / 2 := by unfold decodedLength; rw [Nat.shiftRight_eq_div_pow]
  rw [hdl] at hsz
  unfold decode
  simp only
  rw [if_pos (by omega), if_pos (by omega)]
  have e : isize / 2 * 2 / 2 = isize / 2 := by omega
  rw [e]
  obtain ⟨m', h1, h2, h3⟩ := decodeLoop_spec ia oa (isize / 2) m ds hd (by omega)
  exact ⟨m', h1, h2, fun a ha => h3 a (by omega)⟩

/-- **C03** (round trip): encoding any bytes into a buffer (disjoint from the input, or in place), then decoding that
buffer (into a disjoint buffer, or in place) yields the original bytes. -/
theorem C03_round_trip (ia n oa da : Nat) (m m' : Mem) (hb : ∀ i, i < n → m (ia + i) < 256)
    (h : encode false ia n oa (encodedLength false n) m = some m')
    (hov : da = oa ∨ oa + 2 * n ≤ da ∨ da + n ≤ oa) :
    ∃ m'', decode oa (encodedLength false n) da n m' = some m'' ∧ ∀ i, i < n → m'' (da + i) = m (ia + i) := by
  have hl : encodedLength false n = 2 * n := by unfold encodedLength; rw [Nat.shiftLeft_eq]; simp; omega
  have henc := (C03_encode ia n oa _ m m' hb h).1
  rw [hl]
  obtain ⟨m'', h1, h2, _⟩ := C03_decode oa (2 * n) da n m' (fun i => m (ia + i)) (by
    intro i hi
    have := henc i (by omega)
    exact ⟨hb i (by omega), Or.inl this.1, Or.inl this.2⟩) (by omega) (by
      unfold decodedLength; rw [Nat.shiftRight_eq_div_pow]; omega)
  exact ⟨m'', h1, fun i hi => h2 i (by omega)⟩

example : ∃ m' m'', encode false 10 3 10 6 (fun a => a) = some m' ∧ decode 10 6 10 3 m' = some m'' ∧
    m'' 12 = 12 := by
  obtain ⟨m', h⟩ := C03_encode_accepts false 10 3 10 (fun a => a) (Or.inl rfl)
  obtain ⟨m'', h1, h2⟩ := C03_round_trip 10 3 10 10 (fun a => a) m' (by intro i hi; omega) h (Or.inl rfl)
  exact ⟨m', m'', h, h1, h2 2 (by omega)⟩

end Principia.Hexadecimal
