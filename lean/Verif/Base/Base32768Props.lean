import Verif.Base.Base32768Lemmas

/-!
# C01, C02: properties of the Base32768 encoder

Bytes are natural numbers less than 256, UTF-16 code units natural numbers.  `encode nullTerminated bytes` is the content
of the output array after encoding, `decode units garbage` the content of the output array after decoding into an array
whose prior content is `garbage`.  `none` is a failed `CHECK` or an access out of the bounds of an array.
-/

namespace Principia.Base32768

/-- Specification: the code unit is in the repertoire made of the given blocks of 32 consecutive code points. -/
def InRepertoire (blocks : List Nat) (c : Nat) : Prop := ∃ b ∈ blocks, b ≤ c ∧ c < b + 32

/-- Specification: a code unit which is, alone, a Unicode scalar value of the BMP other than U+0000. -/
def IsScalar (c : Nat) : Prop := 0 < c ∧ c < 0x10000 ∧ ¬(0xd800 ≤ c ∧ c < 0xe000)

/-- Specification: the string seen by the client of a null-terminated array of code units. -/
def cString (units : List Nat) : List Nat := units.takeWhile (· ≠ 0)

/-- C02: encoding never fails, it fills exactly the array of size `EncodedLength` that is allocated for it; all the code
units are in the 15-bit repertoire, except that the last one is in the 7-bit repertoire if and only if at most 7 bits are
left for it; none of them is a surrogate or the null character. -/
theorem C02_encode (nullTerminated : Bool) (bytes : List Nat) (hb : ∀ x ∈ bytes, x < 256) :
    ∃ units, encode nullTerminated bytes = some (units ++ if nullTerminated then [0] else []) ∧
      (units ++ if nullTerminated then [0] else []).length = encodedLength nullTerminated bytes.length ∧
      units.length = (8 * bytes.length + 14) / 15 ∧
      (∀ c ∈ units, IsScalar c) ∧
      (∀ c ∈ units.dropLast, InRepertoire fifteenBlocks c) ∧
      (∀ c, units.getLast? = some c →
        if 8 * bytes.length ≤ 15 * (units.length - 1) + 7 then InRepertoire sevenBlocks c
        else InRepertoire fifteenBlocks c) := by
  obtain ⟨cs, hcs⟩ := encodeLoop_isSome bytes 0 hb
  have hlen := encodeLoop_length bytes 0 (by omega) hb cs hcs
  obtain ⟨ha1, ha2⟩ := encodeLoop_alphabet bytes 0 (by omega) hb cs hcs
  have hm := encodeLoop_mem bytes 0 hb cs hcs
  have hseven : ∀ b ∈ sevenBlocks, b ≤ 0x280 := by
    have h := seven_check.2.2
    rw [List.all_eq_true] at h
    intro b hb
    have := h b hb
    simp at this
    omega
  have hfifteen : ∀ b ∈ fifteenBlocks, 0x4a0 ≤ b := by
    have h := fifteen_check.2.2
    rw [List.all_eq_true] at h
    intro b hb
    have := h b hb
    simp at this
    omega
  have h15 : ∀ c ∈ cs, 0x4a0 ≤ c → InRepertoire fifteenBlocks c := by
    intro c hc hge
    obtain ⟨b, h1 | h1, h2, h3⟩ := hm c hc
    · exact ⟨b, h1, h2, h3⟩
    · have := hseven b h1; omega
  have h7 : ∀ c ∈ cs, c < 0x2a0 → InRepertoire sevenBlocks c := by
    intro c hc hge
    obtain ⟨b, h1 | h1, h2, h3⟩ := hm c hc
    · have := hfifteen b h1; omega
    · exact ⟨b, h1, h2, h3⟩
  refine ⟨cs, ?_, ?_, by omega, ?_, ?_, ?_⟩
  · unfold encode
    rw [hcs]
    cases nullTerminated <;> simp
  · unfold encodedLength
    rw [bits15, bits8, List.length_append, hlen]
    cases nullTerminated <;> simp
  · intro c hc
    rcases List.eq_nil_or_concat cs with rfl | ⟨l, x, rfl⟩
    · simp at hc
    · simp only [List.concat_eq_append, List.dropLast_concat, List.getLast?_concat, Option.some.injEq,
        forall_eq'] at ha1 ha2
      simp only [List.concat_eq_append, List.mem_append, List.mem_singleton] at hc
      unfold IsScalar
      rcases hc with hc | rfl
      · have := ha1 c hc
        exact ⟨by omega, by omega, by omega⟩
      · rcases ha2 with ⟨_, _, _⟩ | ⟨_, _, _⟩ <;> exact ⟨by omega, by omega, by omega⟩
  · intro c hc
    exact h15 c (List.dropLast_subset _ hc) (ha1 c hc).1
  · intro c hc
    have hmem := List.mem_of_getLast? hc
    have hpos : 0 < cs.length := List.length_pos_of_mem hmem
    rcases ha2 c hc with ⟨h1, _, h2, _⟩ | ⟨_, h1, _, h2⟩
    · rw [if_neg (by omega)]; exact h15 c hmem h1
    · rw [if_pos (by omega)]; exact h7 c hmem h1

/-- C02: the length computed from an encoding, before decoding it, is the length of the original. -/
theorem C02_decodedLength (bytes units : List Nat) (hb : ∀ x ∈ bytes, x < 256) (h : encode false bytes = some units) :
    decodedLength units = bytes.length := by
  obtain ⟨cs, hcs⟩ := encodeLoop_isSome bytes 0 hb
  have hlen := encodeLoop_length bytes 0 (by omega) hb cs hcs
  obtain ⟨ha1, ha2⟩ := encodeLoop_alphabet bytes 0 (by omega) hb cs hcs
  have : units = cs := by
    unfold encode at h
    rw [hcs] at h
    simpa using h.symm
  subst this
  unfold decodedLength
  rw [bits15, bits7, bits8]
  rcases List.eq_nil_or_concat units with rfl | ⟨l, x, rfl⟩
  · simp at hlen ⊢; omega
  · simp only [List.concat_eq_append, List.getLast?_concat, Option.some.injEq, forall_eq', List.length_append,
      List.length_singleton] at ha1 ha2 hlen ⊢
    rcases ha2 with ⟨_, _, h2, h3⟩ | ⟨_, _, h3, h2⟩
    · rw [h3, if_neg (by simp)]; omega
    · rw [h3, if_pos rfl]; omega

/-- C01: decoding the encoding of any byte string yields that byte string, whatever the prior content of the output array
(of the length computed by `DecodedLength`). -/
theorem C01_round_trip (bytes : List Nat) (hb : ∀ x ∈ bytes, x < 256) :
    ∃ units, encode false bytes = some units ∧
      ∀ garbage : List Nat, garbage.length = decodedLength units → decode units garbage = some bytes := by
  obtain ⟨cs, hcs⟩ := encodeLoop_isSome bytes 0 hb
  have he : encode false bytes = some cs := by unfold encode; rw [hcs]; simp
  refine ⟨cs, he, ?_⟩
  intro garbage hg
  have hl := C02_decodedLength bytes cs hb he
  unfold decode
  rw [hl] at hg ⊢
  by_cases h0 : 0 < bytes.length
  · rw [if_pos h0]
    exact decode_encode_loop bytes 0 (by omega) hb cs garbage hcs ⟨hg, by omega⟩
  · rw [if_neg h0]
    have h1 : bytes = [] := List.length_eq_zero_iff.1 (by omega)
    have h2 : garbage = [] := List.length_eq_zero_iff.1 (by omega)
    rw [h1, h2]

/-- C01, through a null-terminated string: the client that receives the null-terminated encoding and computes its length
by looking for the terminator recovers the bytes. -/
theorem C01_round_trip_null_terminated (bytes : List Nat) (hb : ∀ x ∈ bytes, x < 256) :
    ∃ units, encode true bytes = some units ∧
      ∀ garbage : List Nat, garbage.length = decodedLength (cString units) →
        decode (cString units) garbage = some bytes := by
  obtain ⟨units, h1, _, _, h4, _, _⟩ := C02_encode true bytes hb
  obtain ⟨units', h1', _, _, _, _, _⟩ := C02_encode false bytes hb
  obtain ⟨units'', h2, h3⟩ := C01_round_trip bytes hb
  have e : units = units'' := by
    unfold encode at h1 h2
    cases h : encodeLoop bytes 0 with
    | none => rw [h] at h1; simp at h1
    | some cs => rw [h] at h1 h2; simp at h1 h2; rw [← h1, h2]
  subst e
  have hs : cString (units ++ [0]) = units := by
    unfold cString
    rw [List.takeWhile_append_of_pos]
    · simp
    · intro c hc
      have := (h4 c hc).1
      simp; omega
  refine ⟨_, h1, ?_⟩
  simp only [if_true]
  rw [hs]
  exact h3

/-- Distinct byte strings have distinct encodings. -/
theorem C01_injective (b₁ b₂ : List Nat) (h₁ : ∀ x ∈ b₁, x < 256) (h₂ : ∀ x ∈ b₂, x < 256)
    (h : encode false b₁ = encode false b₂) : b₁ = b₂ := by
  obtain ⟨u₁, e₁, d₁⟩ := C01_round_trip b₁ h₁
  obtain ⟨u₂, e₂, d₂⟩ := C01_round_trip b₂ h₂
  rw [h, e₂] at e₁
  have : u₂ = u₁ := by simpa using e₁
  subst this
  have a := d₁ (List.replicate (decodedLength u₂) 0) (by simp)
  have b := d₂ (List.replicate (decodedLength u₂) 0) (by simp)
  rw [a] at b
  simpa using b

/-- Non-vacuity: a byte string of two bytes (two code units, the last one of 7 bits). -/
example : ∃ units, encode false [0x12, 0xff] = some units ∧ units.length = 2 ∧
    decode units [0xde, 0xad] = some [0x12, 0xff] := by
  obtain ⟨units, h1, h2⟩ := C01_round_trip [0x12, 0xff] (by simp)
  obtain ⟨units', h1', _, h3, _⟩ := C02_encode false [0x12, 0xff] (by simp)
  have : units = units' := by rw [h1] at h1'; simpa using h1'
  subst this
  exact ⟨units, h1, by simpa using h3, h2 _ (by rw [C02_decodedLength _ _ (by simp) h1]; rfl)⟩

end Principia.Base32768
