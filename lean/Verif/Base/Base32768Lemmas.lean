import Verif.Base.Base32768Model

namespace Principia.Base32768

open Principia.Bits

/-- Consecutive elements are at least 32 apart. -/
def gapOk : List Nat → Bool
  | a :: b :: r => Nat.ble (a + 32) b && gapOk (b :: r)
  | _ => true

theorem gapOk_pairwise (l : List Nat) (h : gapOk l = true) : l.Pairwise (fun a b => a + 32 ≤ b) := by
  induction l with
  | nil => exact List.Pairwise.nil
  | cons a r ih =>
    match r, h, ih with
    | [], _, _ => simp
    | b :: r, h, ih =>
      simp [gapOk] at h
      have hp := ih h.2
      refine List.Pairwise.cons ?_ hp
      intro x hx
      rcases List.mem_cons.1 hx with rfl | hx
      · exact h.1
      · have := (List.pairwise_cons.1 hp).1 x hx
        omega

theorem fifteen_check :
    gapOk fifteenBlocks = true ∧ fifteenBlocks.length = 1024 ∧
    fifteenBlocks.all (fun a => Nat.ble 0x4a0 a && Nat.ble (a + 32) 0xd800) = true := by
  decide +kernel

theorem seven_check :
    gapOk sevenBlocks = true ∧ sevenBlocks.length = 4 ∧
    sevenBlocks.all (fun a => Nat.ble 0x180 a && Nat.ble a 0x280 && Nat.beq (a % 32) 0) = true := by
  decide +kernel

theorem blockSize_eq : blockSize = 32 := by decide

theorem floorLog2_pow (n : Nat) : floorLog2 (2 ^ n) = n := by
  induction n with
  | zero => simp [floorLog2]
  | succ n ih =>
    rw [floorLog2]
    have h0 := Nat.two_pow_pos n
    rw [if_neg (by omega), if_neg (by rw [Nat.pow_succ]; omega), shr1,
      show 2 ^ (n + 1) / 2 = 2 ^ n by rw [Nat.pow_succ]; omega, ih]

theorem bits15 : bitsPerCodePoint = 15 := by
  unfold bitsPerCodePoint
  rw [blockSize_eq, fifteen_check.2.1]
  exact floorLog2_pow 15

theorem bits7 : bitsPerFinalCodePoint = 7 := by
  unfold bitsPerFinalCodePoint
  rw [blockSize_eq, seven_check.2.1]
  exact floorLog2_pow 7

theorem bytes3 : bytesPerCodePoint = 3 := by
  unfold bytesPerCodePoint; rw [bits15]; rfl

theorem bits8 : bitsPerByte = 8 := rfl

/-! Repertoires. -/

theorem repEncode_inj {blocks : List Nat} (hp : blocks.Pairwise (fun a b => a + 32 ≤ b)) {k l c : Nat}
    (hk : repEncode blocks k = some c) (hl : repEncode blocks l = some c) : k = l := by
  unfold repEncode at hk hl
  rw [blockSize_eq] at hk hl
  split at hk
  · split at hl
    · rename_i h1 h2
      simp at hk hl
      have hk1 : k / 32 < blocks.length := by omega
      have hl1 : l / 32 < blocks.length := by omega
      simp [hk1] at hk
      simp [hl1] at hl
      rw [List.pairwise_iff_getElem] at hp
      rcases Nat.lt_trichotomy (k / 32) (l / 32) with h | h | h
      · have := hp _ _ hk1 hl1 h; omega
      · have : blocks[k / 32] = blocks[l / 32] := by congr 1
        omega
      · have := hp _ _ hl1 hk1 h; omega
    · simp at hl
  · simp at hk

theorem foldl_last {enc : Nat → Option Nat} {c k : Nat} (n init : Nat)
    (hk : enc k = some c) (huniq : ∀ l, enc l = some c → l = k) :
    (List.range n).foldl (fun acc j => if enc j = some c then j else acc) init = if k < n then k else init := by
  induction n with
  | zero => simp
  | succ n ih =>
    rw [List.range_succ, List.foldl_append, ih]
    simp only [List.foldl_cons, List.foldl_nil]
    by_cases h : enc n = some c
    · have := huniq n h
      subst this; simp [h]
    · have hne : n ≠ k := by rintro rfl; exact h hk
      simp only [h, if_false]
      by_cases h2 : k < n
      · rw [if_pos h2, if_pos (by omega)]
      · rw [if_neg h2, if_neg (by omega)]

theorem repDecode_repEncode {blocks : List Nat} (hp : blocks.Pairwise (fun a b => a + 32 ≤ b)) {k c : Nat}
    (hk : repEncode blocks k = some c) (hc : c < 65535) : repDecode blocks c = some k := by
  unfold repDecode
  rw [if_pos hc, foldl_last _ _ hk (fun l hl => repEncode_inj hp hl hk), if_pos]
  unfold repEncode at hk
  split at hk
  · assumption
  · simp at hk

theorem repEncode15 (k : Nat) (hk : k < 2 ^ 15) :
    ∃ c, repEncode fifteenBlocks k = some c ∧ 0x4a0 ≤ c ∧ c < 0xd800 := by
  have hlen := fifteen_check.2.1
  have hall := fifteen_check.2.2
  unfold repEncode
  rw [blockSize_eq, hlen, if_pos (by omega)]
  have h1 : k / 32 < fifteenBlocks.length := by rw [hlen]; omega
  refine ⟨_, rfl, ?_⟩
  simp only [List.getD_eq_getElem?_getD, List.getElem?_eq_getElem h1, Option.getD_some]
  rw [List.all_eq_true] at hall
  have := hall _ (List.getElem_mem h1)
  simp at this
  omega

theorem repEncode7 (k : Nat) (hk : k < 2 ^ 7) :
    ∃ c, repEncode sevenBlocks k = some c ∧ 0x180 ≤ c ∧ c < 0x2a0 ∧ canEncode sevenBlocks c = true := by
  have hlen := seven_check.2.1
  have hall := seven_check.2.2
  unfold repEncode
  rw [blockSize_eq, hlen, if_pos (by omega)]
  have h1 : k / 32 < sevenBlocks.length := by rw [hlen]; omega
  refine ⟨_, rfl, ?_⟩
  simp only [List.getD_eq_getElem?_getD, List.getElem?_eq_getElem h1, Option.getD_some]
  rw [List.all_eq_true] at hall
  have := hall _ (List.getElem_mem h1)
  simp at this
  refine ⟨by omega, by omega, ?_⟩
  unfold canEncode
  rw [blockSize_eq]
  have e : (sevenBlocks[k / 32] + k % 32) / 32 * 32 = sevenBlocks[k / 32] := by omega
  rw [e]
  simp

theorem canEncode_large {c : Nat} (hc : 0x4a0 ≤ c) : canEncode sevenBlocks c = false := by
  unfold canEncode
  rw [blockSize_eq]
  have hall := seven_check.2.2
  rw [List.all_eq_true] at hall
  rw [Bool.eq_false_iff]
  intro h
  have := hall _ (List.contains_iff_mem.1 h)
  simp at this
  omega

/-! Bit manipulation. -/

theorem mask_shift (x n s : Nat) : (x &&& (((1 <<< n) - 1) <<< s)) >>> s = (x / 2 ^ s) % 2 ^ n := by
  apply Nat.eq_of_testBit_eq
  intro i
  rw [Nat.testBit_shiftRight, Nat.testBit_and, Nat.testBit_shiftLeft, Nat.one_shiftLeft, Nat.testBit_two_pow_sub_one,
    Nat.testBit_mod_two_pow, ← Nat.shiftRight_eq_div_pow, Nat.testBit_shiftRight]
  simp [Nat.add_sub_cancel_left]
  exact Bool.and_comm _ _

theorem or2 (a b : Nat) (hb : b < 65536) : a <<< 16 ||| b = a * 65536 + b := by
  rw [← Nat.shiftLeft_add_eq_or_of_lt (by omega : b < 2 ^ 16), Nat.shiftLeft_eq]

theorem or1 (b c : Nat) (hc : c < 256) : b <<< 8 ||| c = b * 256 + c := by
  rw [← Nat.shiftLeft_add_eq_or_of_lt (by omega : c < 2 ^ 8), Nat.shiftLeft_eq]

theorem or3 (a b c : Nat) (hb : b < 256) (hc : c < 256) :
    a <<< 16 ||| b <<< 8 ||| c = a * 65536 + b * 256 + c := by
  rw [Nat.or_assoc, or1 b c hc, or2 _ _ (by omega)]; omega

theorem or_disjoint (q r j : Nat) (hr : r < 2 ^ j) : q * 2 ^ j ||| r = q * 2 ^ j + r := by
  rw [← Nat.shiftLeft_eq, Nat.shiftLeft_add_eq_or_of_lt hr]

theorem and255 (x : Nat) : x &&& ((1 <<< 8) - 1) = x % 256 := by
  rw [Nat.one_shiftLeft]; exact Nat.and_two_pow_sub_one_eq_mod x 8

/-- The three bytes (padded with ones) considered by an iteration of the encoder. -/
def window : List Nat → Nat × Nat × Nat
  | a :: b :: c :: _ => (a, b, c)
  | [a, b] => (a, b, 255)
  | [a] => (a, 255, 255)
  | [] => (255, 255, 255)

def usesSeven (input : List Nat) (bit : Nat) : Bool := input.length == 1 && 0 < bit

/-- The value encoded by an iteration, arithmetically. -/
def code (input : List Nat) (bit : Nat) : Nat :=
  let w := window input
  let x := w.1 * 65536 + w.2.1 * 256 + w.2.2
  if usesSeven input bit then x / 2 ^ (17 - bit) % 2 ^ 7 else x / 2 ^ (9 - bit) % 2 ^ 15

theorem chunk_code (input : List Nat) (bit : Nat) (hne : input ≠ []) (hb : ∀ x ∈ input, x < 256) :
    let q := chunk input bit
    (q.1 &&& q.2.2.1) >>> q.2.1 = code input bit ∧ q.2.2.2 = usesSeven input bit := by
  match input, hne, hb with
  | a :: b :: c :: r, _, hb =>
    have h1 := hb b (by simp)
    have h2 := hb c (by simp)
    simp only [chunk, code, window, usesSeven, bits15, bytes3, bits8, mask_shift]
    rw [or3 a b c h1 h2]
    simp
  | [a, b], _, hb =>
    have h1 := hb b (by simp)
    simp only [chunk, code, window, usesSeven, bits15, bytes3, bits8, mask_shift]
    rw [or3 a b _ h1 (by decide)]
    simp
  | [a], _, hb =>
    simp only [chunk, code, window, usesSeven, bits15, bits7, bytes3, bits8]
    by_cases h : bit > 0
    · simp only [h, if_true, mask_shift]
      rw [or2 a _ (by decide)]
      simp
    · simp only [h, if_false, mask_shift]
      rw [or2 a _ (by decide)]
      simp

theorem encodeLoop_cons (a : Nat) (rest : List Nat) (bit : Nat) (hb : ∀ x ∈ a :: rest, x < 256) :
    ∃ c, repEncode (if usesSeven (a :: rest) bit then sevenBlocks else fifteenBlocks) (code (a :: rest) bit) = some c ∧
      (usesSeven (a :: rest) bit = true → canEncode sevenBlocks c = true ∧ 0x180 ≤ c ∧ c < 0x2a0) ∧
      (usesSeven (a :: rest) bit = false → 0x4a0 ≤ c ∧ c < 0xd800) ∧
      encodeLoop (a :: rest) bit =
        (encodeLoop ((a :: rest).drop ((bit + 15) / 8)) ((bit + 15) % 8)).map (c :: ·) := by
  obtain ⟨h1, h2⟩ := chunk_code (a :: rest) bit (by simp) hb
  have hlt : code (a :: rest) bit < 2 ^ 15 := by
    unfold code
    simp only
    split
    · have : ∀ x, x % 2 ^ 7 < 2 ^ 15 := fun x => by have := Nat.mod_lt x (Nat.two_pow_pos 7); omega
      exact this _
    · exact Nat.mod_lt _ (Nat.two_pow_pos 15)
  have hrep : ∃ c, repEncode (if usesSeven (a :: rest) bit then sevenBlocks else fifteenBlocks)
        (code (a :: rest) bit) = some c ∧
      (usesSeven (a :: rest) bit = true → canEncode sevenBlocks c = true ∧ 0x180 ≤ c ∧ c < 0x2a0) ∧
      (usesSeven (a :: rest) bit = false → 0x4a0 ≤ c ∧ c < 0xd800) := by
    cases hs : usesSeven (a :: rest) bit with
    | true =>
      have : code (a :: rest) bit < 2 ^ 7 := by
        unfold code
        simp only [hs, if_true]
        exact Nat.mod_lt _ (Nat.two_pow_pos 7)
      obtain ⟨c, g1, g2, g3, g4⟩ := repEncode7 _ this
      exact ⟨c, by simpa using g1, fun _ => ⟨g4, g2, g3⟩, by simp⟩
    | false =>
      obtain ⟨c, g1, g2, g3⟩ := repEncode15 _ hlt
      exact ⟨c, by simpa using g1, by simp, fun _ => ⟨g2, g3⟩⟩
  obtain ⟨c, g1, g2, g3⟩ := hrep
  refine ⟨c, g1, g2, g3, ?_⟩
  rw [encodeLoop]
  simp only
  rw [h1, h2, if_pos (by rw [bits15, Nat.one_shiftLeft]; exact hlt), g1, bits15, bits8]
  have hmax : max 1 ((bit + 15) / 8) = (bit + 15) / 8 := by omega
  rw [hmax]
  simp only [Option.bind_eq_bind, Option.bind_some, Option.pure_def]
  cases encodeLoop ((a :: rest).drop ((bit + 15) / 8)) ((bit + 15) % 8) <;> rfl

theorem encodeLoop_isSome (input : List Nat) (bit : Nat) (hb : ∀ x ∈ input, x < 256) :
    ∃ cs, encodeLoop input bit = some cs := by
  generalize hn : input.length = n
  induction n using Nat.strongRecOn generalizing input bit with
  | _ n ih =>
    match input, hb, hn with
    | [], _, _ => exact ⟨[], by rw [encodeLoop]⟩
    | a :: rest, hb, hn =>
      obtain ⟨c, _, _, _, h⟩ := encodeLoop_cons a rest bit hb
      obtain ⟨cs, hcs⟩ := ih ((a :: rest).drop ((bit + 15) / 8)).length
        (by rw [List.length_drop, ← hn]; simp; omega) ((a :: rest).drop ((bit + 15) / 8)) ((bit + 15) % 8)
        (fun x hx => hb x (List.mem_of_mem_drop hx)) rfl
      exact ⟨c :: cs, by rw [h, hcs]; rfl⟩

theorem code3 (a b c : Nat) (r : List Nat) (bit : Nat) :
    code (a :: b :: c :: r) bit = (a * 65536 + b * 256 + c) / 2 ^ (9 - bit) % 2 ^ 15 := by
  have : usesSeven (a :: b :: c :: r) bit = false := by simp [usesSeven]
  unfold code
  rw [this]
  rfl

theorem code2 (a b bit : Nat) :
    code [a, b] bit = (a * 65536 + b * 256 + 255) / 2 ^ (9 - bit) % 2 ^ 15 := by
  have : usesSeven [a, b] bit = false := by simp [usesSeven]
  unfold code
  rw [this]
  rfl

theorem code1 (a bit : Nat) (h : 0 < bit) :
    code [a] bit = (a * 65536 + 255 * 256 + 255) / 2 ^ (17 - bit) % 2 ^ 7 := by
  have : usesSeven [a] bit = true := by simp [usesSeven, h]
  unfold code
  rw [this]
  rfl

theorem code0 (a : Nat) :
    code [a] 0 = (a * 65536 + 255 * 256 + 255) / 2 ^ 9 % 2 ^ 15 := by
  rfl

/-- What the output must contain at `output.data` when `bit` bits of it have already been decoded. -/
def Aligned (bit : Nat) (rest out : List Nat) : Prop :=
  out.length = rest.length ∧
    (0 < bit → ∀ a r, rest = a :: r → ∃ o, out = (a / 2 ^ (8 - bit) * 2 ^ (8 - bit)) :: o)

/-- The effect of decoding the code point of `code input bit`. -/
theorem decodeWrite_spec (input out : List Nat) (bit : Nat) (hbit : bit < 8) (hne : input ≠ [])
    (hb : ∀ x ∈ input, x < 256) (hal : Aligned bit input out) :
    let shift := if usesSeven input bit then 17 - bit else 9 - bit
    let adv := (bit + 15) / 8
    ∃ out', decodeWrite (code input bit <<< shift) shift bit out = some out' ∧
      out'.take adv = input.take adv ∧ Aligned ((bit + 15) % 8) (input.drop adv) (out'.drop adv) := by
  obtain ⟨hlen, hhead⟩ := hal
  match input, hne, hb, hlen, hhead with
  | [a], _, hb, hlen, hhead =>
    have ha := hb a (by simp)
    match out, hlen with
    | [o0], _ =>
      by_cases h0 : bit = 0
      · subst h0
        simp only [usesSeven, code0, decodeWrite, bits8, Nat.shiftLeft_eq, Nat.shiftRight_eq_div_pow]
        refine ⟨_, rfl, ?_, ?_⟩
        · simp; omega
        · simp [Aligned]
      · obtain ⟨o, ho⟩ := hhead (by omega) a [] rfl
        have hu : usesSeven [a] bit = true := by simp [usesSeven]; omega
        have ho0 : o0 = a / 2 ^ (8 - bit) * 2 ^ (8 - bit) := by simpa using (List.cons.inj ho).1
        simp only [hu, if_true, code1 a bit (by omega), decodeWrite, bits8, Nat.shiftLeft_eq, Nat.shiftRight_eq_div_pow, h0,
          if_false]
        refine ⟨_, rfl, ?_, ?_⟩
        · have hv : (a * 65536 + 255 * 256 + 255) / 2 ^ (17 - bit) % 2 ^ 7 * 2 ^ (17 - bit) / 2 ^ (2 * 8) < 2 ^ (8 - bit) ∧
              a / 2 ^ (8 - bit) * 2 ^ (8 - bit) +
              (a * 65536 + 255 * 256 + 255) / 2 ^ (17 - bit) % 2 ^ 7 * 2 ^ (17 - bit) / 2 ^ (2 * 8) = a := by
            obtain rfl | rfl | rfl | rfl | rfl | rfl | rfl : bit = 1 ∨ bit = 2 ∨ bit = 3 ∨ bit = 4 ∨ bit = 5 ∨ bit = 6 ∨
              bit = 7 := by omega
            all_goals simp only [Nat.reducePow, Nat.reduceSub, Nat.reduceMul]; omega
          rw [ho0, or_disjoint _ _ _ hv.1, hv.2, Nat.mod_eq_of_lt ha, show (bit + 15) / 8 = 2 by omega]
        · rw [show (bit + 15) / 8 = 2 by omega]; simp [Aligned]
  | [a, b], _, hb, hlen, hhead =>
    have ha := hb a (by simp)
    have hb' := hb b (by simp)
    match out, hlen with
    | [o0, o1], _ =>
      have hu : usesSeven [a, b] bit = false := by simp [usesSeven]
      by_cases h0 : bit = 0
      · subst h0
        simp only [hu, code2, decodeWrite, bits8, Nat.shiftLeft_eq, Nat.shiftRight_eq_div_pow]
        refine ⟨_, rfl, ?_, ?_⟩
        · simp; omega
        · have := and255 ((a * 65536 + b * 256 + 255) / 2 ^ 9 % 2 ^ 15 * 2 ^ 9 / 2 ^ 8)
          simp [Aligned] at this ⊢
          omega
      · obtain ⟨o, ho⟩ := hhead (by omega) a [b] rfl
        have ho0 : o0 = a / 2 ^ (8 - bit) * 2 ^ (8 - bit) := by simpa using (List.cons.inj ho).1
        have hs16 : 9 - bit < 2 * 8 := by omega
        simp only [hu, code2, decodeWrite, bits8, Nat.shiftLeft_eq, Nat.shiftRight_eq_div_pow, h0, if_false,
          Bool.false_eq_true, hs16, if_true]
        refine ⟨_, rfl, ?_, ?_⟩
        · have hv : (a * 65536 + b * 256 + 255) / 2 ^ (9 - bit) % 2 ^ 15 * 2 ^ (9 - bit) / 2 ^ (2 * 8) < 2 ^ (8 - bit) ∧
              a / 2 ^ (8 - bit) * 2 ^ (8 - bit) +
              (a * 65536 + b * 256 + 255) / 2 ^ (9 - bit) % 2 ^ 15 * 2 ^ (9 - bit) / 2 ^ (2 * 8) = a ∧
              (a * 65536 + b * 256 + 255) / 2 ^ (9 - bit) % 2 ^ 15 * 2 ^ (9 - bit) / 2 ^ 8 % 256 = b := by
            obtain rfl | rfl | rfl | rfl | rfl | rfl | rfl : bit = 1 ∨ bit = 2 ∨ bit = 3 ∨ bit = 4 ∨ bit = 5 ∨ bit = 6 ∨
              bit = 7 := by omega
            all_goals simp only [Nat.reducePow, Nat.reduceSub, Nat.reduceMul]; omega
          rw [ho0, or_disjoint _ _ _ hv.1, hv.2.1, Nat.mod_eq_of_lt ha]
          have h255 := and255 ((a * 65536 + b * 256 + 255) / 2 ^ (9 - bit) % 2 ^ 15 * 2 ^ (9 - bit) / 2 ^ 8)
          rw [Nat.shiftLeft_eq] at h255
          rw [h255, hv.2.2, show (bit + 15) / 8 = 2 by omega]
        · rw [show (bit + 15) / 8 = 2 by omega]; simp [Aligned]
  | a :: b :: c :: r, _, hb, hlen, hhead =>
    have ha := hb a (by simp)
    have hb' := hb b (by simp)
    have hc := hb c (by simp)
    match out, hlen with
    | o0 :: o1 :: o2 :: o, hlen =>
      have hu : usesSeven (a :: b :: c :: r) bit = false := by simp [usesSeven]
      by_cases h0 : bit = 0
      · subst h0
        simp only [hu, code3, decodeWrite, bits8, Nat.shiftLeft_eq, Nat.shiftRight_eq_div_pow]
        refine ⟨_, rfl, ?_, ?_⟩
        · simp; omega
        · have := and255 ((a * 65536 + b * 256 + c) / 2 ^ 9 % 2 ^ 15 * 2 ^ 9 / 2 ^ 8)
          simp [Aligned] at this ⊢
          simp at hlen
          omega
      · obtain ⟨o', ho⟩ := hhead (by omega) a (b :: c :: r) rfl
        have ho0 : o0 = a / 2 ^ (8 - bit) * 2 ^ (8 - bit) := by simpa using (List.cons.inj ho).1
        have hs16 : 9 - bit < 2 * 8 := by omega
        have hv : (a * 65536 + b * 256 + c) / 2 ^ (9 - bit) % 2 ^ 15 * 2 ^ (9 - bit) / 2 ^ (2 * 8) < 2 ^ (8 - bit) ∧
            a / 2 ^ (8 - bit) * 2 ^ (8 - bit) +
            (a * 65536 + b * 256 + c) / 2 ^ (9 - bit) % 2 ^ 15 * 2 ^ (9 - bit) / 2 ^ (2 * 8) = a ∧
            (a * 65536 + b * 256 + c) / 2 ^ (9 - bit) % 2 ^ 15 * 2 ^ (9 - bit) / 2 ^ 8 % 256 = b ∧
            (1 < bit → (a * 65536 + b * 256 + c) / 2 ^ (9 - bit) % 2 ^ 15 * 2 ^ (9 - bit) % 256 =
              c / 2 ^ (8 - (bit - 1)) * 2 ^ (8 - (bit - 1))) := by
          obtain rfl | rfl | rfl | rfl | rfl | rfl | rfl : bit = 1 ∨ bit = 2 ∨ bit = 3 ∨ bit = 4 ∨ bit = 5 ∨ bit = 6 ∨
            bit = 7 := by omega
          all_goals simp only [Nat.reducePow, Nat.reduceSub, Nat.reduceMul]; omega
        have h255 := and255 ((a * 65536 + b * 256 + c) / 2 ^ (9 - bit) % 2 ^ 15 * 2 ^ (9 - bit) / 2 ^ 8)
        have h255' := and255 ((a * 65536 + b * 256 + c) / 2 ^ (9 - bit) % 2 ^ 15 * 2 ^ (9 - bit))
        rw [Nat.shiftLeft_eq] at h255 h255'
        simp only [hu, code3, decodeWrite, bits8, Nat.shiftLeft_eq, Nat.shiftRight_eq_div_pow, h0, if_false,
          Bool.false_eq_true, hs16, if_true]
        rw [ho0, or_disjoint _ _ _ hv.1, hv.2.1, Nat.mod_eq_of_lt ha, h255, hv.2.2.1, h255']
        simp at hlen
        by_cases h1 : bit = 1
        · subst h1
          refine ⟨_, rfl, ?_, ?_⟩
          · simp
          · simp [Aligned, hlen]
        · rw [if_pos (by omega), show (bit + 15) / 8 = 2 by omega, show (bit + 15) % 8 = bit - 1 by omega]
          refine ⟨_, rfl, ?_, ?_⟩
          · simp
          · simp only [List.drop_succ_cons, List.drop_zero, Aligned, List.length_cons, hlen, true_and]
            intro _ a' r' e
            obtain ⟨rfl, rfl⟩ := List.cons.inj e
            exact ⟨o, by rw [hv.2.2.2 (by omega)]⟩

theorem decode_encode_loop (input : List Nat) (bit : Nat) (hbit : bit < 8) (hb : ∀ x ∈ input, x < 256)
    (cs out : List Nat) (hcs : encodeLoop input bit = some cs) (hal : Aligned bit input out) :
    decodeLoop cs bit out = some input := by
  generalize hn : input.length = n
  induction n using Nat.strongRecOn generalizing input bit cs out with
  | _ n ih =>
    match input, hb, hn, hcs, hal with
    | [], _, _, hcs, hal =>
      rw [encodeLoop] at hcs
      simp at hcs
      subst hcs
      have : out = [] := by simpa using hal.1
      rw [decodeLoop, this]
    | a :: rest, hb, hn, hcs, hal =>
      obtain ⟨c, g1, g2, g3, h⟩ := encodeLoop_cons a rest bit hb
      rw [hcs] at h
      obtain ⟨cs', hcs', rfl⟩ : ∃ cs', encodeLoop ((a :: rest).drop ((bit + 15) / 8)) ((bit + 15) % 8) = some cs' ∧
          cs = c :: cs' := by
        cases h' : encodeLoop ((a :: rest).drop ((bit + 15) / 8)) ((bit + 15) % 8) with
        | none => rw [h'] at h; simp at h
        | some cs' => rw [h'] at h; exact ⟨cs', rfl, by simpa using h⟩
      -- The 7-bit repertoire is used exactly when the decoder thinks it is.
      have hseven : (cs'.isEmpty && canEncode sevenBlocks c) = usesSeven (a :: rest) bit := by
        cases hs : usesSeven (a :: rest) bit with
        | true =>
          have hr : rest = [] ∧ 0 < bit := by simpa [usesSeven] using hs
          obtain ⟨rfl, hbit0⟩ := hr
          rw [show (bit + 15) / 8 = 2 by omega] at hcs'
          simp only [List.drop_succ_cons, List.drop_nil] at hcs'
          rw [encodeLoop] at hcs'
          simp at hcs'
          simp [← hcs', (g2 hs).1]
        | false => rw [canEncode_large (g3 hs).1]; simp
      have hdec : repDecode (if usesSeven (a :: rest) bit then sevenBlocks else fifteenBlocks) c =
          some (code (a :: rest) bit) := by
        cases hs : usesSeven (a :: rest) bit with
        | true =>
          rw [hs] at g1
          exact repDecode_repEncode (gapOk_pairwise _ seven_check.1) g1 (by have := (g2 hs); omega)
        | false =>
          rw [hs] at g1
          exact repDecode_repEncode (gapOk_pairwise _ fifteen_check.1) g1 (by have := (g3 hs); omega)
      obtain ⟨out', w1, w2, w3⟩ := decodeWrite_spec (a :: rest) out bit hbit (by simp) hb hal
      have hrec := ih ((a :: rest).drop ((bit + 15) / 8)).length
        (by rw [List.length_drop, ← hn]; simp; omega) ((a :: rest).drop ((bit + 15) / 8)) ((bit + 15) % 8)
        (Nat.mod_lt _ (by omega)) (fun x hx => hb x (List.mem_of_mem_drop hx)) cs' (out'.drop ((bit + 15) / 8))
        hcs' w3 rfl
      rw [decodeLoop]
      simp only [hseven, hdec, bits15, bits7, bits8, bytes3, Option.bind_eq_bind, Option.bind_some]
      have hsh : 3 * 8 - (if usesSeven (a :: rest) bit = true then 7 else 15) - bit =
          if usesSeven (a :: rest) bit = true then 17 - bit else 9 - bit := by
        split <;> omega
      rw [hsh, w1]
      simp only [Option.bind_some]
      rw [hrec]
      simp only [Option.bind_some, Option.pure_def]
      rw [w2, List.take_append_drop]

theorem encodeLoop_length (input : List Nat) (bit : Nat) (hbit : bit < 8) (hb : ∀ x ∈ input, x < 256) (cs : List Nat)
    (hcs : encodeLoop input bit = some cs) :
    cs.length = (input.length * 8 - bit + 14) / 15 := by
  generalize hn : input.length = n
  induction n using Nat.strongRecOn generalizing input bit cs with
  | _ n ih =>
    match input, hb, hn, hcs with
    | [], _, hn, hcs =>
      rw [encodeLoop] at hcs
      simp at hcs hn
      subst hcs; subst hn
      simp
    | a :: rest, hb, hn, hcs =>
      obtain ⟨c, g1, g2, g3, h⟩ := encodeLoop_cons a rest bit hb
      rw [hcs] at h
      cases h' : encodeLoop ((a :: rest).drop ((bit + 15) / 8)) ((bit + 15) % 8) with
      | none => rw [h'] at h; simp at h
      | some cs' =>
        rw [h'] at h
        have hc : cs = c :: cs' := by simpa using h
        have := ih ((a :: rest).drop ((bit + 15) / 8)).length
          (by rw [List.length_drop, ← hn]; simp; omega) ((a :: rest).drop ((bit + 15) / 8)) ((bit + 15) % 8)
          (Nat.mod_lt _ (by omega)) (fun x hx => hb x (List.mem_of_mem_drop hx)) cs' h' rfl
        rw [hc, List.length_cons, this, List.length_drop, hn]
        have hn1 : 1 ≤ n := by rw [← hn]; simp
        by_cases h0 : bit = 0
        · subst h0; omega
        · rw [show (bit + 15) / 8 = 2 by omega, show (bit + 15) % 8 = bit - 1 by omega]
          omega

/-- Every code unit is in the 15-bit repertoire, except perhaps the last one. -/
theorem encodeLoop_alphabet (input : List Nat) (bit : Nat) (hbit : bit < 8) (hb : ∀ x ∈ input, x < 256) (cs : List Nat)
    (hcs : encodeLoop input bit = some cs) :
    (∀ c ∈ cs.dropLast, 0x4a0 ≤ c ∧ c < 0xd800) ∧
    (∀ c, cs.getLast? = some c → (0x4a0 ≤ c ∧ c < 0xd800 ∧ 15 * cs.length < input.length * 8 - bit + 8 ∧
      canEncode sevenBlocks c = false) ∨
      (0x180 ≤ c ∧ c < 0x2a0 ∧ canEncode sevenBlocks c = true ∧
        15 * cs.length ≥ input.length * 8 - bit + 8)) := by
  generalize hn : input.length = n
  induction n using Nat.strongRecOn generalizing input bit cs with
  | _ n ih =>
    match input, hb, hn, hcs with
    | [], _, hn, hcs =>
      rw [encodeLoop] at hcs
      simp at hcs
      subst hcs
      simp
    | a :: rest, hb, hn, hcs =>
      obtain ⟨c, g1, g2, g3, h⟩ := encodeLoop_cons a rest bit hb
      rw [hcs] at h
      cases h' : encodeLoop ((a :: rest).drop ((bit + 15) / 8)) ((bit + 15) % 8) with
      | none => rw [h'] at h; simp at h
      | some cs' =>
        rw [h'] at h
        have hc : cs = c :: cs' := by simpa using h
        have hih := ih ((a :: rest).drop ((bit + 15) / 8)).length
          (by rw [List.length_drop, ← hn]; simp; omega) ((a :: rest).drop ((bit + 15) / 8)) ((bit + 15) % 8)
          (Nat.mod_lt _ (by omega)) (fun x hx => hb x (List.mem_of_mem_drop hx)) cs' h' rfl
        have hlen' := encodeLoop_length _ _ (Nat.mod_lt _ (by omega)) (fun x hx => hb x (List.mem_of_mem_drop hx)) _ h'
        rw [List.length_drop, hn] at hlen' hih
        subst hc
        match cs', hih, hlen' with
        | [], _, hlen' =>
          simp only [List.dropLast_singleton, List.not_mem_nil, false_implies, implies_true, List.getLast?_singleton,
            Option.some.injEq, forall_eq', true_and, List.length_singleton]
          simp at hlen'
          have hn1 : 1 ≤ n := by rw [← hn]; simp
          have hn' : n = rest.length + 1 := by rw [← hn]; simp
          cases hs : usesSeven (a :: rest) bit with
          | true =>
            right
            have hr : rest = [] ∧ 0 < bit := by simpa [usesSeven] using hs
            rw [hr.1] at hn'
            simp at hn'
            have := g2 hs
            refine ⟨this.2.1, this.2.2, this.1, by omega⟩
          | false =>
            left
            have := g3 hs
            refine ⟨this.1, this.2, ?_, canEncode_large this.1⟩
            have hns : ¬(n = 1 ∧ 0 < bit) := by
              intro hh
              have : usesSeven (a :: rest) bit = true := by simp [usesSeven]; constructor; · exact List.length_eq_zero_iff.1 (by omega)
                                                            · omega
              rw [hs] at this; simp at this
            omega
        | d :: ds, hih, hlen' =>
          obtain ⟨i1, i2⟩ := hih
          have hs : usesSeven (a :: rest) bit = false := by
            cases hs : usesSeven (a :: rest) bit with
            | false => rfl
            | true =>
              have hr : rest = [] ∧ 0 < bit := by simpa [usesSeven] using hs
              rw [hr.1, show (bit + 15) / 8 = 2 by omega] at h'
              simp only [List.drop_succ_cons, List.drop_nil] at h'
              rw [encodeLoop] at h'
              simp at h'
          constructor
          · intro x hx
            rw [List.dropLast_cons_of_ne_nil (by simp)] at hx
            rcases List.mem_cons.1 hx with rfl | hx
            · exact g3 hs
            · exact i1 x hx
          · intro x hx
            rw [List.getLast?_cons_cons] at hx
            have := i2 x hx
            simp only [List.length_cons] at this hlen' ⊢
            have hn1 : 1 ≤ n := by rw [← hn]; simp
            rcases this with ⟨j1, j2, j3, j4⟩ | ⟨j1, j2, j3, j4⟩
            · left
              refine ⟨j1, j2, ?_, j4⟩
              by_cases h0 : bit = 0
              · subst h0; omega
              · rw [show (bit + 15) / 8 = 2 by omega, show (bit + 15) % 8 = bit - 1 by omega] at j3 hlen'
                omega
            · right
              refine ⟨j1, j2, j3, ?_⟩
              by_cases h0 : bit = 0
              · subst h0; omega
              · rw [show (bit + 15) / 8 = 2 by omega, show (bit + 15) % 8 = bit - 1 by omega] at j4 hlen'
                omega

theorem repEncode_mem {blocks : List Nat} {k c : Nat} (h : repEncode blocks k = some c) :
    ∃ b ∈ blocks, b ≤ c ∧ c < b + 32 := by
  unfold repEncode at h
  rw [blockSize_eq] at h
  split at h
  · have h1 : k / 32 < blocks.length := by omega
    simp [h1] at h
    exact ⟨blocks[k / 32], List.getElem_mem h1, by omega, by omega⟩
  · simp at h

theorem encodeLoop_mem (input : List Nat) (bit : Nat) (hb : ∀ x ∈ input, x < 256) (cs : List Nat)
    (hcs : encodeLoop input bit = some cs) :
    ∀ c ∈ cs, ∃ b, (b ∈ fifteenBlocks ∨ b ∈ sevenBlocks) ∧ b ≤ c ∧ c < b + 32 := by
  generalize hn : input.length = n
  induction n using Nat.strongRecOn generalizing input bit cs with
  | _ n ih =>
    match input, hb, hn, hcs with
    | [], _, hn, hcs =>
      rw [encodeLoop] at hcs
      simp at hcs
      subst hcs
      simp
    | a :: rest, hb, hn, hcs =>
      obtain ⟨c, g1, g2, g3, h⟩ := encodeLoop_cons a rest bit hb
      rw [hcs] at h
      cases h' : encodeLoop ((a :: rest).drop ((bit + 15) / 8)) ((bit + 15) % 8) with
      | none => rw [h'] at h; simp at h
      | some cs' =>
        rw [h'] at h
        have hc : cs = c :: cs' := by simpa using h
        have hih := ih ((a :: rest).drop ((bit + 15) / 8)).length
          (by rw [List.length_drop, ← hn]; simp; omega) ((a :: rest).drop ((bit + 15) / 8)) ((bit + 15) % 8)
          (fun x hx => hb x (List.mem_of_mem_drop hx)) cs' h' rfl
        subst hc
        intro x hx
        rcases List.mem_cons.1 hx with rfl | hx
        · obtain ⟨b, k1, k2⟩ := repEncode_mem g1
          refine ⟨b, ?_, k2⟩
          split at k1
          · exact Or.inr k1
          · exact Or.inl k1
        · exact hih x hx

end Principia.Base32768
