import Verif.Base.BitsLemmas

/-!
# C05: properties of the bit utilities
-/

namespace Principia.Bits

/-- Specification of bit reversal on `b` bits: the bit of weight `2^i` of `k` has weight `2^(b-1-i)` in the result. -/
def IsBitReversal (b k r : Nat) : Prop :=
  r < 2 ^ b ∧ ∀ i, i < b → r.testBit i = k.testBit (b - 1 - i)

/-- The bit reversal is determined by its specification. -/
theorem IsBitReversal_unique {b k r s : Nat} (hr : IsBitReversal b k r) (hs : IsBitReversal b k s) : r = s := by
  apply Nat.eq_of_testBit_eq
  intro i
  by_cases hi : i < b
  · rw [hr.2 i hi, hs.2 i hi]
  · rw [Nat.testBit_lt_two_pow (Nat.lt_of_lt_of_le hr.1 (Nat.pow_le_pow_right (by omega) (by omega))),
      Nat.testBit_lt_two_pow (Nat.lt_of_lt_of_le hs.1 (Nat.pow_le_pow_right (by omega) (by omega)))]

/-- A bit reversal by recursion on the width (used only to state that reversals exist and to iterate). -/
def rev : Nat → Nat → Nat
  | 0, _ => 0
  | b + 1, k => (k % 2) * 2 ^ b + rev b (k / 2)

theorem rev_lt (b k : Nat) : rev b k < 2 ^ b := by
  induction b generalizing k with
  | zero => simp [rev]
  | succ b ih =>
    have := ih (k / 2)
    unfold rev
    rw [Nat.pow_succ]
    rcases Nat.mod_two_eq_zero_or_one k with h | h <;> rw [h] <;> omega

theorem rev_spec (b k : Nat) : IsBitReversal b k (rev b k) := by
  refine ⟨rev_lt b k, ?_⟩
  induction b generalizing k with
  | zero => intro i hi; omega
  | succ b ih =>
    intro i hi
    unfold rev
    rw [Nat.mul_comm, Nat.testBit_two_pow_mul_add _ (rev_lt b (k / 2))]
    by_cases hib : i < b
    · simp only [hib, if_true]
      rw [ih (k / 2) i hib]
      have : b + 1 - 1 - i = (b - 1 - i) + 1 := by omega
      rw [this, Nat.testBit_add_one]
    · have : i = b := by omega
      subst this
      simp

theorem incTop_rev (b k : Nat) : incTop b (rev b k) = rev b (k + 1) := by
  induction b generalizing k with
  | zero => simp [incTop, rev]
  | succ b ih =>
    unfold incTop
    have hlt := rev_lt b (k / 2)
    rcases Nat.mod_two_eq_zero_or_one k with h | h
    · have e : rev (b + 1) k = rev b (k / 2) := by simp [rev, h]
      have e' : rev (b + 1) (k + 1) = 2 ^ b + rev b (k / 2) := by
        have h1 : (k + 1) % 2 = 1 := by omega
        have h2 : (k + 1) / 2 = k / 2 := by omega
        simp [rev, h1, h2]
      rw [e, e', if_pos hlt]; omega
    · have e : rev (b + 1) k = 2 ^ b + rev b (k / 2) := by simp [rev, h]
      have e' : rev (b + 1) (k + 1) = rev b (k / 2 + 1) := by
        have h1 : (k + 1) % 2 = 0 := by omega
        have h2 : (k + 1) / 2 = k / 2 + 1 := by omega
        simp [rev, h1, h2]
      rw [e, e', if_neg (by omega), ← ih]
      congr 1; omega

/-- **C05** (bit-reversed increment): on any width of at most 31 bits, if `r` is the bit reversal of `k` then
`BitReversedIncrement(r, b)` is defined and is the bit reversal of `k + 1` (reduced to `b` bits). -/
theorem C05_bitReversedIncrement (b k r : Nat) (hb : b < 32) (hr : IsBitReversal b k r) :
    ∃ s, bitReversedIncrement r b = some s ∧ IsBitReversal b (k + 1) s := by
  have e : r = rev b k := IsBitReversal_unique hr (rev_spec b k)
  subst e
  exact ⟨rev b (k + 1), by rw [bitReversedIncrement_eq _ _ hb (rev_lt b k), incTop_rev], rev_spec b (k + 1)⟩

example : IsBitReversal 4 3 12 := ⟨by decide, by decide⟩
example : bitReversedIncrement 12 4 = some 2 := by
  rw [bitReversedIncrement_eq _ _ (by decide) (by decide)]; rfl

/-- Iterating `BitReversedIncrement` from 0. -/
def iterates (b : Nat) : Nat → Option Nat
  | 0 => some 0
  | k + 1 => (iterates b k).bind fun r => bitReversedIncrement r b

theorem rev_zero (b : Nat) : rev b 0 = 0 := by
  induction b with
  | zero => rfl
  | succ b ih => simp [rev, ih]

theorem iterates_eq (b k : Nat) (hb : b < 32) : iterates b k = some (rev b k) := by
  induction k with
  | zero => simp [iterates, rev_zero]
  | succ k ih =>
    simp [iterates, ih, bitReversedIncrement_eq _ _ hb (rev_lt b k), incTop_rev]

theorem rev_rev (b k : Nat) (hk : k < 2 ^ b) : rev b (rev b k) = k := by
  apply IsBitReversal_unique (rev_spec b (rev b k))
  refine ⟨hk, fun i hi => ?_⟩
  rw [(rev_spec b k).2 (b - 1 - i) (by omega)]
  congr 1; omega

/-- **C05** (enumeration): the first `2^b` iterates of `BitReversedIncrement` starting from 0 enumerate
`[0, 2^b[` without repetition: every index is reached, exactly once. -/
theorem C05_enumeration (b : Nat) (hb : b < 32) :
    ∀ m, m < 2 ^ b → ∃ k, (k < 2 ^ b ∧ iterates b k = some m) ∧
      ∀ k', k' < 2 ^ b → iterates b k' = some m → k' = k := by
  intro m hm
  refine ⟨rev b m, ⟨rev_lt b m, ?_⟩, ?_⟩
  · rw [iterates_eq _ _ hb, rev_rev b m hm]
  · intro k' hk' h
    rw [iterates_eq _ _ hb] at h
    have : rev b k' = m := by simpa using h
    rw [← this, rev_rev b k' hk']

/-- **C05** (`FloorLog2`): for `n > 0`, `FloorLog2(n)` is the exponent of the largest power of two not exceeding `n`. -/
theorem C05_floorLog2 (n : Nat) (hn : 0 < n) : 2 ^ floorLog2 n ≤ n ∧ n < 2 ^ (floorLog2 n + 1) := by
  fun_induction floorLog2 n with
  | case1 => omega
  | case2 => decide
  | case3 n h0 h1 ih =>
    have e : n >>> 1 = n / 2 := shr1 n
    rw [e] at ih
    have := ih (by omega)
    rw [e, Nat.pow_succ, Nat.pow_succ]
    have h2 : 2 ^ (floorLog2 (n / 2) + 1) = 2 ^ floorLog2 (n / 2) * 2 := Nat.pow_succ ..
    omega

/-- **C05** (`PowerOf2Le`): for `n > 0`, `PowerOf2Le(n)` is the largest power of two not exceeding `n`. -/
theorem C05_powerOf2Le (n : Nat) (hn : 0 < n) :
    (∃ e, powerOf2Le n = 2 ^ e) ∧ powerOf2Le n ≤ n ∧ ∀ e, 2 ^ e ≤ n → 2 ^ e ≤ powerOf2Le n := by
  have key : ∀ m, 0 < m → powerOf2Le m = 2 ^ floorLog2 m := by
    intro m
    fun_induction powerOf2Le m with
    | case1 => omega
    | case2 => intro _; unfold floorLog2; simp
    | case3 n h0 h1 ih =>
      intro _
      have e : n >>> 1 = n / 2 := shr1 n
      rw [e] at ih
      rw [floorLog2]
      simp only [h0, h1, if_false]
      rw [e, ih (by omega), Nat.shiftLeft_eq, Nat.pow_one, Nat.pow_succ]
  have h := C05_floorLog2 n hn
  rw [key n hn]
  refine ⟨⟨_, rfl⟩, h.1, fun e he => ?_⟩
  have : e < floorLog2 n + 1 := (Nat.pow_lt_pow_iff_right (by omega : 1 < 2)).1 (Nat.lt_of_le_of_lt he h.2)
  exact Nat.pow_le_pow_right (by omega) (by omega)

example : floorLog2 8 = 3 ∧ floorLog2 7 = 2 ∧ powerOf2Le 7 = 4 := by
  simp [floorLog2, powerOf2Le]

end Principia.Bits
