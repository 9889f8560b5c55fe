import Verif.Base.BitsModel

namespace Principia.Bits

theorem xor_pow_lt {x p : Nat} (h : x < 2 ^ p) : x ^^^ 2 ^ p = x + 2 ^ p := by
  have h1 : 2 ^ p + x = 2 ^ p ||| x := by
    have := Nat.two_pow_add_eq_or_of_lt h 1
    simpa using this
  have h2 : x ^^^ 2 ^ p = 2 ^ p ||| x := by
    apply Nat.eq_of_testBit_eq; intro i
    simp only [Nat.testBit_xor, Nat.testBit_or, Nat.testBit_two_pow]
    by_cases hi : p = i
    · subst hi; simp [Nat.testBit_lt_two_pow h]
    · simp [hi]
  omega

theorem xor_pow_ge {x p : Nat} (h : 2 ^ p ≤ x) (h' : x < 2 ^ (p + 1)) : x ^^^ 2 ^ p = x - 2 ^ p := by
  have h2 : x - 2 ^ p < 2 ^ p := by rw [Nat.pow_succ] at h'; omega
  have h3 := xor_pow_lt h2
  have h4 : x = (x - 2 ^ p) ^^^ 2 ^ p := by omega
  calc x ^^^ 2 ^ p = ((x - 2 ^ p) ^^^ 2 ^ p) ^^^ 2 ^ p := by rw [← h4]
    _ = x - 2 ^ p := by rw [Nat.xor_assoc]; simp

/-- Arithmetic reading of the algorithm: increment from the most significant of the bits below `2^p`. -/
def incTop : Nat → Nat → Nat
  | 0, _ => 0
  | b + 1, n => if n < 2 ^ b then n + 2 ^ b else incTop b (n - 2 ^ b)

/-- The loop started with mask `2^(p+b)` on `y * 2^p`, all higher bits having been cleared. -/
theorem briLoop_eq (b p y : Nat) (hp : 0 < p) (hy : y < 2 ^ b) :
    briLoop (2 ^ (p + b)) (y * 2 ^ p) / 2 ^ p = incTop b y := by
  induction b generalizing y with
  | zero =>
    have : y = 0 := by simpa using hy
    subst this
    obtain ⟨q, rfl⟩ : ∃ q, p = q + 1 := ⟨p - 1, by omega⟩
    unfold briLoop incTop
    have e : 2 ^ (q + 1 + 0) >>> 1 = 2 ^ q := by
      rw [shr1, Nat.add_zero, Nat.pow_succ]; omega
    simp only [e, Nat.zero_mul, Nat.zero_xor, Nat.lt_irrefl, if_false]
    apply Nat.div_eq_of_lt
    exact Nat.pow_lt_pow_right (by omega) (by omega)
  | succ b ih =>
    unfold briLoop incTop
    have e : 2 ^ (p + (b + 1)) >>> 1 = 2 ^ (p + b) := by
      rw [shr1, ← Nat.add_assoc, Nat.pow_succ]; omega
    have hsplit : 2 ^ (p + b) = 2 ^ b * 2 ^ p := by rw [Nat.pow_add, Nat.mul_comm]
    have hpos : 0 < 2 ^ p := Nat.two_pow_pos p
    simp only [e]
    by_cases hlt : y < 2 ^ b
    · have h1 : y * 2 ^ p < 2 ^ (p + b) := by
        rw [hsplit]; exact Nat.mul_lt_mul_of_pos_right hlt hpos
      rw [xor_pow_lt h1]
      have : ¬ (y * 2 ^ p + 2 ^ (p + b) < 2 ^ (p + b)) := by omega
      simp only [this, if_false, hlt, if_true]
      rw [hsplit, ← Nat.add_mul, Nat.mul_div_cancel _ hpos]
    · have h1 : 2 ^ (p + b) ≤ y * 2 ^ p := by
        rw [hsplit]; exact Nat.mul_le_mul_right _ (by omega)
      have h2 : y * 2 ^ p < 2 ^ (p + b + 1) := by
        have : 2 ^ (p + b + 1) = 2 ^ (b + 1) * 2 ^ p := by rw [← Nat.pow_add]; congr 1; omega
        rw [this]; exact Nat.mul_lt_mul_of_pos_right hy hpos
      rw [xor_pow_ge h1 h2]
      have e3 : y * 2 ^ p - 2 ^ (p + b) = (y - 2 ^ b) * 2 ^ p := by rw [hsplit, Nat.sub_mul]
      have h4 : y - 2 ^ b < 2 ^ b := by rw [Nat.pow_succ] at hy; omega
      have h3 : y * 2 ^ p - 2 ^ (p + b) < 2 ^ (p + b) := by
        rw [e3, hsplit]; exact Nat.mul_lt_mul_of_pos_right h4 hpos
      simp only [h3, if_true, hlt, if_false]
      rw [e3]
      exact ih _ h4

theorem bitReversedIncrement_eq (n b : Nat) (hb : b < 32) (hn : n < 2 ^ b) :
    bitReversedIncrement n b = some (incTop b n) := by
  unfold bitReversedIncrement
  by_cases h0 : b = 0
  · subst h0
    have : n = 0 := by simpa using hn
    simp [this, incTop]
  obtain ⟨c, rfl⟩ : ∃ c, b = c + 1 := ⟨b - 1, by omega⟩
  have hmask : (0x80000000 : Nat) = 2 ^ (32 - (c + 1) + c) := by
    have : 32 - (c + 1) + c = 31 := by omega
    rw [this]
  have hx : n <<< (32 - (c + 1)) % 2 ^ 32 = n * 2 ^ (32 - (c + 1)) := by
    rw [Nat.shiftLeft_eq]
    apply Nat.mod_eq_of_lt
    have : (2 : Nat) ^ 32 = 2 ^ (c + 1) * 2 ^ (32 - (c + 1)) := by rw [← Nat.pow_add]; congr 1; omega
    rw [this]
    exact Nat.mul_lt_mul_of_pos_right hn (Nat.two_pow_pos _)
  simp only [h0, if_false, Nat.one_shiftLeft, hn, hb, and_self, if_true]
  rw [hx]
  congr 1
  have hpos : 0 < 2 ^ (32 - (c + 1)) := Nat.two_pow_pos _
  have hsplit : (2 : Nat) ^ 31 = 2 ^ c * 2 ^ (32 - (c + 1)) := by rw [← Nat.pow_add]; congr 1; omega
  unfold incTop
  by_cases hlt : n < 2 ^ c
  · have h1 : n * 2 ^ (32 - (c + 1)) < 2 ^ 31 := by
      rw [hsplit]; exact Nat.mul_lt_mul_of_pos_right hlt hpos
    have hxor : n * 2 ^ (32 - (c + 1)) ^^^ 0x80000000 = n * 2 ^ (32 - (c + 1)) + 2 ^ 31 := xor_pow_lt h1
    rw [hxor]
    have : ¬ (n * 2 ^ (32 - (c + 1)) + 2 ^ 31 < 2 ^ 31) := by omega
    simp only [this, if_false, hlt, if_true]
    rw [Nat.shiftRight_eq_div_pow, hsplit, ← Nat.add_mul, Nat.mul_div_cancel _ hpos]
  · have h1 : 2 ^ 31 ≤ n * 2 ^ (32 - (c + 1)) := by
      rw [hsplit]; exact Nat.mul_le_mul_right _ (by omega)
    have h2 : n * 2 ^ (32 - (c + 1)) < 2 ^ (31 + 1) := by
      have : (2 : Nat) ^ (31 + 1) = 2 ^ (c + 1) * 2 ^ (32 - (c + 1)) := by
        rw [← Nat.pow_add]; congr 1; omega
      rw [this]
      exact Nat.mul_lt_mul_of_pos_right hn hpos
    have hxor : n * 2 ^ (32 - (c + 1)) ^^^ 0x80000000 = n * 2 ^ (32 - (c + 1)) - 2 ^ 31 :=
      xor_pow_ge h1 h2
    rw [hxor]
    have h3 : n * 2 ^ (32 - (c + 1)) - 2 ^ 31 < 2 ^ 31 := by omega
    have e3 : n * 2 ^ (32 - (c + 1)) - 2 ^ 31 = (n - 2 ^ c) * 2 ^ (32 - (c + 1)) := by
      rw [hsplit, Nat.sub_mul]
    have h4 : n - 2 ^ c < 2 ^ c := by rw [Nat.pow_succ] at hn; omega
    simp only [h3, if_true, hlt, if_false]
    rw [Nat.shiftRight_eq_div_pow, e3, hmask]
    exact briLoop_eq c (32 - (c + 1)) _ (by omega) h4

theorem incTop_lt (b n : Nat) : n < 2 ^ b → incTop b n < 2 ^ b := by
  induction b generalizing n with
  | zero => simp [incTop]
  | succ b ih =>
    intro h
    unfold incTop
    have := Nat.two_pow_pos b
    split
    · rw [Nat.pow_succ]; omega
    · have h4 : n - 2 ^ b < 2 ^ b := by rw [Nat.pow_succ] at h; omega
      have := ih _ h4
      rw [Nat.pow_succ]; omega

end Principia.Bits
