import Mathlib.Tactic.FinCases
import Mathlib.Data.List.Induction
import Mathlib.Tactic.Linarith
import Mathlib.Tactic.Ring
import Mathlib.Tactic.Push
import Verif.Astronomy.LiteralsModel
import Verif.Astronomy.LiteralsSpec

/-!
# Lemmas on the parsers of literals
-/

set_option linter.unusedSimpArgs false
set_option linter.unusedVariables false

namespace Principia.Calendar
open Spec

/-! ## Numerals -/

theorem digitChar_isDigit (d : Fin 10) : isDigit (digitChar d) = true := by revert d; decide
theorem digitChar_value (d : Fin 10) : digitValue (digitChar d) = d := by revert d; decide

theorem isDigit_char (c : Char) (h : isDigit c = true) : ∃ d : Fin 10, c = digitChar d := by
  unfold isDigit at h
  simp only [decide_eq_true_eq] at h
  obtain ⟨h1, h2⟩ := h
  have key : ∀ n, 48 ≤ n → n ≤ 57 → ∃ d : Fin 10, Char.ofNat n = digitChar d := by
    intro n a b
    have : ∀ k : Fin 10, Char.ofNat (48 + k) = digitChar k := by decide
    refine ⟨⟨n - 48, by omega⟩, ?_⟩
    rw [← this]
    congr 1; simp only; omega
  have := key c.toNat h1 h2
  rwa [Char.ofNat_toNat] at this

/-- The value of a string of digits. -/
def val : List Char → ℤ
  | [] => 0
  | c :: cs => digitValue c * 10 ^ cs.length + val cs

theorem val_append (a b : List Char) : val (a ++ b) = val a * 10 ^ b.length + val b := by
  induction a with
  | nil => simp [val]
  | cons c cs ih =>
    simp only [List.cons_append, val, ih, List.length_append]
    rw [pow_add]; ring

theorem val_bounds (a : List Char) (h : ∀ c ∈ a, isDigit c = true) : 0 ≤ val a ∧ val a < 10 ^ a.length := by
  induction a with
  | nil => simp [val]
  | cons c cs ih =>
    obtain ⟨d, rfl⟩ := isDigit_char c (h c (by simp))
    obtain ⟨h1, h2⟩ := ih (fun c hc => h c (by simp [hc]))
    simp only [val, digitChar_value, List.length_cons]
    have hd : ((d : ℕ) : ℤ) ≤ 9 := by have := d.2; omega
    have hd0 : (0 : ℤ) ≤ ((d : ℕ) : ℤ) := by omega
    have hp : (0 : ℤ) < 10 ^ cs.length := by positivity
    rw [pow_succ]
    constructor
    · positivity
    · nlinarith

theorem numeral_iff (a : List Char) (n : ℕ) : Numeral a n ↔ (∀ c ∈ a, isDigit c = true) ∧ val a = n := by
  constructor
  · intro h
    induction h with
    | nil => simp [val]
    | snoc d h ih =>
      obtain ⟨h1, h2⟩ := ih
      refine ⟨?_, ?_⟩
      · intro c hc
        rcases List.mem_append.1 hc with hc | hc
        · exact h1 c hc
        · rw [List.mem_singleton.1 hc]; exact digitChar_isDigit d
      · rw [val_append, h2]
        simp [val, digitChar_value]; ring
  · rintro ⟨h1, h2⟩
    induction a using List.reverseRecOn generalizing n with
    | nil =>
      simp [val] at h2
      obtain rfl : n = 0 := by omega
      exact .nil
    | append_singleton a c ih =>
      obtain ⟨d, rfl⟩ := isDigit_char c (h1 c (by simp))
      have ha : ∀ c ∈ a, isDigit c = true := fun c hc => h1 c (by simp [hc])
      rw [val_append] at h2
      simp [val, digitChar_value] at h2
      have hv := val_bounds a ha
      have : n = 10 * (val a).toNat + d := by omega
      rw [this]
      exact .snoc d (ih (val a).toNat ha (by omega))

theorem fixed_iff (w : ℕ) (a : List Char) (n : ℕ) :
    Numeral.Fixed w a n ↔ (∀ c ∈ a, isDigit c = true) ∧ val a = n ∧ a.length = w := by
  unfold Numeral.Fixed; rw [numeral_iff, and_assoc]

theorem fixed_toNat (w : ℕ) (a : List Char) (h : ∀ c ∈ a, isDigit c = true) (hl : a.length = w) :
    Numeral.Fixed w a (val a).toNat :=
  (fixed_iff _ _ _).2 ⟨h, by have := val_bounds a h; omega, hl⟩

/-! ## digit_range -/

theorem digitRange_eq (n : ℤ) (b e : ℕ) (hn : 0 ≤ n) (h : b ≤ e) :
    digitRange n b e = some (n / 10 ^ b % 10 ^ (e - b)) := by
  induction e generalizing n b with
  | zero =>
    obtain rfl : b = 0 := by omega
    simp [digitRange, hn, Int.emod_one]
  | succ e ih =>
    have hd : 0 ≤ n / 10 := by omega
    cases b with
    | zero =>
      simp only [digitRange, ge_iff_le, hn, if_true]
      rw [Int.tdiv_eq_ediv_of_nonneg hn, ih _ 0 hd (by omega), Int.tmod_eq_emod_of_nonneg hn]
      simp only [pow_zero, Int.ediv_one, Nat.sub_zero, Option.map_some, Option.some.injEq]
      have hp : (0 : ℤ) < 10 ^ e := by positivity
      have e1 := Int.emod_add_mul_ediv (n / 10) (10 ^ e)
      have m0 := Int.emod_nonneg (n / 10) hp.ne'
      have m1 := Int.emod_lt_of_pos (n / 10) hp
      generalize n / 10 % 10 ^ e = t at *
      generalize hk : n / 10 / 10 ^ e = k at *
      have e2 : n = (t * 10 + n % 10) + 10 ^ (e + 1) * k := by
        have : n = 10 * (n / 10) + n % 10 := by omega
        calc n = 10 * (n / 10) + n % 10 := this
          _ = 10 * (t + 10 ^ e * k) + n % 10 := by rw [e1]
          _ = _ := by rw [pow_succ]; ring
      conv_rhs => rw [e2]
      have b1 : t * 10 + n % 10 < 10 ^ (e + 1) := by rw [pow_succ]; omega
      have b0 : 0 ≤ t * 10 + n % 10 := by omega
      rw [Int.add_mul_emod_self_left, Int.emod_eq_of_lt b0 b1]
    | succ b =>
      simp only [digitRange]
      rw [if_pos ⟨hn, by omega⟩]
      by_cases hbe : b = e
      · subst hbe; simp [Int.emod_one]
      · rw [if_neg hbe, Int.tdiv_eq_ediv_of_nonneg hn, ih _ b hd (by omega)]
        rw [Int.ediv_ediv_of_nonneg (by norm_num), pow_succ, mul_comm (10 : ℤ)]
        congr 3; omega

/-- The digits of a concatenation. -/
theorem digitRange_append (a b c : List Char) (ha : ∀ x ∈ a, isDigit x = true) (hb : ∀ x ∈ b, isDigit x = true)
    (hc : ∀ x ∈ c, isDigit x = true) :
    digitRange (val (a ++ (b ++ c))) c.length (b.length + c.length) = some (val b) := by
  have h1 := val_bounds a ha
  have h2 := val_bounds b hb
  have h3 := val_bounds c hc
  have hab : ∀ x ∈ a ++ (b ++ c), isDigit x = true := by
    intro x hx
    rcases List.mem_append.1 hx with h | h
    · exact ha x h
    · rcases List.mem_append.1 h with h | h
      · exact hb x h
      · exact hc x h
  rw [digitRange_eq _ _ _ (val_bounds _ hab).1 (by omega)]
  congr 1
  rw [val_append, val_append, Nat.add_sub_cancel, List.length_append]
  have e1 : val a * 10 ^ (b.length + c.length) + (val b * 10 ^ c.length + val c) =
      val c + 10 ^ c.length * (val b + 10 ^ b.length * val a) := by rw [pow_add]; ring
  rw [e1, Int.add_mul_ediv_left _ _ (by positivity), Int.ediv_eq_zero_of_lt h3.1 h3.2, zero_add,
    Int.add_mul_emod_self_left, Int.emod_eq_of_lt h2.1 h2.2]

/-! ## Reading -/

/-- What is needed of the separator and of the marks. -/
structure Tokens (sep : Char) (isMark : Char → Bool) : Prop where
  sepDigit : isDigit sep = false
  sepMark : isMark sep = false
  markDigit : ∀ c, isMark c = true → isDigit c = false

theorem tokens_date : Tokens '-' (fun c => decide (c = 'W')) :=
  ⟨by decide, by decide, by intro c h; simp at h; subst h; decide⟩

theorem tokens_time : Tokens ':' (fun c => decide (c = '.' ∨ c = ',')) :=
  ⟨by decide, by decide, by intro c h; simp at h; rcases h with rfl | rfl <;> decide⟩

variable {sep : Char} {isMark : Char → Bool}

theorem read_digits (T : Tokens sep isMark) (a rest : List Char) (i : ℕ) (p : Parser) (ha : ∀ x ∈ a, isDigit x = true)
    (hp : 0 ≤ p.digits) (hb : p.digits * 10 ^ a.length + val a < 2 ^ 63) :
    readToEnd sep isMark (a ++ rest) i p = readToEnd sep isMark rest (i + a.length)
      { p with digits := p.digits * 10 ^ a.length + val a, digitCount := p.digitCount + a.length } := by
  induction a generalizing i p with
  | nil => simp [val]
  | cons c cs ih =>
    have hc := ha c (by simp)
    have hs : c ≠ sep := by rintro rfl; rw [T.sepDigit] at hc; cases hc
    have hm : isMark c = false := by
      cases h : isMark c
      · rfl
      · rw [T.markDigit c h] at hc; cases hc
    obtain ⟨d, hd⟩ := isDigit_char c hc
    have hv : 0 ≤ digitValue c := by rw [hd, digitChar_value]; omega
    have hcs : ∀ x ∈ cs, isDigit x = true := fun x hx => ha x (by simp [hx])
    have vb := val_bounds cs hcs
    have hpow : (1 : ℤ) ≤ 10 ^ cs.length := one_le_pow₀ (by norm_num)
    simp only [val, List.length_cons, pow_succ] at hb
    have e : p.digits * (10 ^ cs.length * 10) + (digitValue c * 10 ^ cs.length + val cs) =
      (p.digits * 10 + digitValue c) * 10 ^ cs.length + val cs := by ring
    rw [e] at hb
    have hn : 0 ≤ p.digits * 10 + digitValue c := by omega
    have hck : ck64 (p.digits * 10 + digitValue c) = some (p.digits * 10 + digitValue c) := by
      unfold ck64
      rw [if_pos]
      constructor
      · linarith
      · nlinarith
    rw [List.cons_append, readToEnd]
    rw [if_neg hs, hm]
    simp only [Bool.false_eq_true, if_false, hc, if_true, hck]
    rw [ih _ _ hcs hn hb]
    simp only [List.length_cons, val, pow_succ, ← e]
    congr 1
    · omega
    · congr 1; omega

/-- The parser describes the characters read so far. -/
structure Reads (sep : Char) (isMark : Char → Bool) (l : List Char) (p : Parser) : Prop where
  digits : p.digits = val (l.filter isDigit)
  count : p.digitCount = (l.filter isDigit).length
  chars : ∀ c ∈ l, c = sep ∨ isMark c = true ∨ isDigit c = true
  seps : (p.separators = 0 ∧ sep ∉ l) ∨
    (p.separators = 1 ∧ ∃ a b, l = a ++ sep :: b ∧ sep ∉ a ∧ sep ∉ b ∧ p.firstSeparatorIndex = a.length) ∨
    (p.separators = 2 ∧ ∃ a b c, l = a ++ sep :: (b ++ sep :: c) ∧ sep ∉ a ∧ sep ∉ b ∧ sep ∉ c ∧
      p.firstSeparatorIndex = a.length ∧ p.secondSeparatorIndex = a.length + 1 + b.length)
  mark : (p.hasMark = false ∧ ∀ c ∈ l, isMark c = false) ∨
    (p.hasMark = true ∧ ∃ a m b, l = a ++ m :: b ∧ isMark m = true ∧ (∀ c ∈ a, isMark c = false) ∧
      (∀ c ∈ b, isMark c = false) ∧ p.markIndex = a.length)

theorem reads_nil : Reads sep isMark [] {} :=
  ⟨rfl, rfl, by simp, Or.inl ⟨rfl, by simp⟩, Or.inl ⟨rfl, by simp⟩⟩

theorem reads_readToEnd (T : Tokens sep isMark) (rest pre : List Char) (p q : Parser) (hp : Reads sep isMark pre p)
    (h : readToEnd sep isMark rest pre.length p = some q) : Reads sep isMark (pre ++ rest) q := by
  induction rest generalizing pre p with
  | nil => simp only [readToEnd, Option.some.injEq] at h; subst h; simpa using hp
  | cons c cs ih =>
    have key : ∀ p', Reads sep isMark (pre ++ [c]) p' → readToEnd sep isMark cs (pre.length + 1) p' = some q →
        Reads sep isMark (pre ++ c :: cs) q := by
      intro p' h1 h2
      have := ih (pre ++ [c]) p' h1 (by simpa using h2)
      simpa using this
    rw [readToEnd] at h
    by_cases hc : c = sep
    · subst hc
      rw [if_pos rfl] at h
      have hfil : (pre ++ [c]).filter isDigit = pre.filter isDigit := by simp [T.sepDigit]
      have hm : (p.hasMark = false ∧ ∀ x ∈ pre ++ [c], isMark x = false) ∨
          (p.hasMark = true ∧ ∃ a m b, pre ++ [c] = a ++ m :: b ∧ isMark m = true ∧ (∀ c ∈ a, isMark c = false) ∧
            (∀ c ∈ b, isMark c = false) ∧ p.markIndex = a.length) := by
        rcases hp.mark with ⟨h1, h2⟩ | ⟨h1, a, m, b, h2, h3, h4, h5, h6⟩
        · left; refine ⟨h1, ?_⟩; intro x hx; rcases List.mem_append.1 hx with hx | hx
          · exact h2 x hx
          · rw [List.mem_singleton.1 hx]; exact T.sepMark
        · right; refine ⟨h1, a, m, b ++ [c], by simp [h2], h3, h4, ?_, h6⟩
          intro x hx; rcases List.mem_append.1 hx with hx | hx
          · exact h5 x hx
          · rw [List.mem_singleton.1 hx]; exact T.sepMark
      have hch : ∀ x ∈ pre ++ [c], x = c ∨ isMark x = true ∨ isDigit x = true := by
        intro x hx; rcases List.mem_append.1 hx with hx | hx
        · exact hp.chars x hx
        · exact Or.inl (List.mem_singleton.1 hx)
      split at h
      · split at h
        · rename_i h0
          rcases hp.seps with ⟨hs, hn⟩ | ⟨hs, _⟩ | ⟨hs, _⟩
          · refine key _ ?_ h
            refine ⟨by rw [hfil]; exact hp.digits, by rw [hfil]; exact hp.count, hch, ?_, hm⟩
            right; left
            exact ⟨by simp [hs], pre, [], rfl, hn, by simp, rfl⟩
          · omega
          · omega
        · rename_i h0
          rcases hp.seps with ⟨hs, hn⟩ | ⟨hs, a, b, e, ha, hb, hi⟩ | ⟨hs, _⟩
          · omega
          · refine key _ ?_ h
            refine ⟨by rw [hfil]; exact hp.digits, by rw [hfil]; exact hp.count, hch, ?_, hm⟩
            right; right
            refine ⟨by simp [hs], a, b, [], by simp [e], ha, hb, by simp, hi, ?_⟩
            simp [e]; ring
          · omega
      · cases h
    · rw [if_neg hc] at h
      have hseps : (p.separators = 0 ∧ sep ∉ pre ++ [c]) ∨
          (p.separators = 1 ∧ ∃ a b, pre ++ [c] = a ++ sep :: b ∧ sep ∉ a ∧ sep ∉ b ∧ p.firstSeparatorIndex = a.length) ∨
          (p.separators = 2 ∧ ∃ a b d, pre ++ [c] = a ++ sep :: (b ++ sep :: d) ∧ sep ∉ a ∧ sep ∉ b ∧ sep ∉ d ∧
            p.firstSeparatorIndex = a.length ∧ p.secondSeparatorIndex = a.length + 1 + b.length) := by
        have hne : sep ≠ c := fun h => hc h.symm
        rcases hp.seps with ⟨hs, hn⟩ | ⟨hs, a, b, e, ha, hb, hi⟩ | ⟨hs, a, b, d, e, ha, hb, hd, hi, hj⟩
        · left; exact ⟨hs, by simp [hn, hne]⟩
        · right; left; exact ⟨hs, a, b ++ [c], by simp [e], ha, by simp [hb, hne], hi⟩
        · right; right; exact ⟨hs, a, b, d ++ [c], by simp [e], ha, hb, by simp [hd, hne], hi, hj⟩
      by_cases hmk : isMark c = true
      · rw [if_pos hmk] at h
        have hfil : (pre ++ [c]).filter isDigit = pre.filter isDigit := by simp [T.markDigit c hmk]
        have hch : ∀ x ∈ pre ++ [c], x = sep ∨ isMark x = true ∨ isDigit x = true := by
          intro x hx; rcases List.mem_append.1 hx with hx | hx
          · exact hp.chars x hx
          · right; left; rw [List.mem_singleton.1 hx]; exact hmk
        split at h
        · rename_i h0
          rcases hp.mark with ⟨h1, h2⟩ | ⟨h1, _⟩
          · refine key _ ?_ h
            refine ⟨by rw [hfil]; exact hp.digits, by rw [hfil]; exact hp.count, hch, hseps, ?_⟩
            right; exact ⟨rfl, pre, c, [], rfl, hmk, h2, by simp, rfl⟩
          · rw [h1] at h0; simp at h0
        · cases h
      · rw [if_neg hmk] at h
        have hmk' : isMark c = false := by simpa using hmk
        by_cases hd : isDigit c = true
        · rw [if_pos hd] at h
          have hfil : (pre ++ [c]).filter isDigit = pre.filter isDigit ++ [c] := by simp [hd]
          have hm : (p.hasMark = false ∧ ∀ x ∈ pre ++ [c], isMark x = false) ∨
              (p.hasMark = true ∧ ∃ a m b, pre ++ [c] = a ++ m :: b ∧ isMark m = true ∧ (∀ c ∈ a, isMark c = false) ∧
                (∀ c ∈ b, isMark c = false) ∧ p.markIndex = a.length) := by
            rcases hp.mark with ⟨h1, h2⟩ | ⟨h1, a, m, b, h2, h3, h4, h5, h6⟩
            · left; refine ⟨h1, ?_⟩; intro x hx; rcases List.mem_append.1 hx with hx | hx
              · exact h2 x hx
              · rw [List.mem_singleton.1 hx]; exact hmk'
            · right; refine ⟨h1, a, m, b ++ [c], by simp [h2], h3, h4, ?_, h6⟩
              intro x hx; rcases List.mem_append.1 hx with hx | hx
              · exact h5 x hx
              · rw [List.mem_singleton.1 hx]; exact hmk'
          have hch : ∀ x ∈ pre ++ [c], x = sep ∨ isMark x = true ∨ isDigit x = true := by
            intro x hx; rcases List.mem_append.1 hx with hx | hx
            · exact hp.chars x hx
            · right; right; rw [List.mem_singleton.1 hx]; exact hd
          unfold ck64 at h
          split at h
          · rename_i n hn
            split at hn
            · cases hn
              refine key _ ?_ h
              refine ⟨?_, ?_, hch, hseps, hm⟩
              · rw [hfil, val_append, ← hp.digits]; simp [val]
              · rw [hfil]; simp [hp.count]
            · cases hn
          · cases h
        · rw [if_neg hd] at h; cases h

end Principia.Calendar
