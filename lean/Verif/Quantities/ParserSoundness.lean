import Verif.Quantities.ParserProps

/-!
C54: the texts that are accepted by the parser.
-/

set_option linter.unusedSimpArgs false
set_option linter.unusedVariables false
set_option linter.unusedSectionVars false

namespace Principia.Quantities.Parser

variable {K : Type} [Field K]

/-! ## Searches -/

theorem findIdx_split {α : Type} {p : α → Bool} {s : List α} {n : Nat} (h : s.findIdx? p = some n) :
    ∃ a x b, s = a ++ x :: b ∧ a.length = n ∧ (∀ y ∈ a, p y = false) ∧ p x = true := by
  induction s generalizing n with
  | nil => simp at h
  | cons x s ih =>
    rw [List.findIdx?_cons] at h
    by_cases hx : p x = true
    · rw [if_pos hx] at h
      injection h with h
      exact ⟨[], x, s, rfl, h, by simp, hx⟩
    · rw [if_neg hx, Option.map_eq_some_iff] at h
      obtain ⟨m, hm, rfl⟩ := h
      obtain ⟨a, y, b, rfl, rfl, h1, h2⟩ := ih hm
      refine ⟨x :: a, y, b, rfl, rfl, ?_, h2⟩
      intro z hz
      rcases List.mem_cons.1 hz with rfl | hz
      · simpa using hx
      · exact h1 z hz

theorem all_blanks {s : List Char} (h : ∀ y ∈ s, (y != ' ') = false) : s = blanks s.length := by
  unfold blanks
  rw [List.eq_replicate_iff]
  exact ⟨rfl, fun c hc => by simpa using h c hc⟩

theorem find_split {c : Char} {s : List Char} {n p : Nat} (h : find c s n = some p) :
    ∃ a b, s = a ++ c :: b ∧ a.length = p ∧ n ≤ p ∧ c ∉ a.drop n := by
  unfold find at h
  rw [Option.map_eq_some_iff] at h
  obtain ⟨k, h1, rfl⟩ := h
  obtain ⟨a, x, b, h2, rfl, h3, h4⟩ := findIdx_split h1
  have hx : x = c := by simpa using h4
  subst hx
  have hn : n ≤ s.length := by
    by_contra hn
    rw [List.drop_eq_nil_of_le (by omega)] at h2
    simp at h2
  have ht : (s.take n).length = n := by simp; omega
  refine ⟨s.take n ++ a, b, ?_, by simp; omega, by omega, ?_⟩
  · rw [List.append_assoc, ← h2, List.take_append_drop]
  · rw [List.drop_left' ht]
    intro hm
    have := h3 _ hm
    simp at this

theorem rfind_split {c : Char} {s : List Char} {p : Nat} (h : rfind c s = some p) : ∃ a b, s = a ++ c :: b ∧ a.length = p := by
  unfold rfind at h
  rw [Option.map_eq_some_iff] at h
  obtain ⟨k, h1, rfl⟩ := h
  obtain ⟨a, x, b, h2, rfl, h3, h4⟩ := findIdx_split h1
  have hx : x = c := by simpa using h4
  subst hx
  have h5 : s = b.reverse ++ x :: a.reverse := by
    have := congrArg List.reverse h2
    simpa using this
  refine ⟨b.reverse, a.reverse, h5, ?_⟩
  rw [h5]; simp

theorem firstNotBlank_split {a s : List Char} {n p : Nat} (hn : a.length = n) (h : findFirstNotBlank (a ++ s) n = some p) :
    ∃ k c b, s = blanks k ++ c :: b ∧ p = n + k ∧ c ≠ ' ' := by
  unfold findFirstNotBlank at h
  rw [Option.map_eq_some_iff, List.drop_left' hn] at h
  obtain ⟨k, h1, rfl⟩ := h
  obtain ⟨a, x, b, rfl, rfl, h3, h4⟩ := findIdx_split h1
  refine ⟨a.length, x, b, ?_, rfl, by simpa using h4⟩
  rw [← all_blanks h3]

theorem lastNotBlank_split {s : List Char} {p : Nat} (h : findLastNotBlank s = some p) : ∃ a c k, s = a ++ c :: blanks k ∧ a.length = p ∧ c ≠ ' ' := by
  unfold findLastNotBlank at h
  rw [Option.map_eq_some_iff] at h
  obtain ⟨k, h1, rfl⟩ := h
  obtain ⟨a, x, b, h2, rfl, h3, h4⟩ := findIdx_split h1
  have h5 : s = b.reverse ++ x :: a.reverse := by
    have := congrArg List.reverse h2
    simpa using this
  refine ⟨b.reverse, x, a.length, ?_, by rw [h5]; simp, by simpa using h4⟩
  rw [h5]
  have := all_blanks (s := a.reverse) (by simpa using h3)
  rw [List.length_reverse] at this
  rw [this]

theorem lastNotBlankBefore_split {a s : List Char} {n p : Nat} (hn : a.length = n) (h0 : n ≠ 0) (h : findLastNotBlankBefore (a ++ s) n = some p) :
    ∃ b c k, a = b ++ c :: blanks k ∧ b.length = p ∧ c ≠ ' ' := by
  unfold findLastNotBlankBefore at h
  rw [if_neg h0, List.take_left' hn] at h
  exact lastNotBlank_split h

/-! ## Exponents -/

theorem mem_takeWhile_true {α : Type} {p : α → Bool} {s : List α} {c : α} (h : c ∈ s.takeWhile p) : p c = true := by
  induction s with
  | nil => simp at h
  | cons x s ih =>
    rw [List.takeWhile_cons] at h
    by_cases hx : p x = true
    · rw [if_pos hx] at h
      rcases List.mem_cons.1 h with rfl | h
      · exact hx
      · exact ih h
    · rw [if_neg hx] at h
      simp at h

theorem sign_split (s : List Char) : ∃ p t, s = p ++ t ∧ ((p = [] ∧ sign s = (false, t)) ∨ (p = ['+'] ∧ sign s = (false, t)) ∨
    (p = ['-'] ∧ sign s = (true, t))) := by
  unfold sign
  split
  · exact ⟨['-'], _, rfl, .inr (.inr ⟨rfl, rfl⟩)⟩
  · exact ⟨['+'], _, rfl, .inr (.inl ⟨rfl, rfl⟩)⟩
  · exact ⟨[], _, rfl, .inl ⟨rfl, rfl⟩⟩

theorem parseExponent_sound {s : List Char} {n : Int} (h : parseExponent s = some n) : LooseExponentText n s := by
  unfold parseExponent at h
  simp only at h
  split at h
  · rename_i hd
    injection h with h
    subst h
    obtain ⟨p, t, h1, h2⟩ := sign_split (s.dropWhile isSpace)
    have hs : s = s.takeWhile isSpace ++ (p ++ t.takeWhile Char.isDigit) ++ t.dropWhile Char.isDigit := by
      conv => lhs; rw [← List.takeWhile_append_dropWhile (p := isSpace) (l := s), h1]
      rw [List.append_assoc, List.append_assoc, List.takeWhile_append_dropWhile]
    have hw : ∀ c ∈ s.takeWhile isSpace, isSpace c = true := fun c hc => mem_takeWhile_true hc
    have hg : ∀ c ∈ (t.dropWhile Char.isDigit).head?, ¬c.isDigit = true := by
      intro c hc
      have := List.head?_dropWhile_not Char.isDigit t
      rw [Option.mem_def] at hc
      rw [hc] at this
      simpa using this
    have hds : ∀ c ∈ t.takeWhile Char.isDigit, c.isDigit = true := fun c hc => mem_takeWhile_true hc
    rcases h2 with ⟨rfl, h2⟩ | ⟨rfl, h2⟩ | ⟨rfl, h2⟩
    · simp only [strtol, h2] at hd ⊢
      have hne : t.takeWhile Char.isDigit ≠ [] := by simpa using hd
      have := LooseExponentText.mk _ _ _ _ hw (.unsigned _ hne hds) hg
      rw [List.nil_append] at hs
      rw [← hs] at this
      simpa [decimal_eq] using this
    · simp only [strtol, h2] at hd ⊢
      have hne : t.takeWhile Char.isDigit ≠ [] := by simpa using hd
      have := LooseExponentText.mk _ _ _ _ hw (.positive _ hne hds) hg
      rw [List.cons_append, List.nil_append] at hs
      rw [← hs] at this
      simpa [decimal_eq] using this
    · simp only [strtol, h2] at hd ⊢
      have hne : t.takeWhile Char.isDigit ≠ [] := by simpa using hd
      have := LooseExponentText.mk _ _ _ _ hw (.negative _ hne hds) hg
      rw [List.cons_append, List.nil_append] at hs
      rw [← hs] at this
      simpa [decimal_eq] using this
  · exact absurd h (by simp)

/-! ## Factors, products and quotients -/

variable {π : K}

theorem known_of_parse {s : List Char} {q : Quantity K} (h : parseUnit π s = some q) (hs : s ≠ []) : Known π s ∧ unitMeaning π s = q :=
  ⟨⟨hs, by simp [h]⟩, by simp [unitMeaning, h]⟩

theorem parseExponentiation_sound {s : List Char} {q : Quantity K} (h : parseExponentiationUnit π s = some q) (hs : s ≠ []) :
    ∃ f, ExponentiationText LooseExponentText (Known π) f s ∧ q = f.meaning (unitMeaning π) := by
  unfold parseExponentiationUnit at h
  split at h
  · obtain ⟨h1, h2⟩ := known_of_parse h hs
    exact ⟨(s, none), .unit _ h1, h2.symm⟩
  · rename_i caret hc
    split at h
    · rename_i first last hf hl
      split at h
      · rename_i left right hleft hright
        injection h with h
        subst h
        obtain ⟨a, b, rfl, rfl, _, ha⟩ := find_split hc
        by_cases h0 : a.length = 0
        · exfalso
          have : a = [] := List.length_eq_zero_iff.1 h0
          subst this
          have ht : (([] ++ '^' :: b).take (last + 1)) ≠ [] := by simp
          have := ((vocabulary π).token _ (known_of_parse hleft ht).1).notMem.2.1
          simp at this
        · obtain ⟨a', c, i, rfl, rfl, hc'⟩ := lastNotBlankBefore_split rfl h0 hl
          have e1 : (a' ++ c :: blanks i ++ '^' :: b).take (a'.length + 1) = a' ++ [c] := by
            have : a' ++ c :: blanks i ++ '^' :: b = (a' ++ [c]) ++ (blanks i ++ '^' :: b) := by simp
            rw [this, List.take_left' (by simp)]
          rw [e1] at hleft
          have hx : a' ++ c :: blanks i ++ '^' :: b = (a' ++ c :: blanks i ++ ['^']) ++ b := by simp
          rw [hx] at hf hright
          obtain ⟨j, d, b', rfl, rfl, hd⟩ := firstNotBlank_split (by simp; omega) hf
          have e2 : (a' ++ c :: blanks i ++ ['^'] ++ (blanks j ++ d :: b')).drop ((a' ++ c :: blanks i).length + 1 + j) = d :: b' := by
            rw [← List.append_assoc, List.drop_left' (by simp [blanks]; omega)]
          rw [e2] at hright
          obtain ⟨k1, k2⟩ := known_of_parse hleft (by simp)
          refine ⟨(a' ++ [c], some right), ?_, by rw [← k2]; rfl⟩
          have := ExponentiationText.power (exponentText := LooseExponentText) (known := Known π) (a' ++ [c]) i j right (d :: b') k1
            (parseExponent_sound hright)
          simpa using this
      · exact absurd h (by simp)
    · exact absurd h (by simp)

theorem separator_split {s : List Char} {n start : Nat} {f l : Option Nat} (h : separator s n start = some (f, l)) :
    ∃ a b, s = a ++ ' ' :: b ∧ f = findFirstNotBlank s (a.length + 1) ∧ l = findLastNotBlankBefore s a.length := by
  induction n generalizing start with
  | zero => simp [separator] at h
  | succ n ih =>
    rw [separator] at h
    split at h
    · exact absurd h (by simp)
    · rename_i p hp
      simp only at h
      split at h
      · obtain ⟨a, b, hs, rfl, _, _⟩ := find_split hp
        injection h with h
        injection h with h1 h2
        exact ⟨a, b, hs, h1.symm, h2.symm⟩
      · exact ih h

theorem parseProduct_sound (n : Nat) {s : List Char} {q : Quantity K} (h : parseProductUnit π n s = some q) (hs : ∃ c t, s = c :: t ∧ c ≠ ' ') :
    ∃ fs, ProductText LooseExponentText (Known π) fs s ∧ q = productMeaning (unitMeaning π) fs := by
  induction n generalizing s q with
  | zero => simp [parseProductUnit] at h
  | succ n ih =>
    rw [parseProductUnit] at h
    split at h
    · obtain ⟨c, t, rfl, _⟩ := hs
      obtain ⟨f, h1, h2⟩ := parseExponentiation_sound h (by simp)
      exact ⟨[f], .single _ _ h1, by rw [h2]; exact (mul_unity _).symm⟩
    · rename_i first last hsep
      obtain ⟨a, b, rfl, hf, hl⟩ := separator_split hsep
      split at h
      · rename_i left right hleft hright
        injection h with h
        subst h
        have ha : ∃ c t, a = c :: t ∧ c ≠ ' ' := by
          obtain ⟨c, t, h1, h2⟩ := hs
          cases a with
          | nil => injection h1 with h1; exact absurd h1.symm h2
          | cons c' a' => injection h1 with h1; exact ⟨c', a', rfl, by rw [h1]; exact h2⟩
        rw [Option.bind_eq_some_iff] at hright
        obtain ⟨p, hp, hright⟩ := hright
        rw [hp] at hf
        have hx : a ++ ' ' :: b = (a ++ [' ']) ++ b := by simp
        rw [hx] at hf
        obtain ⟨j, d, b', rfl, rfl, hd⟩ := firstNotBlank_split (by simp) hf.symm
        have e2 : (a ++ ' ' :: (blanks j ++ d :: b')).drop (a.length + 1 + j) = d :: b' := by
          have : a ++ ' ' :: (blanks j ++ d :: b') = (a ++ ' ' :: blanks j) ++ d :: b' := by simp
          rw [this, List.drop_left' (by simp [blanks]; omega)]
        rw [e2] at hright
        obtain ⟨fs, i1, i2⟩ := ih hright ⟨d, b', rfl, hd⟩
        have h0 : a.length ≠ 0 := by obtain ⟨c, t, rfl, _⟩ := ha; simp
        cases hlast : last with
        | none =>
          exfalso
          rw [hlast] at hl
          have hl := hl.symm
          unfold findLastNotBlankBefore findLastNotBlank at hl
          rw [if_neg h0, List.take_left' rfl, Option.map_eq_none_iff, List.findIdx?_eq_none_iff] at hl
          obtain ⟨c, t, rfl, hc⟩ := ha
          have := hl c (by simp)
          simp at this
          exact hc this
        | some p =>
          rw [hlast] at hl hleft
          obtain ⟨a', c, i, rfl, rfl, hc⟩ := lastNotBlankBefore_split rfl h0 hl.symm
          have e1 : (a' ++ c :: blanks i ++ ' ' :: (blanks j ++ d :: b')).take (a'.length + 1) = a' ++ [c] := by
            have : a' ++ c :: blanks i ++ ' ' :: (blanks j ++ d :: b') = (a' ++ [c]) ++ (blanks i ++ ' ' :: (blanks j ++ d :: b')) := by simp
            rw [this, List.take_left' (by simp)]
          simp only [e1] at hleft
          obtain ⟨f, f1, f2⟩ := parseExponentiation_sound hleft (by simp)
          refine ⟨f :: fs, ?_, by rw [unitMul_eq, f2, i2]; rfl⟩
          have := ProductText.product f _ (i + j) fs _ f1 i1
          have hb : blanks (i + j + 1) = blanks i ++ ' ' :: blanks j := by
            unfold blanks
            rw [← List.replicate_succ, ← List.replicate_add]
            congr 1
          rw [hb] at this
          simpa using this
      · exact absurd h (by simp)

theorem parseQuotient_sound (n : Nat) {s : List Char} {q : Quantity K} (h : parseQuotientUnit π n s = some q) (hs : ∃ c t, s = c :: t ∧ c ≠ ' ') :
    ∃ ns ds, QuotientText LooseExponentText (Known π) ns ds s ∧ q = quotientMeaning (unitMeaning π) ns ds := by
  induction n generalizing s q with
  | zero => simp [parseQuotientUnit] at h
  | succ n ih =>
    rw [parseQuotientUnit] at h
    split at h
    · obtain ⟨fs, h1, h2⟩ := parseProduct_sound _ h hs
      exact ⟨fs, [], .product _ _ h1, by rw [h2]; exact (div_unity _).symm⟩
    · rename_i slash hslash
      obtain ⟨a, b, rfl, rfl⟩ := rfind_split hslash
      split at h
      · exact absurd h (by simp)
      · rename_i first hf
        simp only at h
        split at h
        · rename_i left right hleft hright
          injection h with h
          subst h
          have hx : a ++ '/' :: b = (a ++ ['/']) ++ b := by simp
          rw [hx] at hf
          obtain ⟨j, d, b', rfl, rfl, hd⟩ := firstNotBlank_split (by simp) hf
          have e2 : (a ++ '/' :: (blanks j ++ d :: b')).drop (a.length + 1 + j) = d :: b' := by
            have : a ++ '/' :: (blanks j ++ d :: b') = (a ++ '/' :: blanks j) ++ d :: b' := by simp
            rw [this, List.drop_left' (by simp [blanks]; omega)]
          rw [e2] at hright
          obtain ⟨f, f1, f2⟩ := parseExponentiation_sound hright (by simp)
          by_cases h0 : a.length = 0
          · have : a = [] := List.length_eq_zero_iff.1 h0
            subst this
            simp only [List.length_nil, if_true] at hleft
            injection hleft with hleft
            refine ⟨[], [f], .inverse j f _ f1, ?_⟩
            rw [← hleft, unitDiv_eq, f2]
            simp only [quotientMeaning, productMeaning, List.foldr_cons, List.foldr_nil, mul_unity]
            rfl
          · have ha : ∃ c t, a = c :: t ∧ c ≠ ' ' := by
              obtain ⟨c, t, h1, h2⟩ := hs
              cases a with
              | nil => exact absurd rfl h0
              | cons c' a' => injection h1 with h1; exact ⟨c', a', rfl, by rw [h1]; exact h2⟩
            rw [if_neg h0] at hleft
            cases hl : findLastNotBlankBefore (a ++ '/' :: (blanks j ++ d :: b')) a.length with
            | none =>
              exfalso
              unfold findLastNotBlankBefore findLastNotBlank at hl
              rw [if_neg h0, List.take_left' rfl, Option.map_eq_none_iff, List.findIdx?_eq_none_iff] at hl
              obtain ⟨c, t, rfl, hc⟩ := ha
              have := hl c (by simp)
              simp at this
              exact hc this
            | some p =>
              rw [hl] at hleft
              obtain ⟨a', c, i, rfl, rfl, hc⟩ := lastNotBlankBefore_split rfl h0 hl
              have e1 : (a' ++ c :: blanks i ++ '/' :: (blanks j ++ d :: b')).take (a'.length + 1) = a' ++ [c] := by
                have : a' ++ c :: blanks i ++ '/' :: (blanks j ++ d :: b') = (a' ++ [c]) ++ (blanks i ++ '/' :: (blanks j ++ d :: b')) := by simp
                rw [this, List.take_left' (by simp)]
              simp only [e1] at hleft
              have hh : ∃ c' t, a' ++ [c] = c' :: t ∧ c' ≠ ' ' := by
                obtain ⟨c', t, h1, h2⟩ := ha
                cases a' with
                | nil => exact ⟨c, [], rfl, hc⟩
                | cons c'' a'' => injection h1 with h1; exact ⟨c'', a'' ++ [c], rfl, by rw [h1]; exact h2⟩
              obtain ⟨ns, ds, i1, i2⟩ := ih hleft hh
              refine ⟨ns, ds ++ [f], ?_, ?_⟩
              · have := QuotientText.quotient ns ds _ i j f _ i1 f1
                simpa using this
              · rw [unitDiv_eq, i2, f2]
                simp only [quotientMeaning, productMeaning_append, div_div]
        · exact absurd h (by simp)

/-- C54: a text that is accepted consists of a number and of the text of a unit, which has the documented grammar, except for the exponents (see
`C54_exponent_counterexample`).  The dimensions of the unit are the expected ones, and the result has the value that follows from the rules of algebra. -/
theorem C54_accepts_partial (π : K) (strtod : List Char → K × Nat) (d : Dimensions) (s : List Char) (q : Quantity K)
    (hn : (strtod s).2 ≤ s.length) (h : parseQuantity π strtod d s = some q) :
    0 < (strtod s).2 ∧ ∃ i j text, s = s.take (strtod s).2 ++ blanks i ++ text ++ blanks j ∧
      ((text = [] ∧ d = ⟨0, 0, 0, 0, 0, 0, 0, 0⟩ ∧ q = ⟨d, (strtod s).1⟩) ∨
      ∃ ns ds, QuotientText LooseExponentText (Known π) ns ds text ∧ d = (quotientMeaning (unitMeaning π) ns ds).dimensions ∧
        q = ⟨d, (strtod s).1 * (quotientMeaning (unitMeaning π) ns ds).magnitude⟩) := by
  unfold parseQuantity at h
  simp only at h
  generalize hx : strtod s = x at *
  obtain ⟨x, n⟩ := x
  simp only at h hn ⊢
  split at h
  · exact absurd h (by simp)
  · rename_i h0
    refine ⟨by omega, ?_⟩
    have hsplit : s = s.take n ++ s.drop n := (List.take_append_drop n s).symm
    have hlen : (s.take n).length = n := by simp; omega
    cases hf : findFirstNotBlank s n with
    | none =>
      simp only [hf] at h
      have hb : s.drop n = blanks (s.drop n).length := by
        apply all_blanks
        unfold findFirstNotBlank at hf
        rw [Option.map_eq_none_iff, List.findIdx?_eq_none_iff] at hf
        exact hf
      refine ⟨(s.drop n).length, 0, [], by conv => { lhs; rw [hsplit, hb] }; simp [blanks], .inl ⟨rfl, ?_⟩⟩
      have h1 : parseQuotientUnit π (([] : List Char).length + 1) [] = some (one : Quantity K) := by
        simp only [List.length_nil, Nat.zero_add, parseQuotientUnit, rfind, List.reverse_nil, List.findIdx?_nil, Option.map_none]
        rfl
      rw [h1] at h
      simp only [one, Dimensions.none, mul_one] at h
      split at h
      · rename_i hd
        injection h with h
        exact ⟨hd, h.symm⟩
      · exact absurd h (by simp)
    | some first =>
      rw [hsplit] at hf
      obtain ⟨i, c, b, hb, rfl, hc⟩ := firstNotBlank_split hlen hf
      rw [← hsplit] at hf
      cases hl : findLastNotBlank s with
      | none =>
        exfalso
        unfold findLastNotBlank at hl
        rw [Option.map_eq_none_iff, List.findIdx?_eq_none_iff] at hl
        have := hl c (by rw [List.mem_reverse, hsplit, hb]; simp)
        simp at this
        exact hc this
      | some last =>
        obtain ⟨a, e, j, ha, rfl, he⟩ := lastNotBlank_split hl
        simp only [hf, hl] at h
        have hs' : s = s.take n ++ blanks i ++ c :: b := by
          conv => lhs; rw [hsplit, hb]
          simp
        -- The last character of the unit.
        have htext : ∃ t, c :: b = t ++ blanks j ∧ (c :: b).take (a.length - (n + i) + 1) = t ∧ t ≠ [] := by
          have l1 : s.length = n + i + (b.length + 1) := by
            have := congrArg List.length hs'
            simp only [List.length_append, List.length_cons, hlen] at this
            simpa [blanks] using this
          have l2 : s.length = a.length + (j + 1) := by
            have := congrArg List.length ha
            simpa [blanks] using this
          have l3 : n + i ≤ a.length := by
            by_contra hlt
            have g : s[n + i]? = some c := by
              rw [hs', List.getElem?_append_right (by simp [blanks])]
              simp [blanks, hlen]
            rw [ha, List.getElem?_append_right (by omega)] at g
            obtain ⟨m, hm⟩ : ∃ m, n + i - a.length = m + 1 := ⟨n + i - a.length - 1, by omega⟩
            rw [hm] at g
            simp only [List.getElem?_cons_succ, blanks, List.getElem?_replicate] at g
            split at g
            · injection g with g; exact hc g.symm
            · exact absurd g (by simp)
          have hd : s.drop (n + i) = c :: b := by
            conv => lhs; rw [hs']
            rw [List.drop_left' (by simp [blanks]; omega)]
          have hd' : s.drop (n + i) = (a ++ [e]).drop (n + i) ++ blanks j := by
            conv => lhs; rw [ha]
            have : a ++ e :: blanks j = (a ++ [e]) ++ blanks j := by simp
            rw [this, List.drop_append_of_le_length (by simp; omega)]
          refine ⟨(a ++ [e]).drop (n + i), by rw [← hd, hd'], ?_, ?_⟩
          · rw [← hd, hd', List.take_left' (by simp; omega)]
          · intro hnil
            have := congrArg List.length hnil
            simp at this
            omega
        obtain ⟨t, t1, t2, t3⟩ := htext
        have hdrop : s.drop (n + i) = c :: b := by
          conv => lhs; rw [hs']
          rw [List.drop_left' (by simp [blanks]; omega)]
        rw [hdrop, t2] at h
        refine ⟨i, j, t, by conv => { lhs; rw [hs', t1] }; simp, .inr ?_⟩
        split at h
        · exact absurd h (by simp)
        · rename_i unit hu
          have hh : ∃ c' t', t = c' :: t' ∧ c' ≠ ' ' := by
            cases t with
            | nil => exact absurd rfl t3
            | cons c' t' => injection t1 with t1; exact ⟨c', t', rfl, by rw [← t1]; exact hc⟩
          obtain ⟨ns, ds, u1, rfl⟩ := parseQuotient_sound _ hu hh
          split at h
          · rename_i hd
            injection h with h
            exact ⟨ns, ds, u1, hd, h.symm⟩
          · exact absurd h (by simp)

end Principia.Quantities.Parser
