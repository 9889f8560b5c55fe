import Verif.Quantities.ParserSpec
import Verif.Quantities.DimensionsProps

/-!
C54: parsing of quantities.
-/

set_option linter.unusedSimpArgs false
set_option linter.unusedVariables false
set_option linter.unusedSectionVars false

namespace Principia.Quantities.Parser

variable {K : Type} [Field K]

/-! ## Searches -/

theorem findIdx_first {α : Type} {p : α → Bool} {a : List α} {x : α} (b : List α) (h : ∀ y ∈ a, p y = false) (hx : p x = true) :
    (a ++ x :: b).findIdx? p = some a.length := by
  induction a with
  | nil => simp [List.findIdx?_cons, hx]
  | cons y a ih =>
    have h1 := h y (by simp)
    simp [List.findIdx?_cons, h1, ih fun z hz => h z (by simp [hz])]

theorem findIdx_none {α : Type} {p : α → Bool} {a : List α} (h : ∀ y ∈ a, p y = false) : a.findIdx? p = none := by
  rw [List.findIdx?_eq_none_iff]; exact h

theorem find_some {c : Char} (pre a b : List Char) (h : c ∉ a) : find c (pre ++ (a ++ c :: b)) pre.length = some (pre.length + a.length) := by
  unfold find
  rw [List.drop_left, findIdx_first]
  · rfl
  · intro y hy; simp; rintro rfl; exact h hy
  · simp

theorem find_zero {c : Char} (a b : List Char) (h : c ∉ a) : find c (a ++ c :: b) 0 = some a.length := by
  have := find_some [] a b h
  simpa using this

theorem find_none {c : Char} (pre a : List Char) (h : c ∉ a) : find c (pre ++ a) pre.length = none := by
  unfold find
  rw [List.drop_left, findIdx_none]
  · rfl
  · intro y hy; simp; rintro rfl; exact h hy

theorem rfind_some {c : Char} (a b : List Char) (h : c ∉ b) : rfind c (a ++ c :: b) = some a.length := by
  unfold rfind
  have : (a ++ c :: b).reverse = b.reverse ++ c :: a.reverse := by simp
  rw [this, findIdx_first]
  · simp
  · intro y hy; simp; rintro rfl; exact h (List.mem_reverse.1 hy)
  · simp

theorem rfind_none {c : Char} (a : List Char) (h : c ∉ a) : rfind c a = none := by
  unfold rfind
  rw [findIdx_none]
  · rfl
  · intro y hy; simp; rintro rfl; exact h (List.mem_reverse.1 hy)

theorem firstNotBlank (pre : List Char) (k : Nat) (c : Char) (b : List Char) (h : c ≠ ' ') :
    findFirstNotBlank (pre ++ (blanks k ++ c :: b)) pre.length = some (pre.length + k) := by
  unfold findFirstNotBlank
  rw [List.drop_left, findIdx_first]
  · simp [blanks]
  · intro y hy; simp [blanks] at hy; simp [hy.2]
  · simpa using h

theorem lastNotBlank (a : List Char) (c : Char) (k : Nat) (h : c ≠ ' ') : findLastNotBlank (a ++ c :: blanks k) = some a.length := by
  unfold findLastNotBlank
  have : (a ++ c :: blanks k).reverse = blanks k ++ c :: a.reverse := by simp [blanks]
  rw [this, findIdx_first]
  · simp [blanks]
  · intro y hy; simp [blanks] at hy; simp [hy.2]
  · simpa using h

theorem lastNotBlankBefore (a : List Char) (c : Char) (k : Nat) (b : List Char) (h : c ≠ ' ') :
    findLastNotBlankBefore (a ++ c :: (blanks k ++ b)) (a.length + 1 + k) = some a.length := by
  unfold findLastNotBlankBefore
  rw [if_neg (by omega)]
  have : (a ++ c :: (blanks k ++ b)).take (a.length + 1 + k) = a ++ c :: blanks k := by
    have h1 : a ++ c :: (blanks k ++ b) = (a ++ c :: blanks k) ++ b := by simp
    rw [h1, List.take_left' (by simp [blanks]; omega)]
  rw [this, lastNotBlank _ _ _ h]

/-! ## The separator of factors -/

theorem separator_shift (pre mid post : List Char) (n : Nat) (h : ' ' ∉ mid) :
    separator (pre ++ (mid ++ post)) n pre.length = separator (pre ++ (mid ++ post)) n (pre.length + mid.length) := by
  cases n with
  | zero => rfl
  | succ n =>
    have : find ' ' (pre ++ (mid ++ post)) pre.length = find ' ' (pre ++ (mid ++ post)) (pre.length + mid.length) := by
      unfold find
      rw [List.drop_left, ← List.length_append, ← List.append_assoc, List.drop_left, List.findIdx?_append, findIdx_none]
      · simp only [Option.none_or, Option.map_map, List.length_append]
        congr 1
        funext k
        simp; omega
      · intro y hy; simp; rintro rfl; exact h hy
    unfold separator
    rw [this]

theorem separator_end (pre post : List Char) (n : Nat) (h : ' ' ∉ post) : separator (pre ++ post) n pre.length = none := by
  cases n with
  | zero => rfl
  | succ n => unfold separator; rw [find_none _ _ h]

theorem separator_step (a : List Char) (d c : Char) (l m : Nat) (b : List Char) (n : Nat) (hd : d ≠ ' ') (hc : c ≠ ' ') :
    separator (a ++ d :: (blanks (l + 1 + m) ++ c :: b)) (n + 1) (a.length + 1 + l) =
      if c ≠ '^' ∧ d ≠ '^' then some (some (a.length + 1 + (l + 1 + m)), some a.length)
      else separator (a ++ d :: (blanks (l + 1 + m) ++ c :: b)) n (a.length + 1 + l + 1) := by
  have hb : blanks (l + 1 + m) = blanks l ++ ' ' :: blanks m := by
    unfold blanks
    rw [← List.replicate_succ, ← List.replicate_add]
    congr 1; omega
  have e1 : find ' ' (a ++ d :: (blanks (l + 1 + m) ++ c :: b)) (a.length + 1 + l) = some (a.length + 1 + l) := by
    have := find_some (c := ' ') (a ++ d :: blanks l) [] (blanks m ++ c :: b) (by simp)
    simp only [List.nil_append, List.length_append, List.length_cons, List.length_nil, Nat.add_zero] at this
    have hl : (blanks l).length = l := by simp [blanks]
    rw [hl] at this
    rw [hb]
    simpa [Nat.add_assoc, Nat.add_comm, Nat.add_left_comm] using this
  have e2 : findFirstNotBlank (a ++ d :: (blanks (l + 1 + m) ++ c :: b)) (a.length + 1 + l + 1) = some (a.length + 1 + (l + 1 + m)) := by
    have := firstNotBlank (a ++ d :: (blanks l ++ [' '])) m c b hc
    have hl : (a ++ d :: (blanks l ++ [' '])).length = a.length + 1 + l + 1 := by simp [blanks]; omega
    rw [hl] at this
    rw [hb]
    have h2 : a.length + 1 + (l + 1 + m) = a.length + 1 + l + 1 + m := by omega
    rw [h2]
    simpa using this
  have e3 : findLastNotBlankBefore (a ++ d :: (blanks (l + 1 + m) ++ c :: b)) (a.length + 1 + l) = some a.length := by
    have := lastNotBlankBefore a d l (' ' :: blanks m ++ c :: b) hd
    rw [hb]
    simpa using this
  have g1 : (a ++ d :: (blanks (l + 1 + m) ++ c :: b))[a.length + 1 + (l + 1 + m)]? = some c := by
    have h1 : a ++ d :: (blanks (l + 1 + m) ++ c :: b) = (a ++ d :: blanks (l + 1 + m)) ++ c :: b := by simp
    have h2 : a.length + 1 + (l + 1 + m) = (a ++ d :: blanks (l + 1 + m)).length := by simp [blanks]; omega
    rw [h1, h2, List.getElem?_append_right (Nat.le_refl _)]
    simp
  have g2 : (a ++ d :: (blanks (l + 1 + m) ++ c :: b))[a.length]? = some d := by
    rw [List.getElem?_append_right (Nat.le_refl _)]
    simp
  rw [separator, e1]
  simp only [e2, e3, Option.bind_some, g1, g2, reduceCtorEq, false_or, ne_eq, Option.some.injEq]

/-- Blanks next to a caret are not separators. -/
theorem separator_skip (a : List Char) (d c : Char) (k : Nat) (b : List Char) (n : Nat) (hd : d ≠ ' ') (hc : c ≠ ' ') (h : c = '^' ∨ d = '^') :
    separator (a ++ d :: (blanks k ++ c :: b)) (n + k) (a.length + 1) = separator (a ++ d :: (blanks k ++ c :: b)) n (a.length + 1 + k) := by
  have : ∀ l m, k = l + m → separator (a ++ d :: (blanks k ++ c :: b)) (n + m) (a.length + 1 + l) =
      separator (a ++ d :: (blanks k ++ c :: b)) n (a.length + 1 + k) := by
    intro l m
    induction m generalizing l with
    | zero => rintro rfl; rfl
    | succ m ih =>
      intro hk
      have hk' : k = l + 1 + m := by omega
      have := separator_step a d c l m b (n + m) hd hc
      rw [← hk', if_neg (by rintro ⟨h1, h2⟩; rcases h with h | h <;> contradiction)] at this
      rw [← Nat.add_assoc, this]
      exact ih (l + 1) hk'
  exact this 0 k (by omega)

/-- Other blanks are. -/
theorem separator_found (a : List Char) (d c : Char) (k : Nat) (b : List Char) (n : Nat) (hd : d ≠ ' ' ∧ d ≠ '^') (hc : c ≠ ' ' ∧ c ≠ '^') :
    separator (a ++ d :: (blanks (k + 1) ++ c :: b)) (n + 1) (a.length + 1) = some (some (a.length + 1 + (k + 1)), some a.length) := by
  have := separator_step a d c 0 k b n hd.1 hc.1
  rw [if_pos ⟨hc.2, hd.2⟩] at this
  simpa [Nat.add_comm] using this

/-! ## Characters -/

/-- The characters of names and numbers. -/
def Clean (c : Char) : Prop := c ≠ ' ' ∧ c ≠ '^' ∧ c ≠ '/'

/-- A name or a number. -/
def Token (s : List Char) : Prop := s ≠ [] ∧ ∀ c ∈ s, Clean c

theorem Token.notMem {s : List Char} (h : Token s) : ' ' ∉ s ∧ '^' ∉ s ∧ '/' ∉ s :=
  ⟨fun hm => (h.2 _ hm).1 rfl, fun hm => (h.2 _ hm).2.1 rfl, fun hm => (h.2 _ hm).2.2 rfl⟩

theorem Token.last {s : List Char} (h : Token s) : ∃ a d, s = a ++ [d] ∧ Clean d ∧ ∀ c ∈ a, Clean c := by
  obtain ⟨h1, h2⟩ := h
  refine ⟨s.dropLast, s.getLast h1, (List.dropLast_append_getLast h1).symm, h2 _ (List.getLast_mem h1), fun c hc => h2 c (List.dropLast_subset s hc)⟩

theorem Token.head {s : List Char} (h : Token s) : ∃ c a, s = c :: a ∧ Clean c := by
  obtain ⟨h1, h2⟩ := h
  cases s with
  | nil => exact absurd rfl h1
  | cons c a => exact ⟨c, a, rfl, h2 c (by simp)⟩

theorem digit_clean {c : Char} (h : c.isDigit = true) : Clean c ∧ c ≠ '+' ∧ c ≠ '-' ∧ isSpace c = false := by
  simp only [Char.isDigit, Bool.and_eq_true, decide_eq_true_eq, ge_iff_le] at h
  have aux : ∀ d : Char, (d.val < 48 ∨ 57 < d.val) → c ≠ d := by
    rintro d hd rfl
    rcases hd with hd | hd
    · exact absurd h.1 (by simpa using hd)
    · exact absurd h.2 (by simpa using hd)
  refine ⟨⟨aux _ (by decide), aux _ (by decide), aux _ (by decide)⟩, aux _ (by decide), aux _ (by decide), ?_⟩
  simp only [isSpace, Bool.or_eq_false_iff, beq_eq_false_iff_ne, ne_eq]
  exact ⟨⟨⟨⟨⟨aux _ (by decide), aux _ (by decide)⟩, aux _ (by decide)⟩, aux _ (by decide)⟩, aux _ (by decide)⟩, aux _ (by decide)⟩

theorem ExponentText.token {n : Int} {s : List Char} (h : ExponentText n s) : Token s := by
  cases h with
  | unsigned s h1 h2 => exact ⟨h1, fun c hc => (digit_clean (h2 c hc)).1⟩
  | positive s h1 h2 =>
    refine ⟨by simp, fun c hc => ?_⟩
    rcases List.mem_cons.1 hc with rfl | hc
    · unfold Clean; decide
    · exact (digit_clean (h2 c hc)).1
  | negative s h1 h2 =>
    refine ⟨by simp, fun c hc => ?_⟩
    rcases List.mem_cons.1 hc with rfl | hc
    · unfold Clean; decide
    · exact (digit_clean (h2 c hc)).1

/-! ## Exponents -/

theorem decimal_eq (s : List Char) : decimal s = value s := by
  have : ∀ (s : List Char) (n : Nat), s.foldl (fun n c => 10 * n + (c.toNat - '0'.toNat)) n = n * 10 ^ s.length + value s := by
    intro s
    induction s with
    | nil => intro n; simp [value]
    | cons c s ih =>
      intro n
      rw [List.foldl_cons, ih, value, List.length_cons, Nat.pow_succ]
      ring
  unfold decimal
  rw [this]; simp

theorem takeWhile_all {α : Type} {p : α → Bool} {s : List α} (h : ∀ c ∈ s, p c = true) : s.takeWhile p = s := by
  induction s with
  | nil => rfl
  | cons c s ih => rw [List.takeWhile_cons, if_pos (h c (by simp)), ih fun d hd => h d (by simp [hd])]

theorem parseExponent_text {n : Int} {s : List Char} (h : ExponentText n s) (hn : -2 ^ 31 ≤ n ∧ n < 2 ^ 31) : parseExponent s = some n := by
  have fin : ∀ n : Int, -2 ^ 31 ≤ n → n < 2 ^ 31 → toInt32 (max (-2 ^ 63) (min (2 ^ 63 - 1) n)) = n := by
    intro n h1 h2
    have : max (-2 ^ 63) (min (2 ^ 63 - 1) n) = n := by omega
    rw [this]
    unfold toInt32
    rw [BitVec.toInt_ofInt, Int.bmod_def]
    omega
  have main : ∀ (s : List Char) (t : Bool × List Char), sign (s.dropWhile isSpace) = t → t.2 ≠ [] → (∀ c ∈ t.2, c.isDigit = true) →
      ∀ n : Int, n = (if t.1 then -(value t.2 : Int) else value t.2) → -2 ^ 31 ≤ n → n < 2 ^ 31 → parseExponent s = some n := by
    intro s t h1 h2 h3 n h4 h5 h6
    simp only [parseExponent, strtol, h1, takeWhile_all h3, decimal_eq, ← h4, fin n h5 h6]
    simp [h2]
  cases h with
  | unsigned s h1 h2 =>
    obtain ⟨c, t, rfl⟩ := List.exists_cons_of_ne_nil h1
    have hc := digit_clean (h2 c (by simp))
    refine main _ (false, c :: t) ?_ h1 h2 _ (by simp) hn.1 hn.2
    rw [List.dropWhile_cons, if_neg (by simp [hc.2.2.2])]
    unfold sign
    split
    · rename_i heq; injection heq with heq; exact absurd heq hc.2.2.1
    · rename_i heq; injection heq with heq; exact absurd heq hc.2.1
    · rfl
  | positive s h1 h2 =>
    refine main _ (false, s) ?_ h1 h2 _ (by simp) hn.1 hn.2
    rw [List.dropWhile_cons, if_neg (by decide)]
    rfl
  | negative s h1 h2 =>
    refine main _ (true, s) ?_ h1 h2 _ (by simp) hn.1 hn.2
    rw [List.dropWhile_cons, if_neg (by decide)]
    rfl

/-! ## Factors -/

/-- The text of a factor: a token, or two tokens separated by a caret. -/
inductive Shape : List Char → Prop
  | unit (a : List Char) : Token a → Shape a
  | power (a b : List Char) (i j : Nat) : Token a → Token b → Shape (a ++ blanks i ++ '^' :: (blanks j ++ b))

theorem Shape.noSlash {s : List Char} (h : Shape s) : '/' ∉ s := by
  cases h with
  | unit a h => exact h.notMem.2.2
  | power a b i j h1 h2 => simp [h1.notMem, h2.notMem, blanks]

theorem Shape.head {s : List Char} (h : Shape s) : ∃ c a, s = c :: a ∧ Clean c := by
  cases h with
  | unit a h => exact h.head
  | power a b i j h1 h2 =>
    obtain ⟨c, a, rfl, h⟩ := h1.head
    exact ⟨c, _, rfl, h⟩

theorem Shape.last {s : List Char} (h : Shape s) : ∃ a d, s = a ++ [d] ∧ Clean d := by
  cases h with
  | unit a h => obtain ⟨a, d, rfl, h1, h2⟩ := h.last; exact ⟨a, d, rfl, h1⟩
  | power a b i j h1 h2 =>
    obtain ⟨b, d, rfl, h3, h4⟩ := h2.last
    exact ⟨a ++ blanks i ++ '^' :: (blanks j ++ b), d, by simp, h3⟩

/-- A separator is only found at the end of a factor. -/
theorem Shape.separator {s : List Char} (h : Shape s) (u : List Char) (n : Nat) (hn : s.length ≤ n) :
    ∃ m, n - s.length ≤ m ∧ Parser.separator (s ++ u) n 0 = Parser.separator (s ++ u) m s.length := by
  cases h with
  | unit a h =>
    refine ⟨n, by omega, ?_⟩
    have := separator_shift [] s u n h.notMem.1
    simpa using this
  | power a b i j h1 h2 =>
    obtain ⟨a, d, rfl, hd, ha⟩ := h1.last
    obtain ⟨c, b, rfl, hc⟩ := h2.head
    have hl : (a ++ [d] ++ blanks i ++ '^' :: (blanks j ++ c :: b)).length = a.length + 1 + i + 1 + j + (b.length + 1) := by simp [blanks]; omega
    rw [hl] at hn ⊢
    refine ⟨n - i - j, by omega, ?_⟩
    have s1 := separator_shift [] (a ++ [d]) (blanks i ++ '^' :: (blanks j ++ c :: b) ++ u) n h1.notMem.1
    have s2 := separator_skip a d '^' i (blanks j ++ c :: b ++ u) (n - i) hd.1 (by decide) (.inl rfl)
    have s3 := separator_shift (a ++ [d] ++ blanks i) ['^'] (blanks j ++ c :: b ++ u) (n - i) (by decide)
    have s4 := separator_skip (a ++ [d] ++ blanks i) '^' c j (b ++ u) (n - i - j) (by decide) hc.1 (.inr rfl)
    have s5 := separator_shift (a ++ [d] ++ blanks i ++ '^' :: blanks j) (c :: b) u (n - i - j) h2.notMem.1
    simp only [List.append_assoc, List.nil_append, List.cons_append, List.length_append, List.length_cons, List.length_nil, blanks,
      List.length_replicate, Nat.zero_add, Nat.sub_add_cancel (show i ≤ n by omega), Nat.sub_add_cancel (show j ≤ n - i by omega)] at *
    have k : ∀ {S : List Char} {m p q : Nat}, p = q → Parser.separator S m p = Parser.separator S m q := by rintro S m p q rfl; rfl
    exact s1.trans (s2.trans ((k (by omega)).trans (s3.trans (s4.trans ((k (by omega)).trans (s5.trans (k (by omega))))))))

theorem Shape.separator_none {s : List Char} (h : Shape s) (n : Nat) (hn : s.length ≤ n) : Parser.separator s n 0 = none := by
  obtain ⟨m, _, hm⟩ := h.separator [] n hn
  rw [List.append_nil] at hm
  rw [hm]
  have := separator_end s [] m (by simp)
  simpa using this

theorem Shape.separator_some {s : List Char} (h : Shape s) (k : Nat) (c : Char) (b : List Char) (hc : Clean c) (n : Nat) (hn : s.length < n) :
    Parser.separator (s ++ (blanks (k + 1) ++ c :: b)) n 0 = some (some (s.length + (k + 1)), some (s.length - 1)) := by
  obtain ⟨m, h1, hm⟩ := h.separator (blanks (k + 1) ++ c :: b) n (by omega)
  rw [hm]
  obtain ⟨a, d, rfl, hd⟩ := h.last
  obtain ⟨m, rfl⟩ : ∃ m', m = m' + 1 := ⟨m - 1, by omega⟩
  have := separator_found a d c k b m ⟨hd.1, hd.2.1⟩ ⟨hc.1, hc.2.1⟩
  simpa using this

/-- The names that are used, and their meanings. -/
structure Vocabulary (π : K) (known : List Char → Prop) (unit : List Char → Quantity K) : Prop where
  token : ∀ name, known name → Token name
  parse : ∀ name, known name → parseUnit π name = some (unit name)

variable {π : K} {known : List Char → Prop} {unit : List Char → Quantity K}

theorem ExponentiationText.shape (V : Vocabulary π known unit) {f : Factor} {s : List Char} (h : ExponentiationText ExponentText known f s) : Shape s := by
  cases h with
  | unit name h => exact .unit _ (V.token _ h)
  | power name i j n t h1 h2 => exact .power _ _ _ _ (V.token _ h1) h2.token

theorem parseExponentiation_text (V : Vocabulary π known unit) {f : Factor} {s : List Char} (h : ExponentiationText ExponentText known f s) (hf : f.fits) :
    parseExponentiationUnit π s = some (f.meaning unit) := by
  cases h with
  | unit name h =>
    unfold parseExponentiationUnit
    have : find '^' s 0 = none := by
      have := find_none [] s (V.token _ h).notMem.2.1
      simpa using this
    rw [this]
    exact V.parse _ h
  | power name i j n t h1 h2 =>
    obtain ⟨a, d, rfl, hd, ha⟩ := (V.token _ h1).last
    obtain ⟨c, b, rfl, hc⟩ := h2.token.head
    have e1 : find '^' (a ++ [d] ++ blanks i ++ '^' :: (blanks j ++ c :: b)) 0 = some (a.length + 1 + i) := by
      rw [find_zero]
      · simp [blanks]; omega
      · have := (V.token _ h1).notMem.2.1
        simp only [List.mem_append, not_or]
        refine ⟨by simpa using this, by simp [blanks]⟩
    have e2 : findFirstNotBlank (a ++ [d] ++ blanks i ++ '^' :: (blanks j ++ c :: b)) (a.length + 1 + i + 1) = some (a.length + 1 + i + 1 + j) := by
      have := firstNotBlank (a ++ [d] ++ blanks i ++ ['^']) j c b hc.1
      have hl : (a ++ [d] ++ blanks i ++ ['^']).length = a.length + 1 + i + 1 := by simp [blanks]; omega
      rw [hl] at this
      simpa using this
    have e3 : findLastNotBlankBefore (a ++ [d] ++ blanks i ++ '^' :: (blanks j ++ c :: b)) (a.length + 1 + i) = some a.length := by
      have := lastNotBlankBefore a d i ('^' :: (blanks j ++ c :: b)) hd.1
      simpa using this
    have e4 : (a ++ [d] ++ blanks i ++ '^' :: (blanks j ++ c :: b)).take (a.length + 1) = a ++ [d] := by
      rw [List.append_assoc, List.take_left' (by simp)]
    have e5 : (a ++ [d] ++ blanks i ++ '^' :: (blanks j ++ c :: b)).drop (a.length + 1 + i + 1 + j) = c :: b := by
      have : a ++ [d] ++ blanks i ++ '^' :: (blanks j ++ c :: b) = (a ++ [d] ++ blanks i ++ '^' :: blanks j) ++ c :: b := by simp
      rw [this, List.drop_left' (by simp [blanks]; omega)]
    unfold parseExponentiationUnit
    rw [e1]
    simp only [e2, e3, e4, e5, V.parse _ h1, parseExponent_text h2 hf]
    rfl

/-! ## Products -/

theorem ProductText.noSlash (V : Vocabulary π known unit) {fs : List Factor} {s : List Char} (h : ProductText ExponentText known fs s) : '/' ∉ s := by
  induction h with
  | single f s h => exact (h.shape V).noSlash
  | product f s k fs t h1 h2 ih => simp [(h1.shape V).noSlash, ih, blanks]

theorem ProductText.head (V : Vocabulary π known unit) {fs : List Factor} {s : List Char} (h : ProductText ExponentText known fs s) :
    ∃ c a, s = c :: a ∧ Clean c := by
  cases h with
  | single f s h => exact (h.shape V).head
  | product f s k fs t h1 h2 =>
    obtain ⟨c, a, rfl, h⟩ := (h1.shape V).head
    exact ⟨c, _, rfl, h⟩

theorem ProductText.last (V : Vocabulary π known unit) {fs : List Factor} {s : List Char} (h : ProductText ExponentText known fs s) :
    ∃ a d, s = a ++ [d] ∧ Clean d := by
  induction h with
  | single f s h => exact (h.shape V).last
  | product f s k fs t h1 h2 ih =>
    obtain ⟨a, d, rfl, h⟩ := ih
    exact ⟨s ++ blanks (k + 1) ++ a, d, by simp, h⟩

theorem unitMul_eq (l r : Quantity K) : unitMul l r = l.mul r := rfl

theorem unitDiv_eq (l r : Quantity K) : unitDiv l r = l.div r := rfl

theorem mul_unity (q : Quantity K) : q.mul unity = q := by
  ext <;> simp [Quantity.mul, unity, Dimensions.product]

theorem parseProduct_text (V : Vocabulary π known unit) {fs : List Factor} {s : List Char} (h : ProductText ExponentText known fs s) (hf : ∀ f ∈ fs, f.fits)
    (n : Nat) (hn : s.length < n) : parseProductUnit π n s = some (productMeaning unit fs) := by
  induction h generalizing n with
  | single f s h =>
    obtain ⟨n, rfl⟩ : ∃ n', n = n' + 1 := ⟨n - 1, by omega⟩
    rw [parseProductUnit, (h.shape V).separator_none _ (by omega)]
    simp only [parseExponentiation_text V h (hf f (by simp))]
    simp [productMeaning, mul_unity]
  | product f s k fs t h1 h2 ih =>
    obtain ⟨n, rfl⟩ : ∃ n', n = n' + 1 := ⟨n - 1, by omega⟩
    have iht := ih (fun f hf' => hf f (by simp [hf'])) n (by simp [blanks] at hn; omega)
    obtain ⟨c, b, rfl, hc⟩ := h2.head V
    rw [List.append_assoc] at hn ⊢
    rw [parseProductUnit, (h1.shape V).separator_some k c b hc _ (by simp; omega)]
    have e1 : (s ++ (blanks (k + 1) ++ c :: b)).take (s.length - 1 + 1) = s := by
      have : s.length ≠ 0 := by
        obtain ⟨a, d, rfl, _⟩ := (h1.shape V).last
        simp
      rw [Nat.sub_add_cancel (by omega), List.take_left' rfl]
    have e2 : (s ++ (blanks (k + 1) ++ c :: b)).drop (s.length + (k + 1)) = c :: b := by
      rw [← List.append_assoc, List.drop_left' (by simp [blanks])]
    simp only [e1, e2, Option.bind_some, iht, parseExponentiation_text V h1 (hf f (by simp)), unitMul_eq]
    rfl

/-! ## Quotients -/

theorem QuotientText.last (V : Vocabulary π known unit) {ns ds : List Factor} {s : List Char} (h : QuotientText ExponentText known ns ds s) :
    ∃ a d, s = a ++ [d] ∧ Clean d := by
  cases h with
  | quotient ns ds s i j f t h1 h2 =>
    obtain ⟨a, d, rfl, h⟩ := (h2.shape V).last
    exact ⟨s ++ blanks i ++ '/' :: (blanks j ++ a), d, by simp, h⟩
  | inverse j f t h =>
    obtain ⟨a, d, rfl, hd⟩ := (h.shape V).last
    exact ⟨'/' :: (blanks j ++ a), d, by simp, hd⟩
  | product ns s h => exact h.last V

theorem QuotientText.head (V : Vocabulary π known unit) {ns ds : List Factor} {s : List Char} (h : QuotientText ExponentText known ns ds s) :
    ∃ c a, s = c :: a ∧ c ≠ ' ' := by
  induction h with
  | quotient ns ds s i j f t h1 h2 ih =>
    obtain ⟨c, a, rfl, h⟩ := ih
    exact ⟨c, _, rfl, h⟩
  | inverse j f t h => exact ⟨'/', _, rfl, by decide⟩
  | product ns s h =>
    obtain ⟨c, a, rfl, hc⟩ := h.head V
    exact ⟨c, a, rfl, hc.1⟩

theorem div_div (a b c : Quantity K) : (a.div b).div c = a.div (b.mul c) := by
  ext <;> simp [Quantity.mul, Quantity.div, Dimensions.product, Dimensions.quotient, _root_.div_div] <;> omega

theorem div_unity (q : Quantity K) : q.div unity = q := by
  ext <;> simp [Quantity.div, unity, Dimensions.quotient]

theorem mul_assoc' (a b c : Quantity K) : (a.mul b).mul c = a.mul (b.mul c) := by
  ext <;> simp [Quantity.mul, Dimensions.product, mul_assoc, Int.add_assoc]

theorem productMeaning_append (fs : List Factor) (f : Factor) : productMeaning unit (fs ++ [f]) = (productMeaning unit fs).mul (f.meaning unit) := by
  induction fs with
  | nil =>
    ext <;> simp [productMeaning, Quantity.mul, unity, Dimensions.product]
  | cons g fs ih =>
    have : productMeaning unit (g :: fs ++ [f]) = (g.meaning unit).mul (productMeaning unit (fs ++ [f])) := rfl
    rw [this, ih, ← mul_assoc']
    rfl

theorem parseQuotient_text (V : Vocabulary π known unit) {ns ds : List Factor} {s : List Char} (h : QuotientText ExponentText known ns ds s)
    (hn' : ∀ f ∈ ns, f.fits) (hd' : ∀ f ∈ ds, f.fits) (n : Nat) (hn : s.length < n) :
    parseQuotientUnit π n s = some (quotientMeaning unit ns ds) := by
  induction h generalizing n with
  | product ns s h =>
    obtain ⟨n, rfl⟩ : ∃ n', n = n' + 1 := ⟨n - 1, by omega⟩
    rw [parseQuotientUnit, rfind_none _ (h.noSlash V)]
    simp only [parseProduct_text V h hn' _ (Nat.lt_succ_self _)]
    exact congrArg some (div_unity _).symm
  | inverse j f t h =>
    obtain ⟨n, rfl⟩ : ∃ n', n = n' + 1 := ⟨n - 1, by omega⟩
    have e1 : rfind '/' ('/' :: (blanks j ++ t)) = some 0 := by
      have := rfind_some (c := '/') [] (blanks j ++ t) (by simp [(h.shape V).noSlash, blanks])
      simpa using this
    obtain ⟨c, b, rfl, hc⟩ := (h.shape V).head
    have e2 : findFirstNotBlank ('/' :: (blanks j ++ c :: b)) (0 + 1) = some (1 + j) := by
      have := firstNotBlank ['/'] j c b hc.1
      simpa using this
    have e3 : ('/' :: (blanks j ++ c :: b)).drop (1 + j) = c :: b := by
      have : '/' :: (blanks j ++ c :: b) = ('/' :: blanks j) ++ c :: b := by simp
      rw [this, List.drop_left' (by simp [blanks]; omega)]
    rw [parseQuotientUnit, e1]
    simp only [e2, e3, if_true, parseExponentiation_text V h (hd' f (by simp)), unitDiv_eq]
    simp only [quotientMeaning, productMeaning, List.foldr_cons, List.foldr_nil, mul_unity]
    rfl
  | quotient ns ds s i j f t h1 h2 ih =>
    obtain ⟨n, rfl⟩ : ∃ n', n = n' + 1 := ⟨n - 1, by omega⟩
    have iht := ih hn' (fun f hf => hd' f (by simp [hf])) n (by simp [blanks] at hn; omega)
    have e1 : rfind '/' (s ++ blanks i ++ '/' :: (blanks j ++ t)) = some (s.length + i) := by
      rw [rfind_some _ _ (by simp [(h2.shape V).noSlash, blanks])]
      simp [blanks]
    obtain ⟨a, d, rfl, hd⟩ := h1.last V
    obtain ⟨c, b, rfl, hc⟩ := (h2.shape V).head
    have e2 : findFirstNotBlank (a ++ [d] ++ blanks i ++ '/' :: (blanks j ++ c :: b)) ((a ++ [d]).length + i + 1) =
        some (a.length + 1 + i + 1 + j) := by
      have := firstNotBlank (a ++ [d] ++ blanks i ++ ['/']) j c b hc.1
      have hl : (a ++ [d] ++ blanks i ++ ['/']).length = a.length + 1 + i + 1 := by simp [blanks]; omega
      rw [hl] at this
      simpa using this
    have e3 : (a ++ [d] ++ blanks i ++ '/' :: (blanks j ++ c :: b)).drop (a.length + 1 + i + 1 + j) = c :: b := by
      have : a ++ [d] ++ blanks i ++ '/' :: (blanks j ++ c :: b) = (a ++ [d] ++ blanks i ++ '/' :: blanks j) ++ c :: b := by simp
      rw [this, List.drop_left' (by simp [blanks]; omega)]
    have e4 : findLastNotBlankBefore (a ++ [d] ++ blanks i ++ '/' :: (blanks j ++ c :: b)) ((a ++ [d]).length + i) = some a.length := by
      have := lastNotBlankBefore a d i ('/' :: (blanks j ++ c :: b)) hd.1
      simpa using this
    have e5 : (a ++ [d] ++ blanks i ++ '/' :: (blanks j ++ c :: b)).take (a.length + 1) = a ++ [d] := by
      rw [List.append_assoc, List.take_left' (by simp)]
    rw [parseQuotientUnit, e1]
    simp only [e2, e3, if_neg (show ¬((a ++ [d]).length + i = 0) by simp), e4, e5, iht, parseExponentiation_text V h2 (hd' f (by simp)), unitDiv_eq]
    simp only [quotientMeaning, productMeaning_append, div_div]

/-! ## The properties -/

/-- The names of the units: those of the table, except for the empty one. -/
def Known (π : K) (name : List Char) : Prop := name ≠ [] ∧ (parseUnit π name).isSome

/-- The meaning of a unit. -/
def unitMeaning (π : K) (name : List Char) : Quantity K := (parseUnit π name).getD unity

theorem vocabulary (π : K) : Vocabulary π (Known π) (unitMeaning π) := by
  constructor
  · rintro name ⟨h1, h2⟩
    refine ⟨h1, ?_⟩
    unfold parseUnit at h2
    rw [Option.isSome_map, List.find?_isSome] at h2
    obtain ⟨u, hu, he⟩ := h2
    have hn : u.1 ∈ (units π).map (·.1) := List.mem_map.2 ⟨u, hu, rfl⟩
    have he : u.1 = name := by simpa using he
    subst he
    have all : ∀ s ∈ (units (0 : ℚ)).map (·.1), ∀ c ∈ s, c ≠ ' ' ∧ c ≠ '^' ∧ c ≠ '/' := by decide +kernel
    exact all _ hn
  · rintro name ⟨h1, h2⟩
    obtain ⟨q, hq⟩ := Option.isSome_iff_exists.1 h2
    simp [unitMeaning, hq]

/-- C54: every text of the documented grammar, with any numbers of blanks between the tokens, is parsed, and the result has the dimensions and the
value that follow from the rules of algebra.  A text without units is parsed as a number. -/
theorem C54_parses (π : K) (strtod : List Char → K × Nat) (number : List Char) (x : K) (i j : Nat) (ns ds : List Factor) (text : List Char)
    (d : Dimensions) (h0 : number ≠ []) (ht : QuotientText ExponentText (Known π) ns ds text) (hf : ∀ f ∈ ns ++ ds, f.fits)
    (hs : strtod (number ++ blanks i ++ text ++ blanks j) = (x, number.length)) :
    parseQuantity π strtod d (number ++ blanks i ++ text ++ blanks j) =
      if d = (quotientMeaning (unitMeaning π) ns ds).dimensions then some ⟨d, x * (quotientMeaning (unitMeaning π) ns ds).magnitude⟩ else none := by
  have V := vocabulary π
  have hq := parseQuotient_text V ht (fun f h => hf f (by simp [h])) (fun f h => hf f (by simp [h])) _ (Nat.lt_succ_self _)
  have e : findFirstNotBlank (number ++ blanks i ++ text ++ blanks j) number.length = some (number.length + i) := by
    obtain ⟨c, b, rfl, hc⟩ := ht.head V
    have := firstNotBlank number i c (b ++ blanks j) hc
    simpa using this
  have e' : ∃ a d, text = a ++ [d] ∧ findLastNotBlank (number ++ blanks i ++ text ++ blanks j) = some (number.length + i + a.length) := by
    obtain ⟨a, d, rfl, hd⟩ := ht.last V
    refine ⟨a, d, rfl, ?_⟩
    have := lastNotBlank (number ++ blanks i ++ a) d j hd.1
    rw [List.length_append, List.length_append] at this
    simpa [blanks] using this
  obtain ⟨a, c, ha, e'⟩ := e'
  have hl : text.length = a.length + 1 := by rw [ha]; simp
  have e2 : ((number ++ blanks i ++ text ++ blanks j).drop (number.length + i)).take (number.length + i + a.length - (number.length + i) + 1) = text := by
    rw [List.append_assoc, List.drop_left' (by simp [blanks]), List.take_left' (by omega)]
  unfold parseQuantity
  simp only [hs, e, e', e2, hq]
  have : number.length ≠ 0 := by simpa using h0
  rw [if_neg this]

/-- C54: a number without units is parsed as such. -/
theorem C54_number (π : K) (strtod : List Char → K × Nat) (number : List Char) (x : K) (j : Nat) (d : Dimensions) (h0 : number ≠ [])
    (hs : strtod (number ++ blanks j) = (x, number.length)) :
    parseQuantity π strtod d (number ++ blanks j) = if d = ⟨0, 0, 0, 0, 0, 0, 0, 0⟩ then some ⟨d, x⟩ else none := by
  have e : findFirstNotBlank (number ++ blanks j) number.length = none := by
    unfold findFirstNotBlank
    rw [List.drop_left, findIdx_none]
    · rfl
    · intro y hy; simp [blanks] at hy; simp [hy.2]
  have h1 : parseQuotientUnit π 1 [] = some (one : Quantity K) := by
    simp only [parseQuotientUnit, rfind, List.reverse_nil, List.findIdx?_nil, Option.map_none]
    rfl
  have : number.length ≠ 0 := by simpa using h0
  unfold parseQuantity
  simp only [hs, e, if_neg this, List.length_nil, Nat.zero_add, h1, one, Dimensions.none, mul_one]

theorem parse_metres (π : K) (s : List Char) (n : Int) (h1 : rfind '/' s = none) (h2 : separator s (s.length + 1) 0 = none)
    (h3 : find '^' s 0 = some 1) (h4 : findFirstNotBlank s 2 = some 2) (h5 : findLastNotBlankBefore s 1 = some 0) (h6 : s.take 1 = ['m'])
    (h7 : parseExponent (s.drop 2) = some n) (fuel : Nat) :
    parseQuotientUnit π (fuel + 1) s = (parseUnit π ['m']).map fun q => unitPow q n := by
  rw [parseQuotientUnit, h1]
  simp only
  rw [parseProductUnit, h2]
  simp only
  rw [parseExponentiationUnit, h3]
  simp only [h4, h5, h6, h7]
  cases parseUnit π ['m'] <;> rfl

theorem parse_metre (π : K) : parseUnit π ['m'] = some ⟨L, 1⟩ := by
  simp [parseUnit, units]

/-- C54: the texts "m^2kg", "m^2^3", "m^2.5" and "m^4294967298" are all parsed as "m^2": the exponent may be followed by arbitrary text, which is
ignored, and it is truncated to 32 bits. -/
theorem C54_exponent_counterexample (π : K) :
    ∀ s ∈ [['m', '^', '2', 'k', 'g'], ['m', '^', '2', '^', '3'], ['m', '^', '2', '.', '5'], ['m', '^', '4', '2', '9', '4', '9', '6', '7', '2', '9', '8'],
      ['m', '^', '2']], parseQuotientUnit π (s.length + 1) s = some ⟨⟨2, 0, 0, 0, 0, 0, 0, 0⟩, 1⟩ := by
  intro s hs
  have h : parseQuotientUnit π (s.length + 1) s = (parseUnit π ['m']).map fun q => unitPow q 2 := by
    simp only [List.mem_cons, List.not_mem_nil, or_false] at hs
    rcases hs with rfl | rfl | rfl | rfl | rfl <;>
      exact parse_metres π _ 2 (by decide) (by decide) (by decide) (by decide) (by decide) (by decide) (by decide +kernel) _
  rw [h, parse_metre]
  simp [unitPow, L]

theorem known_of_mem (π : K) (u : List Char × Quantity K) (h : u ∈ units π) (h' : u.1 ≠ []) : Known π u.1 := by
  refine ⟨h', ?_⟩
  unfold parseUnit
  rw [Option.isSome_map, List.find?_isSome]
  exact ⟨u, h, by simp⟩

/-- The text "kg  m ^ 2/s^-2 /au". -/
example (π : K) : QuotientText ExponentText (Known π) [(['k', 'g'], none), (['m'], some 2)] [(['s'], some (-2)), (['a', 'u'], none)]
    ['k', 'g', ' ', ' ', 'm', ' ', '^', ' ', '2', '/', 's', '^', '-', '2', ' ', '/', 'a', 'u'] := by
  have k1 : Known π ['k', 'g'] := known_of_mem π (['k', 'g'], ⟨M, 1⟩) (by simp [units]) (by simp)
  have k2 : Known π ['m'] := known_of_mem π (['m'], ⟨L, 1⟩) (by simp [units]) (by simp)
  have k3 : Known π ['s'] := known_of_mem π (['s'], ⟨T, 1⟩) (by simp [units]) (by simp)
  have k4 : Known π ['a', 'u'] := known_of_mem π (['a', 'u'], ⟨L, 149597870700⟩) (by simp [units]) (by simp)
  have e1 : ExponentText 2 ['2'] := by
    have := ExponentText.unsigned ['2'] (by decide) (by decide)
    rwa [show value ['2'] = 2 by decide] at this
  have e2 : ExponentText (-2) ['-', '2'] := by
    have := ExponentText.negative ['2'] (by decide) (by decide)
    rwa [show value ['2'] = 2 by decide] at this
  exact .quotient _ [_] _ 1 0 _ _
    (.quotient _ [] _ 0 0 _ _
      (.product _ _ (.product _ _ 1 _ _ (.unit _ k1) (.single _ _ (.power _ 1 1 2 ['2'] k2 e1))))
      (.power _ 0 0 (-2) ['-', '2'] k3 e2))
    (.unit _ k4)

end Principia.Quantities.Parser
