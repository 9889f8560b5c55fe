import Verif.Quantities.ParserProps

/-!
C54: parsing of formatted dimensions, and the table of units.
-/

set_option linter.unusedSimpArgs false
set_option linter.unusedVariables false
set_option linter.unusedSectionVars false

namespace Principia.Quantities.Parser

variable {K : Type} [Field K]

theorem value_toDigits (n : Nat) : value (Nat.toDigits 10 n) = n := by
  rw [← decimal_eq]
  exact Nat.ofDigitChars_ten_toDigits

theorem intToString_text (n : Int) : ExponentText n (intToString n) := by
  unfold intToString
  have h1 : Nat.toDigits 10 n.natAbs ≠ [] := Nat.toDigits_ne_nil
  have h2 : ∀ c ∈ Nat.toDigits 10 n.natAbs, c.isDigit = true := fun c hc => Nat.isDigit_of_mem_toDigits (by decide) (by decide) hc
  split
  · have := ExponentText.negative _ h1 h2
    rw [value_toDigits] at this
    rwa [show -(n.natAbs : Int) = n by omega] at this
  · have := ExponentText.unsigned _ h1 h2
    rw [value_toDigits] at this
    rwa [show (n.natAbs : Int) = n by omega] at this

/-- The factors of a list of units and exponents. -/
def factors : List (List Char × Int) → List Factor
  | [] => []
  | (name, e) :: l => if e = 0 then factors l else if e = 1 then (name, none) :: factors l else (name, some e) :: factors l

variable {π : K} {known : List Char → Prop} {unit : List Char → Quantity K}

theorem format_text (l : List (List Char × Int)) (h : ∀ u ∈ l, u.2 ≠ 0 → known u.1) :
    (factors l = [] ∧ l.flatMap (fun u => formatUnit u.1 u.2) = []) ∨
    ∃ t, ProductText ExponentText known (factors l) t ∧ l.flatMap (fun u => formatUnit u.1 u.2) = ' ' :: t := by
  induction l with
  | nil => exact .inl ⟨rfl, rfl⟩
  | cons u l ih =>
    obtain ⟨name, e⟩ := u
    have ih := ih fun u hu => h u (by simp [hu])
    by_cases h0 : e = 0
    · subst h0
      simpa [factors, formatUnit] using ih
    · right
      have hk := h (name, e) (by simp) h0
      have : ∃ f s, ExponentiationText ExponentText known f s ∧ formatUnit name e = ' ' :: s ∧ factors ((name, e) :: l) = f :: factors l := by
        by_cases h1 : e = 1
        · subst h1
          exact ⟨(name, none), name, .unit _ hk, by simp [formatUnit], by simp [factors]⟩
        · refine ⟨(name, some e), name ++ '^' :: intToString e, ?_, by simp [formatUnit, h0, h1], by simp [factors, h0, h1]⟩
          have := ExponentiationText.power name 0 0 e _ hk (intToString_text e)
          simpa [blanks] using this
      obtain ⟨f, s, h1, h2, h3⟩ := this
      rw [List.flatMap_cons, h2, h3]
      rcases ih with ⟨i1, i2⟩ | ⟨t, i1, i2⟩
      · rw [i1, i2, List.append_nil]
        exact ⟨s, .single _ _ h1, rfl⟩
      · rw [i2]
        refine ⟨s ++ blanks (0 + 1) ++ t, .product _ _ 0 _ _ h1 i1, ?_⟩
        simp [blanks]

theorem pow_zero' (q : Quantity K) : q.pow 0 = unity := by
  ext <;> simp [Quantity.pow, unity, Dimensions.exponentiation]

theorem unity_mul (q : Quantity K) : unity.mul q = q := by
  ext <;> simp [Quantity.mul, unity, Dimensions.product]

theorem pow_one' (q : Quantity K) : q.pow 1 = q := by
  ext <;> simp [Quantity.pow, Dimensions.exponentiation]

theorem factors_meaning (l : List (List Char × Int)) :
    productMeaning unit (factors l) = l.foldr (fun u q => ((unit u.1).pow u.2).mul q) unity := by
  induction l with
  | nil => rfl
  | cons u l ih =>
    obtain ⟨name, e⟩ := u
    rw [List.foldr_cons, ← ih, factors]
    split
    · rename_i h; subst h; simp only [pow_zero', unity_mul]
    · split
      · rename_i h; subst h; simp only [pow_one']; rfl
      · rfl

theorem factors_fit (l : List (List Char × Int)) (h : ∀ u ∈ l, -2 ^ 31 ≤ u.2 ∧ u.2 < 2 ^ 31) : ∀ f ∈ factors l, f.fits := by
  induction l with
  | nil => simp [factors]
  | cons u l ih =>
    obtain ⟨name, e⟩ := u
    have ih := ih fun u hu => h u (by simp [hu])
    unfold factors
    split
    · exact ih
    · split
      · intro f hf
        rcases List.mem_cons.1 hf with rfl | hf
        · trivial
        · exact ih f hf
      · intro f hf
        rcases List.mem_cons.1 hf with rfl | hf
        · exact h (name, e) (by simp)
        · exact ih f hf

/-- The units of the international system in the table. -/
theorem parse_si (π : K) : parseUnit π ['m'] = some ⟨⟨1, 0, 0, 0, 0, 0, 0, 0⟩, 1⟩ ∧ parseUnit π ['k', 'g'] = some ⟨⟨0, 1, 0, 0, 0, 0, 0, 0⟩, 1⟩ ∧
    parseUnit π ['s'] = some ⟨⟨0, 0, 1, 0, 0, 0, 0, 0⟩, 1⟩ ∧ parseUnit π ['r', 'a', 'd'] = some ⟨⟨0, 0, 0, 0, 0, 0, 0, 1⟩, 1⟩ := by
  refine ⟨?_, ?_, ?_, ?_⟩ <;> simp [parseUnit, units, L, M, T, A]

/-- C54: the dimensions formatted for display are parsed as the unit of the international system with these dimensions; this is so only if the
dimensions are combinations of length, mass, time and angle, because the other base units cannot be parsed. -/
theorem C54_format (π : K) (strtod : List Char → K × Nat) (number : List Char) (x : K) (d : Dimensions) (h0 : number ≠ [])
    (hd : d.current = 0 ∧ d.temperature = 0 ∧ d.amount = 0 ∧ d.luminousIntensity = 0)
    (hr : ∀ e ∈ [d.length, d.mass, d.time, d.angle], -2 ^ 31 ≤ e ∧ e < 2 ^ 31)
    (hs : strtod (number ++ ' ' :: format d) = (x, number.length)) :
    parseQuantity π strtod d (number ++ ' ' :: format d) = some ⟨d, x⟩ := by
  have V := vocabulary π
  obtain ⟨p1, p2, p3, p4⟩ := parse_si π
  let l : List (List Char × Int) := [(['m'], d.length), (['k', 'g'], d.mass), (['s'], d.time), (['r', 'a', 'd'], d.angle)]
  have hf : format d = (l.flatMap fun u => formatUnit u.1 u.2).drop 1 := by
    simp [format, l, hd, formatUnit]
  have hk : ∀ u ∈ l, Known π u.1 := by
    intro u hu
    simp only [l, List.mem_cons, List.not_mem_nil, or_false] at hu
    rcases hu with rfl | rfl | rfl | rfl
    · exact ⟨by simp, by simp [p1]⟩
    · exact ⟨by simp, by simp [p2]⟩
    · exact ⟨by simp, by simp [p3]⟩
    · exact ⟨by simp, by simp [p4]⟩
  have hm : productMeaning (unitMeaning π) (factors l) = ⟨d, 1⟩ := by
    rw [factors_meaning]
    simp only [l, List.foldr_cons, List.foldr_nil, unitMeaning, p1, p2, p3, p4, Option.getD_some]
    ext <;> simp [Quantity.mul, Quantity.pow, unity, Dimensions.product, Dimensions.exponentiation, hd]
  rcases format_text l fun u hu _ => hk u hu with ⟨f1, f2⟩ | ⟨t, f1, f2⟩
  · rw [f1] at hm
    rw [hf, f2] at hs ⊢
    have hd0 : d = ⟨0, 0, 0, 0, 0, 0, 0, 0⟩ := (congrArg Quantity.dimensions hm).symm
    have := C54_number π strtod number x 1 d h0 (by simpa [blanks] using hs)
    rw [if_pos hd0] at this
    simpa [blanks] using this
  · rw [f2] at hf
    rw [show (' ' :: t).drop 1 = t from rfl] at hf
    rw [hf] at hs ⊢
    have := C54_parses π strtod number x 1 0 (factors l) [] t d h0 (.product _ _ f1)
      (by
        rw [List.append_nil]
        apply factors_fit
        intro u hu
        simp only [l, List.mem_cons, List.not_mem_nil, or_false] at hu
        rcases hu with rfl | rfl | rfl | rfl <;> exact hr _ (by simp))
      (by simpa [blanks] using hs)
    have hq : quotientMeaning (unitMeaning π) (factors l) [] = ⟨d, 1⟩ := by
      unfold quotientMeaning
      rw [hm]
      exact div_unity _
    rw [hq, if_pos rfl, mul_one] at this
    simpa [blanks] using this

/-- A gravitational parameter. -/
example : format ⟨3, 0, -2, 0, 0, 0, 0, 0⟩ = ['m', '^', '3', ' ', 's', '^', '-', '2'] := by decide +kernel

/-- C54: the units that are defined from other ones have the right dimensions and values: the prefixes are powers of 10, minutes, hours and days
are multiples of the second, a watt is a kg m^2 / s^3, a steradian is a rad^2, and 180 degrees are π radians. -/
theorem C54_units [CharZero K] (π : K) :
    let u := unitMeaning π
    let times (k : K) (q : Quantity K) : Quantity K := ⟨q.dimensions, k * q.magnitude⟩
    u ['k', 'm'] = times 1000 (u ['m']) ∧ times 100 (u ['c', 'm']) = u ['m'] ∧ times 1000 (u ['m', 'm']) = u ['m'] ∧
    times 1000 (u ['μ', 'm']) = u ['m', 'm'] ∧ times 10000 (u ['Å']) = u ['μ', 'm'] ∧ u ['a', 'u'] = times 149597870700 (u ['m']) ∧
    times 1000 (u ['m', 's']) = u ['s'] ∧ u ['m', 'i', 'n'] = times 60 (u ['s']) ∧ u ['h'] = times 60 (u ['m', 'i', 'n']) ∧
    u ['d'] = times 24 (u ['h']) ∧
    u ['W'] = quotientMeaning u [(['k', 'g'], none), (['m'], some 2)] [(['s'], some 3)] ∧
    (u ['G', 'M', '☉']).dimensions = (quotientMeaning u [(['m'], some 3)] [(['s'], some 2)]).dimensions ∧
    (u ['G', 'M', '🜨']).dimensions = (quotientMeaning u [(['m'], some 3)] [(['s'], some 2)]).dimensions ∧
    u ['s', 'r'] = productMeaning u [(['r', 'a', 'd'], some 2)] ∧ times 180 (u ['d', 'e', 'g']) = times π (u ['r', 'a', 'd']) ∧
    u ['°'] = u ['d', 'e', 'g'] := by
  intro u times
  have e : ∀ s, u s = (parseUnit π s).getD unity := fun s => rfl
  refine ⟨?_, ?_, ?_, ?_, ?_, ?_, ?_, ?_, ?_, ?_, ?_, ?_, ?_, ?_, ?_, ?_⟩ <;>
    simp [e, times, parseUnit, units, L, M, T, A, quotientMeaning, productMeaning, Factor.meaning, Quantity.mul, Quantity.div, Quantity.pow, unity,
      Dimensions.product, Dimensions.quotient, Dimensions.exponentiation] <;> norm_num
  field_simp

end Principia.Quantities.Parser
