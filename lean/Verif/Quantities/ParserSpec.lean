import Verif.Quantities.ParserModel

/-!
The grammar documented in quantities/parser.hpp:10-17, and the meaning of its sentences.
-/

namespace Principia.Quantities.Parser

variable {K : Type} [Field K]

/-- Blanks are allowed between the tokens. -/
def blanks (n : Nat) : List Char := List.replicate n ' '

/-- The value of decimal digits. -/
def value : List Char → Nat
  | [] => 0
  | c :: s => (c.toNat - '0'.toNat) * 10 ^ s.length + value s

/-- `exponent ⩴ signed_integer`. -/
inductive ExponentText : Int → List Char → Prop
  | unsigned (s : List Char) : s ≠ [] → (∀ c ∈ s, c.isDigit) → ExponentText (value s) s
  | positive (s : List Char) : s ≠ [] → (∀ c ∈ s, c.isDigit) → ExponentText (value s) ('+' :: s)
  | negative (s : List Char) : s ≠ [] → (∀ c ∈ s, c.isDigit) → ExponentText (-value s) ('-' :: s)

/-- The exponents that are actually accepted: they may follow any white space, may be followed by any text, and are converted to an `int`. -/
inductive LooseExponentText : Int → List Char → Prop
  | mk (w s g : List Char) (n : Int) : (∀ c ∈ w, isSpace c) → ExponentText n s → (∀ c ∈ g.head?, ¬c.isDigit) →
      LooseExponentText (toInt32 (max (-2 ^ 63) (min (2 ^ 63 - 1) n))) (w ++ s ++ g)

/-- A unit with an optional exponent. -/
abbrev Factor := List Char × Option Int

/-- `exponentiation_unit ⩴ unit [^ exponent]`.  The parameters are the texts of the exponents and
the names of the units. -/
inductive ExponentiationText (exponentText : Int → List Char → Prop) (known : List Char → Prop) : Factor → List Char → Prop
  | unit (name : List Char) : known name → ExponentiationText exponentText known (name, none) name
  | power (name : List Char) (i j : Nat) (exponent : Int) (s : List Char) : known name → exponentText exponent s →
      ExponentiationText exponentText known (name, some exponent) (name ++ blanks i ++ '^' :: (blanks j ++ s))

/-- `product_unit ⩴ exponentiation_unit [product_unit]`. -/
inductive ProductText (exponentText : Int → List Char → Prop) (known : List Char → Prop) : List Factor → List Char → Prop
  | single (f : Factor) (s : List Char) : ExponentiationText exponentText known f s → ProductText exponentText known [f] s
  | product (f : Factor) (s : List Char) (k : Nat) (fs : List Factor) (t : List Char) : ExponentiationText exponentText known f s → ProductText exponentText known fs t →
      ProductText exponentText known (f :: fs) (s ++ blanks (k + 1) ++ t)

/-- `quotient_unit ⩴ quotient_unit / exponentiation_unit | / exponentiation_unit | product_unit`, with the numerators and the denominators. -/
inductive QuotientText (exponentText : Int → List Char → Prop) (known : List Char → Prop) : List Factor → List Factor → List Char → Prop
  | quotient (ns ds : List Factor) (s : List Char) (i j : Nat) (f : Factor) (t : List Char) : QuotientText exponentText known ns ds s →
      ExponentiationText exponentText known f t → QuotientText exponentText known ns (ds ++ [f]) (s ++ blanks i ++ '/' :: (blanks j ++ t))
  | inverse (j : Nat) (f : Factor) (t : List Char) : ExponentiationText exponentText known f t → QuotientText exponentText known [] [f] ('/' :: (blanks j ++ t))
  | product (ns : List Factor) (s : List Char) : ProductText exponentText known ns s → QuotientText exponentText known ns [] s

/-- The number 1. -/
def unity : Quantity K := ⟨⟨0, 0, 0, 0, 0, 0, 0, 0⟩, 1⟩

/-- The meaning of a unit with an optional exponent, given the meanings of the units. -/
def Factor.meaning (unit : List Char → Quantity K) : Factor → Quantity K
  | (name, none) => unit name
  | (name, some exponent) => (unit name).pow exponent

/-- The product of the factors. -/
def productMeaning (unit : List Char → Quantity K) (fs : List Factor) : Quantity K := fs.foldr (fun f q => (f.meaning unit).mul q) unity

/-- The quotient of the numerators by the denominators. -/
def quotientMeaning (unit : List Char → Quantity K) (ns ds : List Factor) : Quantity K := (productMeaning unit ns).div (productMeaning unit ds)

/-- The exponents fit in an `int`. -/
def Factor.fits : Factor → Prop
  | (_, none) => True
  | (_, some exponent) => -2 ^ 31 ≤ exponent ∧ exponent < 2 ^ 31

end Principia.Quantities.Parser
