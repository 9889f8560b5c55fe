import Verif.Quantities.DimensionsModel
import Mathlib.Algebra.GroupWithZero.Units.Basic
import Mathlib.Tactic.Ring
import Mathlib.Tactic.FieldSimp
import Mathlib.Algebra.Field.Rat

/-!
C43: dimensional analysis.
-/

set_option linter.unusedSimpArgs false
set_option linter.unusedVariables false
set_option linter.unusedSectionVars false

namespace Principia.Quantities

/-! ## Specification -/

/-- A change of the base units: the numbers of new units in the old ones. -/
structure Units (K : Type) [Field K] where
  length : K
  mass : K
  time : K
  current : K
  temperature : K
  amount : K
  luminousIntensity : K
  angle : K

/-- None of the ratios is zero. -/
def Units.Valid {K : Type} [Field K] (u : Units K) : Prop :=
  u.length ≠ 0 ∧ u.mass ≠ 0 ∧ u.time ≠ 0 ∧ u.current ≠ 0 ∧ u.temperature ≠ 0 ∧ u.amount ≠ 0 ∧ u.luminousIntensity ≠ 0 ∧ u.angle ≠ 0

/-- The ratio of the units of some dimensions. -/
def Units.factor {K : Type} [Field K] (u : Units K) (d : Dimensions) : K :=
  u.length ^ d.length * u.mass ^ d.mass * u.time ^ d.time * u.current ^ d.current * u.temperature ^ d.temperature * u.amount ^ d.amount *
    u.luminousIntensity ^ d.luminousIntensity * u.angle ^ d.angle

/-- The same quantity with other units. -/
def Quantity.express {K : Type} [Field K] (u : Units K) (q : Quantity K) : Quantity K := ⟨q.dimensions, q.magnitude * u.factor q.dimensions⟩

/-! ## Changes of units -/

section

variable {K : Type} [Field K]

theorem Units.Valid.factor_ne {u : Units K} (h : u.Valid) (d : Dimensions) : u.factor d ≠ 0 := by
  obtain ⟨h1, h2, h3, h4, h5, h6, h7, h8⟩ := h
  simp [Units.factor, zpow_ne_zero, h1, h2, h3, h4, h5, h6, h7, h8]

theorem Units.Valid.product {u : Units K} (h : u.Valid) (d e : Dimensions) : u.factor (d.product e) = u.factor d * u.factor e := by
  obtain ⟨h1, h2, h3, h4, h5, h6, h7, h8⟩ := h
  simp only [Units.factor, Dimensions.product, zpow_add₀ h1, zpow_add₀ h2, zpow_add₀ h3, zpow_add₀ h4, zpow_add₀ h5, zpow_add₀ h6, zpow_add₀ h7,
    zpow_add₀ h8]
  ring

theorem Units.Valid.quotient {u : Units K} (h : u.Valid) (d e : Dimensions) : u.factor (d.quotient e) = u.factor d / u.factor e := by
  rw [eq_div_iff (h.factor_ne e), ← h.product]
  congr 1
  ext <;> simp [Dimensions.product, Dimensions.quotient]

theorem Units.factor_exponentiation (u : Units K) (d : Dimensions) (n : Int) : u.factor (d.exponentiation n) = u.factor d ^ n := by
  simp only [Units.factor, Dimensions.exponentiation, zpow_mul, mul_zpow]

/-- C43: the result of an operation on quantities does not depend on the units in which the magnitudes are expressed; in other words, the
dimensions of the result of an operation are right.  Additions and subtractions do not compile unless the dimensions are the same. -/
theorem C43_units (u : Units K) (hu : u.Valid) (l r : Quantity K) (n : Int) :
    (l.express u).mul (r.express u) = (l.mul r).express u ∧ (l.express u).div (r.express u) = (l.div r).express u ∧
    (l.express u).pow n = (l.pow n).express u ∧ (l.express u).neg = l.neg.express u ∧
    (l.express u).add (r.express u) = (l.add r).map (·.express u) ∧ (l.express u).sub (r.express u) = (l.sub r).map (·.express u) := by
  refine ⟨?_, ?_, ?_, ?_, ?_, ?_⟩
  · simp only [Quantity.mul, Quantity.express, hu.product, Quantity.mk.injEq, true_and]; ring
  · simp only [Quantity.div, Quantity.express, hu.quotient, Quantity.mk.injEq, true_and]; rw [mul_div_mul_comm]
  · simp only [Quantity.pow, Quantity.express, Units.factor_exponentiation, Quantity.mk.injEq, true_and, mul_zpow]
  · simp [Quantity.neg, Quantity.express]
  · unfold Quantity.add Quantity.express
    by_cases h : l.dimensions = r.dimensions
    · simp [h, add_mul]
    · simp [h]
  · unfold Quantity.sub Quantity.express
    by_cases h : l.dimensions = r.dimensions
    · simp [h, sub_mul]
    · simp [h]

/-- C43: additions and subtractions compile if, and only if, the dimensions are the same. -/
theorem C43_sums (l r : Quantity K) :
    ((l.add r).isSome ↔ l.dimensions = r.dimensions) ∧ ((l.sub r).isSome ↔ l.dimensions = r.dimensions) ∧
    (∀ q, l.add r = some q → q.dimensions = l.dimensions ∧ q.magnitude = l.magnitude + r.magnitude) ∧
    (∀ q, l.sub r = some q → q.dimensions = l.dimensions ∧ q.magnitude = l.magnitude - r.magnitude) := by
  unfold Quantity.add Quantity.sub
  by_cases h : l.dimensions = r.dimensions <;> simp [h]

/-- C43: the opposite of a quantity compensates it, and subtracting is adding the opposite. -/
theorem C43_opposite (l r : Quantity K) : l.add l.neg = some ⟨l.dimensions, 0⟩ ∧ l.sub r = l.add r.neg := by
  unfold Quantity.add Quantity.sub Quantity.neg
  simp [sub_eq_add_neg]

/-- A change to kilometres and minutes. -/
example : (⟨1 / 1000, 1, 1 / 60, 1, 1, 1, 1, 1⟩ : Units ℚ).Valid := by
  simp [Units.Valid]

end

/-! ## The group of dimensions -/

/-- C43: the dimensions form an abelian group; powers are those of that group. -/
theorem C43_group (a b c : Dimensions) (m n : Int) :
    (a.product b).product c = a.product (b.product c) ∧ a.product b = b.product a ∧ a.product .none = a ∧
    (a.quotient b).product b = a ∧ (Dimensions.none.quotient a).product a = .none ∧
    a.exponentiation 0 = .none ∧ a.exponentiation 1 = a ∧ a.exponentiation (m + n) = (a.exponentiation m).product (a.exponentiation n) := by
  refine ⟨?_, ?_, ?_, ?_, ?_, ?_, ?_, ?_⟩ <;> ext <;>
    simp [Dimensions.product, Dimensions.quotient, Dimensions.exponentiation, Dimensions.none, Int.mul_add] <;> omega

/-- C43: an `n`th root compiles if, and only if, there are dimensions whose `n`th power is the operand; they are then the dimensions of the result,
and there are no others. -/
theorem C43_roots (d r : Dimensions) (n : Int) (hn : n ≠ 0) : d.nthRoot n = some r ↔ r.exponentiation n = d := by
  unfold Dimensions.nthRoot
  rw [if_neg hn]
  constructor
  · intro h
    split at h
    · rename_i h'
      obtain ⟨h1, h2, h3, h4, h5, h6, h7, h8⟩ := h'
      injection h with h
      subst h
      ext <;> simp only [Dimensions.exponentiation]
      all_goals exact Int.tdiv_mul_cancel (Int.dvd_of_tmod_eq_zero (by assumption))
    · exact absurd h (by simp)
  · rintro rfl
    simp only [Dimensions.exponentiation, Int.mul_tmod_left, and_self, if_true, Int.mul_tdiv_cancel _ hn]

/-- An acceleration times a length is the square of a velocity. -/
example : (Dimensions.product ⟨1, 0, -2, 0, 0, 0, 0, 0⟩ ⟨1, 0, 0, 0, 0, 0, 0, 0⟩).nthRoot 2 = some ⟨1, 0, -1, 0, 0, 0, 0, 0⟩ := by decide

/-! ## Serialization -/

theorem exponent_bits {e : Int} (h : exponentIsSerializable e = true) : ∃ k : Fin 32, e = (k : Int) - 24 ∧
    BitVec.ofInt 64 e &&& 0x1F#64 = BitVec.ofInt 64 ((k : Int) - 24) &&& 0x1F#64 := by
  simp only [exponentIsSerializable, ge_iff_le, Bool.and_eq_true, decide_eq_true_eq] at h
  exact ⟨⟨(e + 24).toNat, by omega⟩, by simp; omega, by congr 2; simp; omega⟩

theorem exponent_inj {d e : Int} (hd : exponentIsSerializable d = true) (he : exponentIsSerializable e = true)
    (h : BitVec.ofInt 64 d &&& 0x1F#64 = BitVec.ofInt 64 e &&& 0x1F#64) : d = e := by
  obtain ⟨j, h1, h2⟩ := exponent_bits hd
  obtain ⟨k, h3, h4⟩ := exponent_bits he
  rw [h2, h4] at h
  have : ∀ j k : Fin 32, BitVec.ofInt 64 ((j : Int) - 24) &&& 0x1F#64 = BitVec.ofInt 64 ((k : Int) - 24) &&& 0x1F#64 → j = k := by
    decide +kernel
  rw [h1, h3, this j k h]

theorem low_bits (x : BitVec 64) (i : Nat) : (x &&& 0x1F#64).getLsbD i = (decide (i < 5) && x.getLsbD i) := by
  rw [BitVec.getLsbD_and]
  by_cases h : i < 5
  · have : ∀ i : Fin 5, (0x1F#64).getLsbD i = true := by decide
    simp [h, this ⟨i, h⟩]
  · have : (0x1F#64).getLsbD i = false := by
      rw [BitVec.getLsbD_ofNat]
      have : (0x1F : Nat).testBit i = false := Nat.testBit_lt_two_pow (by
        calc 0x1F < 2 ^ 5 := by decide
          _ ≤ 2 ^ i := Nat.pow_le_pow_right (by decide) (by omega))
      simp [this]
    simp [h, this]

/-- The bits of the representation of one exponent. -/
theorem field_bits (a b c d e f g h : BitVec 64) :
    let r := ((a &&& 0x1F#64) <<< (0 * 5) ||| (b &&& 0x1F#64) <<< (1 * 5) ||| (c &&& 0x1F#64) <<< (2 * 5) ||| (d &&& 0x1F#64) <<< (3 * 5) |||
      (e &&& 0x1F#64) <<< (4 * 5) ||| (f &&& 0x1F#64) <<< (5 * 5) ||| (g &&& 0x1F#64) <<< (6 * 5) ||| (h &&& 0x1F#64) <<< (7 * 5))
    r &&& 0x1F#64 = a &&& 0x1F#64 ∧ (r >>> 5) &&& 0x1F#64 = b &&& 0x1F#64 ∧ (r >>> 10) &&& 0x1F#64 = c &&& 0x1F#64 ∧
    (r >>> 15) &&& 0x1F#64 = d &&& 0x1F#64 ∧ (r >>> 20) &&& 0x1F#64 = e &&& 0x1F#64 ∧ (r >>> 25) &&& 0x1F#64 = f &&& 0x1F#64 ∧
    (r >>> 30) &&& 0x1F#64 = g &&& 0x1F#64 ∧ (r >>> 35) &&& 0x1F#64 = h &&& 0x1F#64 := by
  intro r
  refine ⟨?_, ?_, ?_, ?_, ?_, ?_, ?_, ?_⟩ <;>
  · apply BitVec.eq_of_getLsbD_eq
    intro i hi
    rw [low_bits, low_bits]
    by_cases h5 : i < 5
    · simp only [r, BitVec.getLsbD_ushiftRight, BitVec.getLsbD_or, BitVec.getLsbD_shiftLeft, low_bits, h5]
      have : i = 0 ∨ i = 1 ∨ i = 2 ∨ i = 3 ∨ i = 4 := by omega
      rcases this with rfl | rfl | rfl | rfl | rfl <;> simp
    · simp [h5]

theorem representation_inj {d e : Dimensions} (hd : d.serializable = true) (he : e.serializable = true) (h : d.representation = e.representation) :
    d = e := by
  simp only [Dimensions.serializable, Bool.and_eq_true] at hd he
  obtain ⟨⟨⟨⟨⟨⟨⟨d1, d2⟩, d3⟩, d4⟩, d5⟩, d6⟩, d7⟩, d8⟩ := hd
  obtain ⟨⟨⟨⟨⟨⟨⟨e1, e2⟩, e3⟩, e4⟩, e5⟩, e6⟩, e7⟩, e8⟩ := he
  have hd := field_bits (.ofInt 64 d.length) (.ofInt 64 d.mass) (.ofInt 64 d.time) (.ofInt 64 d.current) (.ofInt 64 d.temperature)
    (.ofInt 64 d.amount) (.ofInt 64 d.luminousIntensity) (.ofInt 64 d.angle)
  have he := field_bits (.ofInt 64 e.length) (.ofInt 64 e.mass) (.ofInt 64 e.time) (.ofInt 64 e.current) (.ofInt 64 e.temperature)
    (.ofInt 64 e.amount) (.ofInt 64 e.luminousIntensity) (.ofInt 64 e.angle)
  simp only [Dimensions.representation, exponentRepresentation] at h
  simp only [h] at hd
  obtain ⟨a1, a2, a3, a4, a5, a6, a7, a8⟩ := hd
  obtain ⟨b1, b2, b3, b4, b5, b6, b7, b8⟩ := he
  ext
  · exact exponent_inj d1 e1 (a1.symm.trans b1)
  · exact exponent_inj d2 e2 (a2.symm.trans b2)
  · exact exponent_inj d3 e3 (a3.symm.trans b3)
  · exact exponent_inj d4 e4 (a4.symm.trans b4)
  · exact exponent_inj d5 e5 (a5.symm.trans b5)
  · exact exponent_inj d6 e6 (a6.symm.trans b6)
  · exact exponent_inj d7 e7 (a7.symm.trans b7)
  · exact exponent_inj d8 e8 (a8.symm.trans b8)

/-- C43: a quantity can be written if, and only if, its exponents are between -24 and 7.  A quantity that was written is read back if the
dimensions are the expected ones, and fails a `CHECK` otherwise. -/
theorem C43_serialization {K : Type} [Field K] (q : Quantity K) :
    (q.write.isSome ↔ ∀ e ∈ [q.dimensions.length, q.dimensions.mass, q.dimensions.time, q.dimensions.current, q.dimensions.temperature,
      q.dimensions.amount, q.dimensions.luminousIntensity, q.dimensions.angle], -24 ≤ e ∧ e ≤ 7) ∧
    ∀ message, q.write = some message → ∀ d : Dimensions, d.serializable = true →
      Quantity.read d message = if d = q.dimensions then some q else none := by
  constructor
  · unfold Quantity.write
    simp only [Dimensions.serializable, exponentIsSerializable]
    simp [and_assoc]
  · intro message h d hd
    unfold Quantity.write at h
    split at h
    · rename_i hq
      injection h with h
      subst h
      unfold Quantity.read
      by_cases hdq : d = q.dimensions
      · subst hdq; simp
      · simp only [hdq, if_false]
        rw [if_neg fun h => hdq (representation_inj hd hq h)]
    · exact absurd h (by simp)

/-- C43: all the bits of the representation are used: the next exponents would be ambiguous. -/
theorem C43_ambiguity : (⟨8, 0, 0, 0, 0, 0, 0, 0⟩ : Dimensions).representation = (⟨-24, 0, 0, 0, 0, 0, 0, 0⟩ : Dimensions).representation ∧
    (⟨-25, 0, 0, 0, 0, 0, 0, 0⟩ : Dimensions).representation = (⟨7, 0, 0, 0, 0, 0, 0, 0⟩ : Dimensions).representation := by
  decide +kernel

/-- An acceleration and an angular velocity. -/
example : (⟨⟨1, 0, -2, 0, 0, 0, 0, 0⟩, 3⟩ : Quantity ℚ).write = some (0x7801#64, 3) ∧
    (⟨⟨0, 0, -1, 0, 0, 0, 0, 1⟩, 3⟩ : Quantity ℚ).write = some (0x800007C00#64, 3) := by decide +kernel

end Principia.Quantities
