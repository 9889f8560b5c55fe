import Verif.Numerics.DoublePrecisionModel

/-!
What the users of the numbers in double precision rely on.
-/

namespace Principia.Numerics.DoublePrecisions

namespace DoublePrecision

/-- The number represented by a pair. -/
noncomputable def exact (d : DoublePrecision) : ℝ := d.value + d.error

/-- The parts of the pair are doubles which do not overlap: the error is at most half a unit in the last place of the value. -/
def Small (d : DoublePrecision) : Prop := IsDouble d.value ∧ IsDouble d.error ∧ |d.error| ≤ |d.value| / 2 ^ 53

/-- The value is the double nearest to the number represented by the pair. -/
def Normal (R : Rounding) (d : DoublePrecision) : Prop := IsDouble d.value ∧ IsDouble d.error ∧ d.value = R.round d.exact

/-- The pair represents `x` up to `n` units of roundoff squared, and is ready to be used in another computation. -/
def Represents (R : Rounding) (n : ℝ) (d : DoublePrecision) (x : ℝ) : Prop := |d.exact - x| ≤ n * (1 / 2 ^ 53) ^ 2 * |x| ∧ d.Normal R

end DoublePrecision

/-- Neither the factors nor their product are so small that digits are lost. -/
def NoUnderflow (a b : ℝ) : Prop := (2 : ℝ) ^ (-1022 : ℤ) ≤ |a| ∧ (2 : ℝ) ^ (-1022 : ℤ) ≤ |b| ∧ (2 : ℝ) ^ (-969 : ℤ) ≤ |a * b|

/-- Neither the dividend nor the divisor nor the quotient are so small that digits are lost. -/
def NoUnderflowInQuotient (a b : ℝ) : Prop := (2 : ℝ) ^ (-1022 : ℤ) ≤ |b| ∧ (2 : ℝ) ^ (-968 : ℤ) ≤ |a| ∧ (2 : ℝ) ^ (-968 : ℤ) ≤ |a / b|

/-- The pair is the exact result `x` of an operation, and its value is the result rounded to nearest. -/
def IsExact (R : Rounding) (d : DoublePrecision) (x : ℝ) : Prop := d.value = R.round x ∧ d.value + d.error = x ∧ IsDouble d.error

/-- The integer part of a number. -/
noncomputable def truncated (x : ℝ) : ℤ := if 0 ≤ x then ⌊x⌋ else ⌈x⌉

/-- The sum of a sequence of increments, computed with `Increment`. -/
noncomputable def accumulated (R : Rounding) (d : DoublePrecision) (increments : List ℝ) : DoublePrecision := increments.foldl (DoublePrecision.increment R) d

end Principia.Numerics.DoublePrecisions
