/-!
# Model of `base/mod.hpp`
-/

namespace Principia.Mod

/-- The range of the C++ type `int` (32-bit two's complement on all the platforms supported). -/
def inInt (x : Int) : Prop := -2147483648 ≤ x ∧ x ≤ 2147483647

instance (x : Int) : Decidable (inInt x) := by unfold inInt; infer_instance

/-- C++ `int` arithmetic: the mathematical value if it is representable; overflow is undefined behaviour (`none`). -/
def ck (x : Int) : Option Int := if inInt x then some x else none

/-- The C++ operator `%` on `int`: truncated remainder, undefined for a zero divisor and for `INT_MIN % -1`
(the quotient of which is not representable). -/
def cppRem (a b : Int) : Option Int :=
  if b = 0 then none else if inInt (a.tdiv b) then some (a.tmod b) else none

/-- base/mod.hpp:11-13 `mod(dividend, divisor)`.  No simplification: `none` is undefined behaviour. -/
def mod2 (dividend divisor : Int) : Option Int := do
  let r ← cppRem dividend divisor
  let s ← ck (r + divisor)
  cppRem s divisor

/-- base/mod.hpp:18-20 `mod(dividend, divisor, offset)`. -/
def mod3 (dividend divisor offset : Int) : Option Int := do
  let d ← ck (dividend - offset)
  let m ← mod2 d divisor
  ck (m + offset)

end Principia.Mod
