/-!
# Model of `base/bits_body.hpp`

Simplification: `std::int64_t` arguments are modelled as `Nat` (the functions do not terminate on negative arguments,
`-1 >> 1` being `-1`; no caller passes any).
-/

namespace Principia.Bits

theorem shr1 (n : Nat) : n >>> 1 = n / 2 := by rw [Nat.shiftRight_eq_div_pow]

/-- base/bits_body.hpp:14-16 `FloorLog2`. -/
def floorLog2 (n : Nat) : Nat :=
  if n = 0 then 0 else if n = 1 then 0 else floorLog2 (n >>> 1) + 1
termination_by n
decreasing_by simp only [shr1]; omega

/-- base/bits_body.hpp:18-20 `PowerOf2Le`. -/
def powerOf2Le (n : Nat) : Nat :=
  if n = 0 then 0 else if n = 1 then 1 else powerOf2Le (n >>> 1) <<< 1
termination_by n
decreasing_by simp only [shr1]; omega

/-- base/bits_body.hpp:35-38, the `do … while` loop on the unsigned 32-bit `mask` and `x` (both always less than 2^32,
so `Nat` arithmetic is exact here: only `>>=` and `^=` occur).  Returns the final `x`. -/
def briLoop (mask x : Nat) : Nat :=
  let mask' := mask >>> 1
  let x' := x ^^^ mask'
  if x' < mask' then briLoop mask' x' else x'
termination_by mask
decreasing_by
  rename_i h
  have h : x ^^^ mask >>> 1 < mask >>> 1 := h
  rw [shr1] at h
  show mask >>> 1 < mask
  rw [shr1]; omega

/-- base/bits_body.hpp:22-41 `BitReversedIncrement`.  `none` models a failed `CONSTEXPR_DCHECK`.  The conversion of
`n << (32 - bits)` to `std::uint32_t` is the reduction modulo 2^32; the test `static_cast<std::int32_t>(x) >= 0` is
`x < 2^31`. -/
def bitReversedIncrement (n bits : Nat) : Option Nat :=
  if bits = 0 then (if n = 0 then some 0 else none)
  else if n < 1 <<< bits ∧ bits < 32 then
    let mask := 0x80000000
    let x := (n <<< (32 - bits)) % 2 ^ 32
    let x := x ^^^ mask
    let x := if x < 2 ^ 31 then briLoop mask x else x
    some (x >>> (32 - bits))
  else none

end Principia.Bits
