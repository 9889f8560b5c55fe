import Verif.Base.ModModel
import Mathlib.Data.Rat.Floor
import Mathlib.Algebra.Order.Field.Rat

/-!
# Model of `astronomy/orbit_recurrence.hpp` and its body

Angles are in units of 2π radians (turns).  The doubles are rational numbers; `fl` is the rounding of the floating-point operations.
-/

namespace Principia.Recurrence
open Principia.Mod

/-- astronomy/orbit_recurrence.hpp:106-110: the fields. -/
structure Recurrence where
  ν : ℤ
  D : ℤ
  C : ℤ
  subcycle : ℤ
deriving DecidableEq, Repr

/-- geometry/sign_body.hpp:17-20 and 29-33 `Sign::OfNonZero`, converted to a number by multiplying 1. -/
def sgn (x : ℤ) : ℤ := if x < 0 then -1 else 1

/-- astronomy/orbit_recurrence_body.hpp:60-63: the loop that looks for the subcycle.  `none` is an integer overflow, or an exhausted fuel,
which is shown not to happen. -/
def subcycleLoop (D C s : ℤ) : ℕ → ℤ → Option ℤ
  | 0, _ => none
  | fuel + 1, E => do
    let p ← ck (E * D)
    let a ← mod2 p C
    if a = s then some E
    else
      let C' ← ck (-C)
      let b ← mod2 p C'
      if b = -s then some E
      else
        let E' ← ck (E + s)
        subcycleLoop D C s fuel E'

/-- astronomy/orbit_recurrence_body.hpp:39-64: the constructor; `none` is a failed check (or an overflow). -/
def make (ν D C : ℤ) : Option Recurrence := do
  if C ≠ 0 then
    if ν = 0 ∨ sgn ν = sgn C then
      let D2 ← ck (2 * D)
      if |D2| ≤ |C| then
        if Int.gcd D C = 1 then
          if D = 0 then some ⟨ν, D, C, 0⟩
          else do
            let E ← subcycleLoop D C (sgn C) C.natAbs (sgn C)
            some ⟨ν, D, C, E⟩
        else none
      else none
    else none
  else none

/-- astronomy/orbit_recurrence_body.hpp:116-119 `number_of_revolutions` (without overflow). -/
def Recurrence.revolutions (r : Recurrence) : ℤ := r.ν * r.C + r.D

/-- astronomy/orbit_recurrence_body.hpp:121-126 `equatorial_shift`, in turns. -/
def Recurrence.equatorialShift (r : Recurrence) : ℚ := -((r.C : ℚ) / r.revolutions)

/-- astronomy/orbit_recurrence_body.hpp:128-130 `base_interval`, in turns. -/
def Recurrence.baseInterval (r : Recurrence) : ℚ := |r.equatorialShift|

/-- astronomy/orbit_recurrence_body.hpp:132-136 `grid_interval`, in turns. -/
def Recurrence.gridInterval (r : Recurrence) : ℚ := 1 / r.revolutions

/-- The outcome of a function that returns an `absl::StatusOr`. -/
inductive Outcome (α : Type) where
  | ok (a : α)
  | error
  | crash
deriving DecidableEq, Repr

/-- `RETURN_IF_ERROR`. -/
def Outcome.bind {α β : Type} : Outcome α → (α → Outcome β) → Outcome β
  | .ok a, f => f a
  | .error, _ => .error
  | .crash, _ => .crash

/-- `std::nearbyint` in the default rounding mode: to nearest, ties to even. -/
def nearbyint (x : ℚ) : ℤ :=
  if x - ⌊x⌋ < 1 / 2 then ⌊x⌋
  else if x - ⌊x⌋ > 1 / 2 then ⌊x⌋ + 1
  else if ⌊x⌋ % 2 = 0 then ⌊x⌋ else ⌊x⌋ + 1

/-- astronomy/orbit_recurrence_body.hpp:25-37 `SafeNearbyInt` for a finite argument. -/
def safeNearbyInt (x : ℚ) : Outcome ℤ :=
  if x < -2147483648 ∨ x > 2147483647 then .error else .ok (nearbyint x)

/-- astronomy/orbit_recurrence_body.hpp:82-91: the loop of `ClosestRecurrence`, from J on, for n iterations; `best` is
min_frac_abs_κ_J, where `none` is an infinity, and `C` is Cᴛₒ, where `none` is an uninitialized variable. -/
def search (fl : ℚ → ℚ) (κ : ℚ) : ℕ → ℤ → Option ℚ → Option ℤ → Outcome (Option ℤ)
  | 0, _, _, C => .ok C
  | n + 1, J, best, C =>
    let absκJ := |fl (κ * J)|
    (safeNearbyInt absκJ).bind fun i =>
      let frac := |fl (absκJ - i)|
      if (match best with | none => true | some b => decide (frac < b)) then
        search fl κ n (J + 1) (some frac) (some (if κ < 0 then -J else J))
      else search fl κ n (J + 1) best C

/-- astronomy/orbit_recurrence_body.hpp:66-102 `ClosestRecurrence`, from the daily recurrence frequency κ, where `none` is an infinity or a NaN:
all of the calls to `SafeNearbyInt` fail on a κ which is not finite. -/
def closestRecurrence (fl : ℚ → ℚ) (κ : Option ℚ) (max : ℤ) : Outcome Recurrence :=
  match κ with
  | none => .error
  | some κ =>
    (search fl κ max.toNat 1 none none).bind fun C =>
    (safeNearbyInt κ).bind fun ν =>
    match C with
    | none => .crash
    | some C =>
      (safeNearbyInt (fl (fl (κ - ν) * C))).bind fun D =>
      match make ν D C with
      | none => .crash
      | some r => .ok r

/-- The exponent of a positive rational number: the e such that 2^e ≤ x < 2^(e + 1). -/
def exponent (x : ℚ) : ℤ :=
  let e : ℤ := (Nat.log2 x.num.natAbs : ℤ) - Nat.log2 x.den
  if (2 : ℚ) ^ e ≤ x then e else e - 1

/-- Rounding to a number with 53 significant bits, as in IEEE 754 binary64 in the absence of overflow and underflow. -/
def binary64 (x : ℚ) : ℚ :=
  if x = 0 then 0
  else
    let ulp := (2 : ℚ) ^ (exponent |x| - 52)
    nearbyint (x / ulp) * ulp

end Principia.Recurrence
