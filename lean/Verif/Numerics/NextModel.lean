import Verif.Numerics.DoublePrecisionModel

/-!
A model of numerics/log_b_body.hpp, numerics/scale_b_body.hpp, numerics/next_body.hpp and numerics/ulp_distance_body.hpp, for doubles.

The finite doubles are those of `DoublePrecisionModel` which are less than 2^1024 in absolute value.  The arithmetic is rounded to nearest, with overflow to infinity.

Simplifications: the NaNs are not modelled; the zeroes are not distinguished by the model of the numbers, but `ulpDistance` is given the signs of its arguments.
-/

set_option linter.unusedVariables false

namespace Principia.Numerics.Next

open DoublePrecisions

/-- A double, finite or not. -/
inductive Fl where
  | finite (x : ℝ)
  | infinity (negative : Bool)

variable (R : Rounding)

open Classical in
/-- The result of an operation: rounded, with overflow (IEEE 754:2008, 7.4). -/
noncomputable def fl (x : ℝ) : Fl := if |R.round x| < (2 : ℝ) ^ (1024 : ℤ) then Fl.finite (R.round x) else Fl.infinity (decide (x < 0))

namespace Fl

/-- The product of a double by the radix. -/
noncomputable def timesTwo : Fl → Fl
  | finite x => fl R (x * 2)
  | infinity n => infinity n

/-- The quotient of a double by the radix. -/
noncomputable def half : Fl → Fl
  | finite x => fl R (x / 2)
  | infinity n => infinity n

/-- The quotient of a finite double by a double. -/
noncomputable def quotient (x : ℝ) : Fl → Fl
  | finite y => fl R (x / y)
  | infinity _ => finite 0

/-- The sum of a finite double and a double. -/
noncomputable def plus (x : ℝ) : Fl → Fl
  | finite y => fl R (x + y)
  | infinity n => infinity n

/-- The opposite of a double. -/
noncomputable def neg : Fl → Fl
  | finite x => finite (-x)
  | infinity n => infinity (!n)

end Fl

/-- numerics/log_b_body.hpp:28-31: the first loop of `LogB`. -/
noncomputable def logUp : ℕ → ℝ → ℤ → ℝ × ℤ
  | 0, s, r => (s, r)
  | n + 1, s, r => if s < 1 then logUp n (R.mul s 2) (r - 1) else (s, r)

/-- numerics/log_b_body.hpp:32-35: the second loop of `LogB`. -/
noncomputable def logDown : ℕ → ℝ → ℤ → ℝ × ℤ
  | 0, s, r => (s, r)
  | n + 1, s, r => if 2 ≤ s then logDown n (R.div s 2) (r + 1) else (s, r)

/-- numerics/log_b_body.hpp:14-37 (`LogB`), for a finite number which is not zero.  The result is a small integer.  Each of the loops is bounded by `fuel`. -/
noncomputable def logB (fuel : ℕ) (x : ℝ) : ℤ :=
  let abs := if 0 < x then x else R.sub 0 x;
  let p := logUp R fuel abs 0;
  (logDown R fuel p.1 p.2).2

/-- numerics/scale_b_body.hpp:21-23, 29-31: the loops which multiply by the radix. -/
noncomputable def timesRadix : ℕ → Fl → Fl
  | 0, p => p
  | n + 1, p => timesRadix n (p.timesTwo R)

/-- numerics/scale_b_body.hpp:17-27: the loop of `ScaleB` for a negative exponent. -/
noncomputable def scaleDown : ℕ → ℝ → Fl
  | 0, r => Fl.finite r
  | n + 1, r => if r < 2 * (2 : ℝ) ^ (-1022 : ℤ) then Fl.quotient R r (timesRadix R (n + 1) (Fl.finite 1)) else scaleDown n (R.div r 2)

/-- numerics/scale_b_body.hpp:13-34 (`ScaleB`), for a finite number. -/
noncomputable def scaleB (x : ℝ) (N : ℤ) : Fl := if N < 0 then scaleDown R N.natAbs x else timesRadix R N.natAbs (Fl.finite x)

open Classical in
/-- numerics/next_body.hpp:18-58 (`NextUp`). -/
noncomputable def nextUp : Fl → Fl
  | Fl.infinity false => Fl.infinity false
  | Fl.infinity true => Fl.finite (-((2 : ℝ) ^ (1024 : ℤ) - 2 ^ (971 : ℤ)))
  | Fl.finite x =>
    if x = -(2 : ℝ) ^ (-1074 : ℤ) then Fl.finite 0
    else if x = 0 then Fl.finite (2 ^ (-1074 : ℤ))
    else if -(2 : ℝ) ^ (-1022 : ℤ) ≤ x ∧ x < 2 ^ (-1022 : ℤ) then fl R (x + 2 ^ (-1074 : ℤ))
    else
      let l := logB R 1100 x;
      let ulp := scaleB R (2 ^ (-52 : ℤ)) l;
      if scaleB R x (-l) = Fl.finite (-1) then Fl.plus R x (ulp.half R) else Fl.plus R x ulp

/-- numerics/next_body.hpp:60-63 (`NextDown`). -/
noncomputable def nextDown (x : Fl) : Fl := (nextUp R x.neg).neg

/-- The bits of a double, without the sign bit (IEEE 754:2008, 3.4): the biased exponent, then the significand without its leading bit. -/
noncomputable def magnitude : Fl → ℤ
  | Fl.finite x => if |x| < (2 : ℝ) ^ (-1022 : ℤ) then ⌊|x| * 2 ^ (1074 : ℤ)⌋ else (Int.log 2 |x| + 1023) * 2 ^ 52 + (⌊|x| * 2 ^ (52 - Int.log 2 |x|)⌋ - 2 ^ 52)
  | Fl.infinity _ => 2047 * 2 ^ 52

/-- numerics/ulp_distance_body.hpp:33-40: the bits of a double, as a signed integer. -/
noncomputable def bits (negative : Bool) (x : Fl) : ℤ := if negative then magnitude x - 2 ^ 63 else magnitude x

open Classical in
/-- numerics/ulp_distance_body.hpp:16-18, 33-41 (`ULPDistance`, for arguments which have the same sign). -/
noncomputable def sameSignDistance (negative : Bool) (x y : Fl) : ℤ := if x = y then 0 else |bits negative x - bits negative y|

open Classical in
/-- numerics/ulp_distance_body.hpp:15-42 (`ULPDistance`), where `sx` and `sy` are the sign bits of `x` and `y`. -/
noncomputable def ulpDistance (sx : Bool) (x : Fl) (sy : Bool) (y : Fl) : ℤ :=
  if x = y then 0
  else if sx ≠ sy then
    let positive := if sx then y else x;
    let negative := if sx then x else y;
    let positiveDistance := sameSignDistance false positive (Fl.finite 0);
    let negativeDistance := sameSignDistance true negative (Fl.finite 0);
    if positiveDistance > 2 ^ 63 - 1 - negativeDistance then 2 ^ 63 - 1 else positiveDistance + negativeDistance
  else sameSignDistance sx x y

end Principia.Numerics.Next
