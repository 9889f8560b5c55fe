import Mathlib.Data.Real.Basic
import Mathlib.Data.Int.Log
import Mathlib.Algebra.Order.Round
import Mathlib.Algebra.Order.Archimedean.Real.Basic

/-!
A model of numerics/double_precision.hpp and numerics/double_precision_body.hpp, for scalars.

The doubles are the real numbers of the form `m * 2 ^ e` where the mantissa has 53 bits and the exponent is at least -1074; the subnormal numbers are included.  The operations are rounded to nearest,
with an arbitrary rule for the ties.

Simplifications: the exponent is not bounded from above, so that there is no overflow; the infinities, the NaNs and the signed zeroes are not modelled.  The vectors and points of the code, whose
coordinates are computed independently, are not modelled.
-/

set_option linter.unusedVariables false

namespace Principia.Numerics.DoublePrecisions

/-- The set of the doubles of IEEE 754 (`binary64`), without overflow. -/
def IsDouble (x : ℝ) : Prop := ∃ m e : ℤ, |m| < 2 ^ 53 ∧ -1074 ≤ e ∧ x = m * (2 : ℝ) ^ e

/-- `y` is a double that is nearest to `x`. -/
def Nearest (x y : ℝ) : Prop := IsDouble y ∧ ∀ f, IsDouble f → |x - y| ≤ |x - f|

/-- A rounding to nearest. -/
structure Rounding where
  round : ℝ → ℝ
  nearest : ∀ x, Nearest x (round x)

namespace Rounding

variable (R : Rounding)

/-- The addition of doubles. -/
noncomputable def add (a b : ℝ) : ℝ := R.round (a + b)

/-- The subtraction of doubles. -/
noncomputable def sub (a b : ℝ) : ℝ := R.round (a - b)

/-- The multiplication of doubles. -/
noncomputable def mul (a b : ℝ) : ℝ := R.round (a * b)

/-- The division of doubles. -/
noncomputable def div (a b : ℝ) : ℝ := R.round (a / b)

/-- numerics/fma_body.hpp (`FusedMultiplySubtract`). -/
noncomputable def fms (a b c : ℝ) : ℝ := R.round (a * b - c)

end Rounding

/-- numerics/double_precision.hpp:27-66 (`DoublePrecision`). -/
@[ext]
structure DoublePrecision where
  value : ℝ
  error : ℝ

open Classical in
/-- numerics/double_precision_body.hpp:44-59, 121-141 (`DaumasRideauThéryComparator::ProperlyOrdered`): the smallest exponent of `b` is at most the largest exponent of `a`, i.e., `a` is a multiple of the
unit in the last place of `b`. -/
def ProperlyOrdered (a b : ℝ) : Prop := a = 0 ∨ b = 0 ∨ ∃ m : ℤ, a = m * (2 : ℝ) ^ (Int.log 2 |b| - 52)

variable (R : Rounding)

/-- numerics/double_precision_body.hpp:365-381 (`QuickTwoSum`). -/
noncomputable def quickTwoSum (a b : ℝ) : DoublePrecision :=
  let s := R.add a b;
  let e := R.sub b (R.sub s a);
  ⟨s, e⟩

/-- numerics/double_precision_body.hpp:383-398 (`QuickTwoDifference`). -/
noncomputable def quickTwoDifference (a b : ℝ) : DoublePrecision :=
  let s := R.sub a b;
  let e := R.sub (R.sub a s) b;
  ⟨s, e⟩

/-- numerics/double_precision_body.hpp:400-411 (`TwoSum`). -/
noncomputable def twoSum (a b : ℝ) : DoublePrecision :=
  let s := R.add a b;
  let v := R.sub s a;
  let e := R.add (R.sub a (R.sub s v)) (R.sub b v);
  ⟨s, e⟩

/-- numerics/double_precision_body.hpp:413-431 (`TwoDifference`, for points). -/
noncomputable def twoDifferenceOfPoints (a b : ℝ) : DoublePrecision :=
  let s := R.sub a b;
  let w := R.sub a s;
  let e := R.add (R.sub a (R.add s w)) (R.sub w b);
  ⟨s, e⟩

/-- numerics/double_precision_body.hpp:433-444 (`TwoDifference`, for a point and a vector or for vectors). -/
noncomputable def twoDifference (a b : ℝ) : DoublePrecision :=
  let s := R.sub a b;
  let v := R.sub s a;
  let e := R.sub (R.sub a (R.sub s v)) (R.add b v);
  ⟨s, e⟩

/-- numerics/double_precision_body.hpp:297-316 (`VeltkampSplitting`), where `s` is 27. -/
noncomputable def veltkampSplitting (x : ℝ) : ℝ × ℝ :=
  let γ := R.mul (2 ^ 27 + 1) x;
  let δ := R.sub x γ;
  let xh := R.add γ δ;
  let xl := R.sub x xh;
  (xh, xl)

/-- numerics/double_precision_body.hpp:318-348 (`VeltkampDekkerProduct`). -/
noncomputable def veltkampDekkerProduct (x y : ℝ) : DoublePrecision :=
  let (hx, tx) := veltkampSplitting R x;
  let (hy, ty) := veltkampSplitting R y;
  let z := R.mul x y;
  let zz := R.add (R.add (R.add (R.sub (R.mul hx hy) z) (R.mul hx ty)) (R.mul tx hy)) (R.mul tx ty);
  ⟨z, zz⟩

/-- numerics/double_precision_body.hpp:350-363 (`TwoProduct`). -/
noncomputable def twoProduct (fma : Bool) (a b : ℝ) : DoublePrecision :=
  if fma then
    let z := R.mul a b;
    ⟨z, R.fms a b z⟩
  else veltkampDekkerProduct R a b

namespace DoublePrecision

/-- numerics/double_precision_body.hpp:216-225 (`Decrement`). -/
noncomputable def decrement (d : DoublePrecision) (right : ℝ) : DoublePrecision :=
  let y := R.sub d.error right;
  let value := R.add d.value y;
  ⟨value, R.add (R.sub d.value value) y⟩

/-- numerics/double_precision_body.hpp:227-236 (`Increment`). -/
noncomputable def increment (d : DoublePrecision) (right : ℝ) : DoublePrecision :=
  let y := R.add d.error right;
  let value := R.add d.value y;
  ⟨value, R.add (R.sub d.value value) y⟩

/-- numerics/double_precision_body.hpp:453-461 (unary `operator-`). -/
noncomputable def neg (d : DoublePrecision) : DoublePrecision := ⟨-d.value, -d.error⟩

/-- numerics/double_precision_body.hpp:463-470. -/
noncomputable def addLeft (left : ℝ) (right : DoublePrecision) : DoublePrecision :=
  let s := twoSum R left right.value;
  let v := R.add s.error right.error;
  quickTwoSum R s.value v

/-- numerics/double_precision_body.hpp:472-479. -/
noncomputable def addRight (left : DoublePrecision) (right : ℝ) : DoublePrecision :=
  let s := twoSum R left.value right;
  let v := R.add s.error left.error;
  quickTwoSum R s.value v

/-- numerics/double_precision_body.hpp:481-491. -/
noncomputable def add (left right : DoublePrecision) : DoublePrecision :=
  let s := twoSum R left.value right.value;
  let t := twoSum R left.error right.error;
  let c := R.add s.error t.value;
  let v := quickTwoSum R s.value c;
  let w := R.add t.error v.error;
  quickTwoSum R v.value w

/-- numerics/double_precision_body.hpp:493-500. -/
noncomputable def subLeft (left : ℝ) (right : DoublePrecision) : DoublePrecision :=
  let s := twoDifference R left right.value;
  let v := R.sub s.error right.error;
  quickTwoSum R s.value v

/-- numerics/double_precision_body.hpp:502-509. -/
noncomputable def subRight (left : DoublePrecision) (right : ℝ) : DoublePrecision :=
  let s := twoDifference R left.value right;
  let v := R.add s.error left.error;
  quickTwoSum R s.value v

/-- numerics/double_precision_body.hpp:511-521. -/
noncomputable def sub (left right : DoublePrecision) : DoublePrecision :=
  let s := twoDifference R left.value right.value;
  let t := twoDifference R left.error right.error;
  let c := R.add s.error t.value;
  let v := quickTwoSum R s.value c;
  let w := R.add t.error v.error;
  quickTwoSum R v.value w

/-- numerics/double_precision_body.hpp:523-531. -/
noncomputable def mulLeft (fma : Bool) (left : ℝ) (right : DoublePrecision) : DoublePrecision :=
  let product := twoProduct R fma left right.value;
  let error := R.add product.error (R.mul left right.error);
  quickTwoSum R product.value error

/-- numerics/double_precision_body.hpp:533-541. -/
noncomputable def mulRight (fma : Bool) (left : DoublePrecision) (right : ℝ) : DoublePrecision :=
  let product := twoProduct R fma left.value right;
  let error := R.add product.error (R.mul left.error right);
  quickTwoSum R product.value error

/-- numerics/double_precision_body.hpp:543-552. -/
noncomputable def mul (fma : Bool) (left right : DoublePrecision) : DoublePrecision :=
  let product := twoProduct R fma left.value right.value;
  let error := R.add product.error (R.add (R.mul (R.add left.value left.error) right.error) (R.mul left.error right.value));
  quickTwoSum R product.value error

/-- numerics/double_precision_body.hpp:554-563. -/
noncomputable def divLeft (fma : Bool) (left : ℝ) (right : DoublePrecision) : DoublePrecision :=
  let z := R.div left right.value;
  let product := twoProduct R fma right.value z;
  let zz := R.div (R.sub (R.sub (R.sub left product.value) product.error) (R.mul z right.error)) (R.add right.value right.error);
  quickTwoSum R z zz

/-- numerics/double_precision_body.hpp:565-574. -/
noncomputable def divRight (fma : Bool) (left : DoublePrecision) (right : ℝ) : DoublePrecision :=
  let z := R.div left.value right;
  let product := twoProduct R fma right z;
  let zz := R.div (R.add (R.sub (R.sub left.value product.value) product.error) left.error) right;
  quickTwoSum R z zz

/-- numerics/double_precision_body.hpp:576-587. -/
noncomputable def div (fma : Bool) (left right : DoublePrecision) : DoublePrecision :=
  let z := R.div left.value right.value;
  let product := twoProduct R fma right.value z;
  let zz := R.div (R.sub (R.add (R.sub (R.sub left.value product.value) product.error) left.error) (R.mul z right.error)) (R.add right.value right.error);
  quickTwoSum R z zz

/-- numerics/double_precision_body.hpp:370, 554-563: the check of `QuickTwoSum` in the division. -/
def divLeftChecks (fma : Bool) (left : ℝ) (right : DoublePrecision) : Prop :=
  let z := R.div left right.value;
  let product := twoProduct R fma right.value z;
  ProperlyOrdered z (R.div (R.sub (R.sub (R.sub left product.value) product.error) (R.mul z right.error)) (R.add right.value right.error))

/-- numerics/double_precision_body.hpp:370, 565-574. -/
def divRightChecks (fma : Bool) (left : DoublePrecision) (right : ℝ) : Prop :=
  let z := R.div left.value right;
  let product := twoProduct R fma right z;
  ProperlyOrdered z (R.div (R.add (R.sub (R.sub left.value product.value) product.error) left.error) right)

/-- numerics/double_precision_body.hpp:370, 576-587. -/
def divChecks (fma : Bool) (left right : DoublePrecision) : Prop :=
  let z := R.div left.value right.value;
  let product := twoProduct R fma right.value z;
  ProperlyOrdered z
    (R.div (R.sub (R.add (R.sub (R.sub left.value product.value) product.error) left.error) (R.mul z right.error)) (R.add right.value right.error))

/-- numerics/double_precision_body.hpp:370, 463-470: the check of `QuickTwoSum` in the addition. -/
def addLeftChecks (left : ℝ) (right : DoublePrecision) : Prop :=
  let s := twoSum R left right.value;
  ProperlyOrdered s.value (R.add s.error right.error)

/-- numerics/double_precision_body.hpp:370, 472-479. -/
def addRightChecks (left : DoublePrecision) (right : ℝ) : Prop :=
  let s := twoSum R left.value right;
  ProperlyOrdered s.value (R.add s.error left.error)

/-- numerics/double_precision_body.hpp:370, 481-491. -/
def addChecks (left right : DoublePrecision) : Prop :=
  let s := twoSum R left.value right.value;
  let t := twoSum R left.error right.error;
  let c := R.add s.error t.value;
  let v := quickTwoSum R s.value c;
  ProperlyOrdered s.value c ∧ ProperlyOrdered v.value (R.add t.error v.error)

/-- numerics/double_precision_body.hpp:370, 493-500. -/
def subLeftChecks (left : ℝ) (right : DoublePrecision) : Prop :=
  let s := twoDifference R left right.value;
  ProperlyOrdered s.value (R.sub s.error right.error)

/-- numerics/double_precision_body.hpp:370, 502-509. -/
def subRightChecks (left : DoublePrecision) (right : ℝ) : Prop :=
  let s := twoDifference R left.value right;
  ProperlyOrdered s.value (R.add s.error left.error)

/-- numerics/double_precision_body.hpp:370, 511-521. -/
def subChecks (left right : DoublePrecision) : Prop :=
  let s := twoDifference R left.value right.value;
  let t := twoDifference R left.error right.error;
  let c := R.add s.error t.value;
  let v := quickTwoSum R s.value c;
  ProperlyOrdered s.value c ∧ ProperlyOrdered v.value (R.add t.error v.error)

/-- numerics/double_precision_body.hpp:370, 523-531. -/
def mulLeftChecks (fma : Bool) (left : ℝ) (right : DoublePrecision) : Prop :=
  let product := twoProduct R fma left right.value;
  ProperlyOrdered product.value (R.add product.error (R.mul left right.error))

/-- numerics/double_precision_body.hpp:370, 533-541. -/
def mulRightChecks (fma : Bool) (left : DoublePrecision) (right : ℝ) : Prop :=
  let product := twoProduct R fma left.value right;
  ProperlyOrdered product.value (R.add product.error (R.mul left.error right))

/-- numerics/double_precision_body.hpp:370, 543-552. -/
def mulChecks (fma : Bool) (left right : DoublePrecision) : Prop :=
  let product := twoProduct R fma left.value right.value;
  ProperlyOrdered product.value (R.add product.error (R.add (R.mul (R.add left.value left.error) right.error) (R.mul left.error right.value)))

/-- numerics/double_precision_body.hpp:264-279 (`Scale`). -/
noncomputable def scale (s : ℝ) (right : DoublePrecision) : DoublePrecision := ⟨R.mul right.value s, R.mul right.error s⟩

open Classical in
/-- numerics/double_precision_body.hpp:281-290 (`Trunc`). -/
noncomputable def trunc (a : DoublePrecision) : DoublePrecision := if 0 < a.value then ⟨(⌊a.value⌋ : ℤ), (⌊a.error⌋ : ℤ)⟩ else ⟨(⌈a.value⌉ : ℤ), (⌈a.error⌉ : ℤ)⟩

/-- numerics/double_precision_body.hpp:292-295 (`Frac`). -/
noncomputable def frac (a : DoublePrecision) : DoublePrecision := sub R a (trunc a)

/-- numerics/double_precision.hpp:34-37 (`operator<=>`, which compares the value, then the error). -/
def lt (left right : DoublePrecision) : Prop := left.value < right.value ∨ (left.value = right.value ∧ left.error < right.error)

end DoublePrecision

end Principia.Numerics.DoublePrecisions
