import Mathlib.Analysis.InnerProductSpace.Basic
import Mathlib.Analysis.SpecialFunctions.Sqrt

/-!
A model of the complexification of a real vector space, in geometry/complexification_body.hpp.

Simplifications: exact real arithmetic.  The products and quotients are those for which one of the operands is a number: the other one is an element of a real vector space
`V`, which may be ℝ itself.  `none` is a division by zero.
-/

set_option linter.unusedSimpArgs false
set_option linter.unusedVariables false
set_option linter.unusedSectionVars false

namespace Principia.Geometry

/-- geometry/complexification.hpp:21-59 (`Complexification`). -/
@[ext]
structure Cx (V : Type) where
  re : V
  im : V

namespace Cx

noncomputable section

section Group

variable {V : Type} [AddCommGroup V]

/-- geometry/complexification_body.hpp:13-17: the conversion from the underlying space. -/
def ofReal (v : V) : Cx V := ⟨v, 0⟩

/-- The default constructor. -/
instance : Zero (Cx V) := ⟨⟨0, 0⟩⟩

/-- geometry/complexification_body.hpp:58-61 (`Conjugate`). -/
def conjugate (z : Cx V) : Cx V := ⟨z.re, -z.im⟩

/-- geometry/complexification_body.hpp:80-83 (unary `operator-`). -/
instance : Neg (Cx V) := ⟨fun z => ⟨-z.re, -z.im⟩⟩

/-- geometry/complexification_body.hpp:85-91 (`operator+` of an element of the underlying space). -/
def addLeft (left : V) (right : Cx V) : Cx V := ⟨left + right.re, right.im⟩

/-- geometry/complexification_body.hpp:93-98 (`operator+`). -/
def addRight (left : Cx V) (right : V) : Cx V := ⟨left.re + right, left.im⟩

/-- geometry/complexification_body.hpp:100-106 (`operator+`). -/
instance : Add (Cx V) := ⟨fun left right => ⟨left.re + right.re, left.im + right.im⟩⟩

/-- geometry/complexification_body.hpp:108-114 (`operator-` from an element of the underlying space). -/
def subLeft (left : V) (right : Cx V) : Cx V := ⟨left - right.re, right.im⟩

/-- geometry/complexification_body.hpp:116-122 (`operator-`). -/
def subRight (left : Cx V) (right : V) : Cx V := ⟨left.re - right, left.im⟩

/-- geometry/complexification_body.hpp:124-130 (`operator-`). -/
instance : Sub (Cx V) := ⟨fun left right => ⟨left.re - right.re, left.im - right.im⟩⟩

end Group

section Vector

variable {V : Type} [AddCommGroup V] [Module ℝ V]

/-- geometry/complexification_body.hpp:132-138, 140-146 (`operator*` by a real number, on either side). -/
def scale (a : ℝ) (z : Cx V) : Cx V := ⟨a • z.re, a • z.im⟩

/-- geometry/complexification_body.hpp:132-138, 140-146 (`operator*` of a complex number by a vector, on either side). -/
def timesVector (z : Cx ℝ) (v : V) : Cx V := ⟨z.re • v, z.im • v⟩

/-- geometry/complexification_body.hpp:148-158 (`operator*`), where the complex number is on the left. -/
def mul (left : Cx ℝ) (right : Cx V) : Cx V := ⟨left.re • right.re - left.im • right.im, left.re • right.im + left.im • right.re⟩

/-- geometry/complexification_body.hpp:148-158 (`operator*`), where the complex number is on the right. -/
def mulRight (left : Cx V) (right : Cx ℝ) : Cx V := ⟨right.re • left.re - right.im • left.im, right.im • left.re + right.re • left.im⟩

/-- geometry/complexification_body.hpp:160-169 (`operator/` of an element of the underlying space). -/
def divLeft (left : V) (right : Cx ℝ) : Option (Cx V) :=
  let denominator := right.re * right.re + right.im * right.im
  if denominator = 0 then none else some ⟨denominator⁻¹ • right.re • left, denominator⁻¹ • right.im • -left⟩

/-- geometry/complexification_body.hpp:171-177 (`operator/` by a real number). -/
def divReal (left : Cx V) (right : ℝ) : Option (Cx V) := if right = 0 then none else some ⟨right⁻¹ • left.re, right⁻¹ • left.im⟩

/-- geometry/complexification_body.hpp:179-190 (`operator/`). -/
def div (left : Cx V) (right : Cx ℝ) : Option (Cx V) :=
  let denominator := right.re * right.re + right.im * right.im
  if denominator = 0 then none
  else some ⟨denominator⁻¹ • (right.re • left.re + right.im • left.im), denominator⁻¹ • (right.im • -left.re + right.re • left.im)⟩

end Vector

section Inner

variable {V : Type} [NormedAddCommGroup V] [InnerProductSpace ℝ V]

/-- geometry/complexification_body.hpp:63-68 (`Norm²`). -/
def normSq (z : Cx V) : ℝ := inner ℝ z.re z.re + inner ℝ z.im z.im

/-- geometry/complexification_body.hpp:70-73 (`Norm`). -/
def norm (z : Cx V) : ℝ := √z.normSq

/-- geometry/complexification_body.hpp:192-202 (`InnerProduct`). -/
def innerProduct (left right : Cx V) : Cx ℝ :=
  ⟨inner ℝ left.re right.re + inner ℝ left.im right.im, inner ℝ left.im right.re - inner ℝ left.re right.im⟩

end Inner

end

end Cx

end Principia.Geometry
