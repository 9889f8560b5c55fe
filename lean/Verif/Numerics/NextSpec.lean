import Verif.Numerics.NextModel

/-!
What the users of `LogB`, `ScaleB`, `NextUp` and `NextDown` rely on (IEEE 754:2008, 5.3.1 and 5.3.3).
-/

namespace Principia.Numerics.Next

open DoublePrecisions

/-- The finite doubles. -/
def IsFinite (x : ℝ) : Prop := IsDouble x ∧ |x| < (2 : ℝ) ^ (1024 : ℤ)

/-- The order of the doubles. -/
def Fl.lt : Fl → Fl → Prop
  | Fl.finite x, Fl.finite y => x < y
  | Fl.finite _, Fl.infinity n => n = false
  | Fl.infinity n, Fl.finite _ => n = true
  | Fl.infinity m, Fl.infinity n => m = true ∧ n = false

/-- The values of the type `double` which are not NaN. -/
def Fl.IsFl : Fl → Prop
  | Fl.finite x => IsFinite x
  | Fl.infinity _ => True

/-- `y` comes immediately after `x`. -/
def IsNext (x y : Fl) : Prop := y.IsFl ∧ x.lt y ∧ ∀ z : Fl, z.IsFl → x.lt z → z = y ∨ y.lt z

/-- `y` comes immediately before `x`. -/
def IsPrevious (x y : Fl) : Prop := y.IsFl ∧ y.lt x ∧ ∀ z : Fl, z.IsFl → z.lt x → z = y ∨ z.lt y

/-- `s` may be the sign bit of `x`: zero may have either sign. -/
def HasSign (s : Bool) : Fl → Prop
  | Fl.finite x => if s then x ≤ 0 else 0 ≤ x
  | Fl.infinity n => s = n

end Principia.Numerics.Next
