import Verif.Geometry.ComplexificationModel
import Mathlib.Analysis.Complex.Norm
import Mathlib.Tactic.Ring
import Mathlib.Tactic.FieldSimp
import Mathlib.Tactic.Module
import Mathlib.Tactic.LinearCombination

/-!
C60: the complexification of the real numbers is the field of the complex numbers, and that of a real vector space is a complex vector space.
-/

set_option linter.unusedSimpArgs false
set_option linter.unusedVariables false
set_option linter.unusedSectionVars false

namespace Principia.Geometry.Cx

noncomputable section

/-- The complex number that is represented. -/
def toComplex (z : Cx ℝ) : ℂ := ⟨z.re, z.im⟩

@[simp] theorem toComplex_re (z : Cx ℝ) : z.toComplex.re = z.re := rfl
@[simp] theorem toComplex_im (z : Cx ℝ) : z.toComplex.im = z.im := rfl

section Group

variable {V : Type} [AddCommGroup V]

@[simp] theorem zero_re : (0 : Cx V).re = 0 := rfl
@[simp] theorem zero_im : (0 : Cx V).im = 0 := rfl
@[simp] theorem neg_re (z : Cx V) : (-z).re = -z.re := rfl
@[simp] theorem neg_im (z : Cx V) : (-z).im = -z.im := rfl
@[simp] theorem add_re (z w : Cx V) : (z + w).re = z.re + w.re := rfl
@[simp] theorem add_im (z w : Cx V) : (z + w).im = z.im + w.im := rfl
@[simp] theorem sub_re (z w : Cx V) : (z - w).re = z.re - w.re := rfl
@[simp] theorem sub_im (z w : Cx V) : (z - w).im = z.im - w.im := rfl

instance : AddCommGroup (Cx V) where
  add_assoc a b c := by ext <;> simp [add_assoc]
  zero_add a := by ext <;> simp
  add_zero a := by ext <;> simp
  neg_add_cancel a := by ext <;> simp
  add_comm a b := by ext <;> simp [add_comm]
  sub_eq_add_neg a b := by ext <;> simp [sub_eq_add_neg]
  nsmul := nsmulRec
  zsmul := zsmulRec

end Group

section Vector

variable {V : Type} [AddCommGroup V] [Module ℝ V]

instance : SMul ℂ (Cx V) := ⟨fun c z => mul ⟨c.re, c.im⟩ z⟩

@[simp] theorem smul_re (c : ℂ) (z : Cx V) : (c • z).re = c.re • z.re - c.im • z.im := rfl
@[simp] theorem smul_im (c : ℂ) (z : Cx V) : (c • z).im = c.re • z.im + c.im • z.re := rfl

instance : Module ℂ (Cx V) where
  one_smul a := by ext <;> simp
  mul_smul a b z := by ext <;> simp <;> module
  smul_zero a := by ext <;> simp
  smul_add a z w := by ext <;> simp <;> module
  add_smul a b z := by ext <;> simp <;> module
  zero_smul z := by ext <;> simp

theorem mul_eq_smul (c : Cx ℝ) (z : Cx V) : mul c z = c.toComplex • z := rfl

theorem mulRight_eq_smul (z : Cx V) (c : Cx ℝ) : mulRight z c = c.toComplex • z := by
  ext <;> simp [mulRight, add_comm]

end Vector

/-- C60: the operations on the complexification of the real numbers are those of the complex numbers, except that the subtraction of a complex number from a real number gives the
conjugate of what is expected (see below). -/
theorem C60_complex_numbers (z w : Cx ℝ) (a : ℝ) :
    (ofReal a).toComplex = a ∧ (∀ c : ℂ, ∃! z : Cx ℝ, z.toComplex = c) ∧
    z.conjugate.toComplex = (starRingEnd ℂ) z.toComplex ∧ (-z).toComplex = -z.toComplex ∧
    (addLeft a z).toComplex = a + z.toComplex ∧ (addRight z a).toComplex = z.toComplex + a ∧ (z + w).toComplex = z.toComplex + w.toComplex ∧
    (subRight z a).toComplex = z.toComplex - a ∧ (z - w).toComplex = z.toComplex - w.toComplex ∧
    (scale a z).toComplex = a * z.toComplex ∧ (timesVector z a).toComplex = a * z.toComplex ∧
    (mul z w).toComplex = z.toComplex * w.toComplex ∧ (mulRight z w).toComplex = z.toComplex * w.toComplex ∧
    (∀ q, divLeft a w = some q → q.toComplex = a / w.toComplex) ∧ (divLeft a w = none ↔ w.toComplex = 0) ∧
    (∀ q, divReal z a = some q → q.toComplex = z.toComplex / a) ∧ (divReal z a = none ↔ a = 0) ∧
    (∀ q, div z w = some q → q.toComplex = z.toComplex / w.toComplex) ∧ (div z w = none ↔ w.toComplex = 0) ∧
    z.normSq = Complex.normSq z.toComplex ∧ z.norm = ‖z.toComplex‖ ∧
    (innerProduct z w).toComplex = z.toComplex * (starRingEnd ℂ) w.toComplex := by
  have hzero : w.re * w.re + w.im * w.im = 0 ↔ w.toComplex = 0 := by
    constructor
    · intro h
      have h1 : w.re = 0 := by nlinarith [mul_self_nonneg w.re, mul_self_nonneg w.im]
      have h2 : w.im = 0 := by nlinarith [mul_self_nonneg w.re, mul_self_nonneg w.im]
      apply Complex.ext <;> simp [h1, h2]
    · intro h
      have h1 := congrArg Complex.re h
      have h2 := congrArg Complex.im h
      simp at h1 h2
      simp [h1, h2]
  have hn : z.normSq = Complex.normSq z.toComplex := by simp [normSq, Complex.normSq_apply]; ring
  have simple : ∀ {u v : ℂ}, u.re = v.re → u.im = v.im → u = v := fun h h' => Complex.ext h h'
  refine ⟨?_, fun c => ⟨⟨c.re, c.im⟩, rfl, fun y hy => ?_⟩, ?_, ?_, ?_, ?_, ?_, ?_, ?_, ?_, ?_, ?_, ?_, ?_, ?_, ?_, ?_, ?_, ?_, hn, ?_, ?_⟩
  · apply Complex.ext <;> simp [ofReal]
  · rw [← hy]; rfl
  · apply Complex.ext <;> simp [conjugate]
  · apply Complex.ext <;> simp
  · apply Complex.ext <;> simp [addLeft]
  · apply Complex.ext <;> simp [addRight]
  · apply Complex.ext <;> simp
  · apply Complex.ext <;> simp [subRight]
  · apply Complex.ext <;> simp
  · apply Complex.ext <;> simp [scale]
  · apply Complex.ext <;> simp [timesVector, mul_comm]
  · apply Complex.ext <;> simp [mul]
  · apply Complex.ext <;> simp [mulRight] <;> ring
  · intro q hq
    unfold divLeft at hq
    by_cases h : w.re * w.re + w.im * w.im = 0
    · simp [h] at hq
    · simp only [h, if_false, Option.some.injEq] at hq
      have hw : w.toComplex ≠ 0 := fun h' => h (hzero.2 h')
      rw [eq_div_iff hw, ← hq]
      have hi := mul_inv_cancel₀ h
      generalize (w.re * w.re + w.im * w.im)⁻¹ = D at hi
      apply Complex.ext <;> simp
      · linear_combination a * hi
      · ring
  · unfold divLeft
    by_cases h : w.re * w.re + w.im * w.im = 0
    · simp [h, hzero.1 h]
    · simp [h, mt hzero.2 h]
  · intro q hq
    unfold divReal at hq
    by_cases h : a = 0
    · simp [h] at hq
    · simp only [h, if_false, Option.some.injEq] at hq
      have hw : (a : ℂ) ≠ 0 := Complex.ofReal_ne_zero.2 h
      rw [eq_div_iff hw, ← hq]
      apply Complex.ext <;> simp <;> field_simp
  · unfold divReal
    by_cases h : a = 0 <;> simp [h]
  · intro q hq
    unfold div at hq
    by_cases h : w.re * w.re + w.im * w.im = 0
    · simp [h] at hq
    · simp only [h, if_false, Option.some.injEq] at hq
      have hw : w.toComplex ≠ 0 := fun h' => h (hzero.2 h')
      rw [eq_div_iff hw, ← hq]
      have hi := mul_inv_cancel₀ h
      generalize (w.re * w.re + w.im * w.im)⁻¹ = D at hi
      apply Complex.ext <;> simp
      · linear_combination z.re * hi
      · linear_combination z.im * hi
  · unfold div
    by_cases h : w.re * w.re + w.im * w.im = 0
    · simp [h, hzero.1 h]
    · simp [h, mt hzero.2 h]
  · rw [norm, hn, Complex.norm_def]
  · apply Complex.ext <;> simp [innerProduct] <;> ring

/-- C60: the complexification of a real vector space is a complex vector space, of which the elements are, in one way, the sums of an element of the space and of one that is
multiplied by the imaginary unit. -/
theorem C60_complex_vectors {V : Type} [AddCommGroup V] [Module ℝ V] (z w : Cx V) (v : V) (a : ℝ) (c d : Cx ℝ) :
    mul (c + d) z = mul c z + mul d z ∧ mul c (z + w) = mul c z + mul c w ∧ mul (mul c d) z = mul c (mul d z) ∧ mul ⟨1, 0⟩ z = z ∧
    mul ⟨0, 1⟩ (mul ⟨0, 1⟩ z) = -z ∧ z + w = w + z ∧ (∀ u, z + w + u = z + (w + u)) ∧ z + 0 = z ∧ z + -z = 0 ∧ z - w = z + -w ∧
    z = ofReal z.re + mul ⟨0, 1⟩ (ofReal z.im) ∧ (∀ x y, z = ofReal x + mul ⟨0, 1⟩ (ofReal y) → x = z.re ∧ y = z.im) ∧
    mulRight z c = mul c z ∧ scale a z = mul (ofReal a) z ∧ timesVector c v = mul c (ofReal v) ∧
    addLeft v z = ofReal v + z ∧ addRight z v = z + ofReal v ∧ subRight z v = z - ofReal v ∧
    z.conjugate = ofReal z.re - mul ⟨0, 1⟩ (ofReal z.im) := by
  refine ⟨?_, ?_, ?_, ?_, ?_, ?_, fun u => ?_, ?_, ?_, ?_, ?_, fun x y h => ?_, ?_, ?_, ?_, ?_, ?_, ?_, ?_⟩
  · ext <;> simp [mul] <;> module
  · ext <;> simp [mul] <;> module
  · ext <;> simp [mul] <;> module
  · ext <;> simp [mul]
  · ext <;> simp [mul]
  · exact add_comm _ _
  · exact add_assoc _ _ _
  · exact add_zero _
  · exact add_neg_cancel _
  · exact sub_eq_add_neg _ _
  · ext <;> simp [mul, ofReal]
  · rw [h]; simp [mul, ofReal]
  · ext <;> simp [mul, mulRight, add_comm]
  · ext <;> simp [mul, scale, ofReal]
  · ext <;> simp [mul, timesVector, ofReal]
  · ext <;> simp [addLeft, ofReal]
  · ext <;> simp [addRight, ofReal]
  · ext <;> simp [subRight, ofReal]
  · ext <;> simp [mul, conjugate, ofReal]

/-- C60: the divisions are the inverses of the multiplications, and they are defined unless the divisor is zero. -/
theorem C60_division {V : Type} [AddCommGroup V] [Module ℝ V] (z : Cx V) (v : V) (c : Cx ℝ) (a : ℝ) (hc : c ≠ 0) (ha : a ≠ 0) :
    (∃ q, div z c = some q ∧ mul c q = z) ∧ (∃ q, divLeft v c = some q ∧ mul c q = ofReal v) ∧ ∃ q, divReal z a = some q ∧ scale a q = z := by
  have h : c.re * c.re + c.im * c.im ≠ 0 := by
    intro h
    refine hc ?_
    ext
    · show c.re = 0
      nlinarith [mul_self_nonneg c.re, mul_self_nonneg c.im]
    · show c.im = 0
      nlinarith [mul_self_nonneg c.re, mul_self_nonneg c.im]
  have key : ∀ x : V, x = (c.re * c.re + c.im * c.im)⁻¹ • (c.re * c.re + c.im * c.im) • x := fun x => by rw [smul_smul, inv_mul_cancel₀ h, one_smul]
  refine ⟨⟨_, by simp [div, h]; rfl, ?_⟩, ⟨_, by simp [divLeft, h]; rfl, ?_⟩, ⟨_, by simp [divReal, ha]; rfl, ?_⟩⟩
  · ext
    · conv_rhs => rw [key z.re]
      simp [mul]; module
    · conv_rhs => rw [key z.im]
      simp [mul]; module
  · ext
    · conv_rhs => rw [ofReal, key v]
      simp [mul]; module
    · simp [mul, ofReal]; module
  · ext <;> simp [scale, smul_smul, ha]

/-- C60: the inner product is linear on the left, its conjugate is obtained by exchanging the operands, and that of a vector by itself is the square of its norm. -/
theorem C60_inner_product {V : Type} [NormedAddCommGroup V] [InnerProductSpace ℝ V] (z w u : Cx V) (c : Cx ℝ) :
    innerProduct (z + w) u = innerProduct z u + innerProduct w u ∧ innerProduct (mul c z) u = mul c (innerProduct z u) ∧
    innerProduct w z = (innerProduct z w).conjugate ∧ innerProduct z z = ofReal z.normSq ∧ 0 ≤ z.normSq ∧ (z.normSq = 0 ↔ z = 0) ∧ 0 ≤ z.norm ∧
    z.norm * z.norm = z.normSq := by
  have hn : 0 ≤ z.normSq := by
    simp only [normSq, real_inner_self_eq_norm_sq]; positivity
  refine ⟨?_, ?_, ?_, ?_, hn, ?_, Real.sqrt_nonneg _, Real.mul_self_sqrt hn⟩
  · ext <;> simp [innerProduct, inner_add_left] <;> ring
  · ext <;> simp [innerProduct, mul, inner_add_left, inner_sub_left, inner_smul_left] <;> ring
  · ext <;> simp [innerProduct, conjugate, real_inner_comm]
  · ext <;> simp [innerProduct, normSq, ofReal, real_inner_comm]
  · simp only [normSq, real_inner_self_eq_norm_sq]
    constructor
    · intro h
      have h1 : ‖z.re‖ = 0 := by nlinarith [sq_nonneg ‖z.re‖, sq_nonneg ‖z.im‖]
      have h2 : ‖z.im‖ = 0 := by nlinarith [sq_nonneg ‖z.re‖, sq_nonneg ‖z.im‖]
      exact Cx.ext (norm_eq_zero.1 h1) (norm_eq_zero.1 h2)
    · rintro rfl; simp

/-- C60: the subtraction of a complex number from a real number gives the conjugate of the expected result, so it is wrong unless the complex number is real. -/
theorem C60_subtraction_counterexample (a : ℝ) (z : Cx ℝ) :
    (subLeft a z).toComplex = (starRingEnd ℂ) (a - z.toComplex) ∧ ((subLeft a z).toComplex = a - z.toComplex ↔ z.im = 0) ∧
    (subLeft (0 : ℝ) ⟨0, 1⟩).toComplex ≠ (0 : ℝ) - (⟨0, 1⟩ : Cx ℝ).toComplex := by
  refine ⟨by apply Complex.ext <;> simp [subLeft], ?_, fun h => ?_⟩
  · rw [Complex.ext_iff]
    simp [subLeft]
    constructor <;> intro h <;> linarith
  · have := congrArg Complex.im h
    simp [subLeft] at this
    linarith

/-- The hypotheses of the theorem about divisions are met. -/
example : (⟨3, 4⟩ : Cx ℝ) ≠ 0 ∧ (⟨3, 4⟩ : Cx ℝ).norm = 5 := by
  refine ⟨fun h => by simpa using congrArg Cx.re h, ?_⟩
  have : (⟨3, 4⟩ : Cx ℝ).normSq = 5 * 5 := by simp [normSq]; norm_num
  rw [norm, this, Real.sqrt_mul_self (by norm_num)]

end

end Principia.Geometry.Cx
