import Verif.Geometry.PerspectiveSpec
import Mathlib.Tactic.Linarith
import Mathlib.Tactic.FieldSimp
import Mathlib.Tactic.Ring
import Mathlib.Tactic.LinearCombination
import Mathlib.Tactic.Positivity
import Mathlib.Tactic.ByContra

/-!
The shadow of a ball.
-/

set_option linter.unusedSimpArgs false
set_option linter.unusedVariables false
set_option linter.unusedSectionVars false

namespace Principia.Geometry.Perspectives

/-- The distance from a point of the ray to the centre, squared, minus the radius squared. -/
theorem ray_eq (X C : R3 ℝ) (s R : ℝ) : R3.normSq (s • X - C) - R ^ 2 = s ^ 2 * R3.normSq X - 2 * s * R3.dot X C + (R3.normSq C - R ^ 2) := by
  simp only [R3.normSq, R3.dot, R3.sub_x, R3.sub_y, R3.sub_z, R3.smul_x, R3.smul_y, R3.smul_z]
  ring

theorem normSq_nonneg (X : R3 ℝ) : 0 ≤ R3.normSq X := by
  unfold R3.normSq
  nlinarith [mul_self_nonneg X.x, mul_self_nonneg X.y, mul_self_nonneg X.z]

theorem normSq_pos {X : R3 ℝ} (h : X ≠ 0) : 0 < R3.normSq X := by
  refine lt_of_le_of_ne (normSq_nonneg X) fun e => h ?_
  unfold R3.normSq at e
  have hx := mul_self_nonneg X.x
  have hy := mul_self_nonneg X.y
  have hz := mul_self_nonneg X.z
  ext
  · exact mul_self_eq_zero.1 (by linarith)
  · exact mul_self_eq_zero.1 (by linarith)
  · exact mul_self_eq_zero.1 (by linarith)

/-- The trinomial is negative somewhere between 0 and 1. -/
theorem trinomial_neg_iff {N u h : ℝ} (hN : 0 ≤ N) (hh : 0 < h) :
    (∃ s, 0 ≤ s ∧ s ≤ 1 ∧ s ^ 2 * N - 2 * s * u + h < 0) ↔ N - 2 * u + h < 0 ∨ (h ≤ u ∧ h * N < u ^ 2) := by
  constructor
  · rintro ⟨s, h0, h1, hs⟩
    have hd : h * N < u ^ 2 := by
      by_contra hc
      nlinarith [sq_nonneg (s * u - h), mul_nonneg (sq_nonneg s) (sub_nonneg.2 (not_lt.1 hc))]
    have hu : 0 < u := by
      by_contra hc
      nlinarith [mul_nonneg h0 (neg_nonneg.2 (not_lt.1 hc)), mul_nonneg (sq_nonneg s) hN]
    by_cases hhu : h ≤ u
    · exact Or.inr ⟨hhu, hd⟩
    · left
      have hNu : N < u := by
        by_contra hc
        nlinarith [mul_nonneg (sub_nonneg.2 (le_of_lt (not_le.1 hhu))) (sub_nonneg.2 (not_lt.1 hc))]
      nlinarith [mul_nonneg (sub_nonneg.2 h1) (show 0 ≤ 2 * u - (1 + s) * N by nlinarith)]
  · rintro (hq | ⟨h1, h2⟩)
    · exact ⟨1, zero_le_one, le_refl _, by linarith⟩
    · by_cases hq : N - 2 * u + h < 0
      · exact ⟨1, zero_le_one, le_refl _, by linarith⟩
      · have hNu : u ≤ N := by linarith [not_lt.1 hq]
        have hNp : 0 < N := by linarith
        refine ⟨u / N, div_nonneg (by linarith) hNp.le, (div_le_one hNp).2 hNu, ?_⟩
        have : (u / N) ^ 2 * N - 2 * (u / N) * u + h = (h * N - u ^ 2) / N := by
          field_simp
          ring
        rw [this]
        exact div_neg_of_neg_of_pos (by linarith) hNp

theorem trinomial_nonpos {N u h : ℝ} (hN : 0 ≤ N) (hh : 0 < h) (ht : N - 2 * u + h ≤ 0 ∨ (h ≤ u ∧ h * N ≤ u ^ 2)) : ∃ s, 0 < s ∧ s ≤ 1 ∧ s ^ 2 * N - 2 * s * u + h ≤ 0 := by
  rcases ht with hq | ⟨h1, h2⟩
  · exact ⟨1, one_pos, le_refl _, by linarith⟩
  · by_cases hq : N - 2 * u + h < 0
    · exact ⟨1, one_pos, le_refl _, by linarith⟩
    · have hNu : u ≤ N := by linarith [not_lt.1 hq]
      have hNp : 0 < N := by linarith
      have hu : 0 < u := by linarith
      refine ⟨u / N, by positivity, (div_le_one hNp).2 hNu, ?_⟩
      have : (u / N) ^ 2 * N - 2 * (u / N) * u + h = (h * N - u ^ 2) / N := by
        field_simp
        ring
      rw [this]
      exact div_nonpos_of_nonpos_of_nonneg (by linarith) hNp.le

theorem camera_add_sub (K X C : R3 ℝ) (s : ℝ) : K + s • (X - K) - C = s • (X - K) - (C - K) := by
  ext <;> simp only [R3.add_x, R3.add_y, R3.add_z, R3.sub_x, R3.sub_y, R3.sub_z, R3.smul_x, R3.smul_y, R3.smul_z] <;> ring

theorem hidden_iff {K X : R3 ℝ} {sphere : Sphere} (hh : sphere.radius ^ 2 < R3.normSq (sphere.centre - K)) :
    Hidden K sphere X ↔ R3.normSq (X - K) - 2 * R3.dot (X - K) (sphere.centre - K) + (R3.normSq (sphere.centre - K) - sphere.radius ^ 2) < 0 ∨
      (R3.normSq (sphere.centre - K) - sphere.radius ^ 2 ≤ R3.dot (X - K) (sphere.centre - K) ∧
        (R3.normSq (sphere.centre - K) - sphere.radius ^ 2) * R3.normSq (X - K) < R3.dot (X - K) (sphere.centre - K) ^ 2) := by
  rw [← trinomial_neg_iff (normSq_nonneg _) (by linarith)]
  unfold Hidden
  simp only [camera_add_sub, ← ray_eq]
  constructor
  · rintro ⟨s, a, b, c⟩
    exact ⟨s, a, b, by linarith⟩
  · rintro ⟨s, a, b, c⟩
    exact ⟨s, a, b, by linarith⟩

/-- A combination of two points of the ball, with positive coefficients whose sum is at least 1, is hidden. -/
theorem hidden_of_combination {X Y₁ Y₂ C : R3 ℝ} {R x₁ x₂ : ℝ} (h₁ : R3.normSq (Y₁ - C) ≤ R ^ 2) (h₂ : R3.normSq (Y₂ - C) ≤ R ^ 2) (hne : Y₁ ≠ Y₂) (hx₁ : 0 < x₁) (hx₂ : 0 < x₂) (hx : 1 ≤ x₁ + x₂)
    (hX : X = x₁ • Y₁ + x₂ • Y₂) : ∃ s : ℝ, 0 ≤ s ∧ s ≤ 1 ∧ R3.normSq (s • X - C) < R ^ 2 := by
  have hp : 0 < x₁ + x₂ := by linarith
  refine ⟨(x₁ + x₂)⁻¹, by positivity, inv_le_one_of_one_le₀ hx, ?_⟩
  have hd : 0 < R3.normSq (Y₁ - Y₂) := normSq_pos fun e => hne (by
    have := congrArg R3.x e
    have hy := congrArg R3.y e
    have hz := congrArg R3.z e
    simp only [R3.sub_x, R3.sub_y, R3.sub_z, R3.zero_x, R3.zero_y, R3.zero_z] at this hy hz
    ext <;> linarith)
  have key : R3.normSq ((x₁ + x₂)⁻¹ • X - C) =
      (x₁ / (x₁ + x₂)) * R3.normSq (Y₁ - C) + (x₂ / (x₁ + x₂)) * R3.normSq (Y₂ - C) - (x₁ / (x₁ + x₂)) * (x₂ / (x₁ + x₂)) * R3.normSq (Y₁ - Y₂) := by
    subst hX
    simp only [R3.normSq, R3.sub_x, R3.sub_y, R3.sub_z, R3.smul_x, R3.smul_y, R3.smul_z, R3.add_x, R3.add_y, R3.add_z]
    field_simp
    ring
  rw [key]
  have e1 : x₁ / (x₁ + x₂) + x₂ / (x₁ + x₂) = 1 := by
    field_simp
  have p1 : 0 < x₁ / (x₁ + x₂) := by positivity
  have p2 : 0 < x₂ / (x₁ + x₂) := by positivity
  nlinarith [mul_le_mul_of_nonneg_left h₁ p1.le, mul_le_mul_of_nonneg_left h₂ p2.le, mul_pos (mul_pos p1 p2) hd]

end Principia.Geometry.Perspectives
