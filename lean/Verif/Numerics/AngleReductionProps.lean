import Verif.Numerics.AngleReductionModel
import Mathlib.Tactic.Ring
import Mathlib.Tactic.Linarith
import Mathlib.Tactic.FieldSimp
import Mathlib.Tactic.LinearCombination

/-!
C86: the reduction of the angles.
-/

set_option linter.unusedSimpArgs false
set_option linter.unusedVariables false

namespace Principia.Numerics.AngleReduction

open Real

noncomputable section

/-- The number of quadrants is within one quadrant of the angle.  It is not necessarily the nearest integer. -/
def Near (n : ℤ) (θ : ℝ) : Prop := |θ - n * (π / 2)| ≤ π / 2

/-- The result of the reduction: the quadrant is one of four, the reduced angle is no more than π / 2, and the angle is recovered up to a number of turns. -/
theorem reduce_spec (n : ℤ) (θ : ℝ) (hn : Near n θ) :
    (-(π / 2) ≤ (reduce n θ).1 ∧ (reduce n θ).1 ≤ π / 2) ∧ ∃ m : ℤ, ((reduce n θ).2 = 0 ∧ θ = (reduce n θ).1 + m * (2 * π) ∨ (reduce n θ).2 = 1 ∧ θ = (reduce n θ).1 + π / 2 + m * (2 * π) ∨
      (reduce n θ).2 = 2 ∧ θ = (reduce n θ).1 + π + m * (2 * π) ∨ (reduce n θ).2 = 3 ∧ θ = (reduce n θ).1 + 3 * π / 2 + m * (2 * π)) := by
  have hπ := pi_pos
  rw [reduce]
  split
  · rename_i h
    rw [abs_lt] at h
    exact ⟨⟨by linarith, by linarith⟩, 0, Or.inl ⟨rfl, by simp⟩⟩
  · refine ⟨abs_le.mp hn, n / 4, ?_⟩
    simp only
    have e : (n : ℝ) = 4 * ((n / 4 : ℤ) : ℝ) + ((n % 4 : ℤ) : ℝ) := by
      have := Int.mul_ediv_add_emod n 4
      exact_mod_cast this.symm
    have h4 : n % 4 = 0 ∨ n % 4 = 1 ∨ n % 4 = 2 ∨ n % 4 = 3 := by omega
    rcases h4 with h | h | h | h
    · left; refine ⟨h, ?_⟩; rw [h] at e; push_cast at e; linear_combination (π / 2) * e
    · right; left; refine ⟨h, ?_⟩; rw [h] at e; push_cast at e; linear_combination (π / 2) * e
    · right; right; left; refine ⟨h, ?_⟩; rw [h] at e; push_cast at e; linear_combination (π / 2) * e
    · right; right; right; refine ⟨h, ?_⟩; rw [h] at e; push_cast at e; linear_combination (π / 2) * e

theorem round_of_eq (a p : ℝ) (m : ℤ) (hp : p ≠ 0) (h : a = m * p) : round (a / p) = m := by
  rw [h, mul_div_assoc, div_self hp, mul_one, round_intCast]

/-- C86.  The reduction to [-π / 2, π / 2]: the result is in the interval, and the angle is the sum of the fractional part and of the integer part times π. -/
theorem C86_half (n : ℤ) (θ : ℝ) (hn : Near n θ) :
    -(π / 2) ≤ (reduceHalfParts n θ).1 ∧ (reduceHalfParts n θ).1 ≤ π / 2 ∧ θ = (reduceHalfParts n θ).1 + (reduceHalfParts n θ).2 * π := by
  have hπ := pi_pos
  obtain ⟨⟨h1, h2⟩, m, h⟩ := reduce_spec n θ hn
  have key : -(π / 2) ≤ reduceHalf n θ ∧ reduceHalf n θ ≤ π / 2 ∧ ∃ k : ℤ, θ - reduceHalf n θ = k * π := by
    rw [reduceHalf]
    rcases h with ⟨q, h⟩ | ⟨q, h⟩ | ⟨q, h⟩ | ⟨q, h⟩
    · rw [if_neg (by rw [q]; decide)]
      exact ⟨h1, h2, 2 * m, by push_cast; linarith⟩
    · rw [if_pos (Or.inl q)]
      split
      · exact ⟨by linarith, by linarith, 2 * m, by push_cast; linarith⟩
      · exact ⟨by linarith, by linarith, 2 * m + 1, by push_cast; linarith⟩
    · rw [if_neg (by rw [q]; decide)]
      exact ⟨h1, h2, 2 * m + 1, by push_cast; linarith⟩
    · rw [if_pos (Or.inr q)]
      split
      · exact ⟨by linarith, by linarith, 2 * m + 1, by push_cast; linarith⟩
      · exact ⟨by linarith, by linarith, 2 * m + 2, by push_cast; linarith⟩
  obtain ⟨a, b, k, hk⟩ := key
  refine ⟨a, b, ?_⟩
  simp only [reduceHalfParts]
  rw [round_of_eq _ _ k hπ.ne' hk]
  linarith

/-- C86.  The reduction to [-π, π]. -/
theorem C86_symmetric (n : ℤ) (θ : ℝ) (hn : Near n θ) :
    -π ≤ (reduceSymmetricParts n θ).1 ∧ (reduceSymmetricParts n θ).1 ≤ π ∧ θ = (reduceSymmetricParts n θ).1 + (reduceSymmetricParts n θ).2 * (2 * π) := by
  have hπ := pi_pos
  obtain ⟨⟨h1, h2⟩, m, h⟩ := reduce_spec n θ hn
  have key : -π ≤ reduceSymmetric n θ ∧ reduceSymmetric n θ ≤ π ∧ ∃ k : ℤ, θ - reduceSymmetric n θ = k * (2 * π) := by
    rw [reduceSymmetric]
    rcases h with ⟨q, h⟩ | ⟨q, h⟩ | ⟨q, h⟩ | ⟨q, h⟩
    · rw [if_neg (by rw [q]; decide), if_neg (by rw [q]; decide), if_neg (by rw [q]; decide)]
      exact ⟨by linarith, by linarith, m, by linarith⟩
    · rw [if_pos q]
      exact ⟨by linarith, by linarith, m, by linarith⟩
    · rw [if_neg (by rw [q]; decide), if_neg (by rw [q]; decide), if_pos q]
      split
      · exact ⟨by linarith, by linarith, m, by linarith⟩
      · exact ⟨by linarith, by linarith, m + 1, by push_cast; linarith⟩
    · rw [if_neg (by rw [q]; decide), if_pos q]
      exact ⟨by linarith, by linarith, m + 1, by push_cast; linarith⟩
  obtain ⟨a, b, k, hk⟩ := key
  refine ⟨a, b, ?_⟩
  simp only [reduceSymmetricParts]
  rw [round_of_eq _ _ k (by positivity) hk]
  linarith

/-- C86.  The reduction to [0, 2 π]. -/
theorem C86_positive (n : ℤ) (θ : ℝ) (hn : Near n θ) :
    0 ≤ (reducePositiveParts n θ).1 ∧ (reducePositiveParts n θ).1 ≤ 2 * π ∧ θ = (reducePositiveParts n θ).1 + (reducePositiveParts n θ).2 * (2 * π) := by
  have hπ := pi_pos
  obtain ⟨⟨h1, h2⟩, m, h⟩ := reduce_spec n θ hn
  have key : 0 ≤ reducePositive n θ ∧ reducePositive n θ ≤ 2 * π ∧ ∃ k : ℤ, θ - reducePositive n θ = k * (2 * π) := by
    rw [reducePositive]
    rcases h with ⟨q, h⟩ | ⟨q, h⟩ | ⟨q, h⟩ | ⟨q, h⟩
    · rw [if_neg (by rw [q]; decide), if_neg (by rw [q]; decide), if_neg (by rw [q]; decide)]
      split
      · exact ⟨by linarith, by linarith, m - 1, by push_cast; linarith⟩
      · exact ⟨by linarith, by linarith, m, by linarith⟩
    · rw [if_pos q]
      exact ⟨by linarith, by linarith, m, by linarith⟩
    · rw [if_neg (by rw [q]; decide), if_neg (by rw [q]; decide), if_pos q]
      exact ⟨by linarith, by linarith, m, by linarith⟩
    · rw [if_neg (by rw [q]; decide), if_pos q]
      exact ⟨by linarith, by linarith, m, by linarith⟩
  obtain ⟨a, b, k, hk⟩ := key
  refine ⟨a, b, ?_⟩
  simp only [reducePositiveParts]
  rw [round_of_eq _ _ k (by positivity) hk]
  linarith

/-- C86.  The sine and the cosine are those of the angle, irrespective of the quadrant that was chosen. -/
theorem C86_sin_cos (n : ℤ) (x : ℝ) (hn : Near n x) : sinFromQuadrant n x = sin x ∧ cosFromQuadrant n x = cos x ∧ sinCosFromQuadrant n x = (sin x, cos x) := by
  obtain ⟨-, m, h⟩ := reduce_spec n x hn
  have e1 : sin ((reduce n x).1 + 3 * π / 2) = -cos (reduce n x).1 := by
    rw [show (reduce n x).1 + 3 * π / 2 = (reduce n x).1 + π / 2 + π by ring, sin_add_pi, sin_add_pi_div_two]
  have e2 : cos ((reduce n x).1 + 3 * π / 2) = sin (reduce n x).1 := by
    rw [show (reduce n x).1 + 3 * π / 2 = (reduce n x).1 + π / 2 + π by ring, cos_add_pi, cos_add_pi_div_two, neg_neg]
  rw [sinFromQuadrant, cosFromQuadrant, sinCosFromQuadrant]
  rcases h with ⟨q, h⟩ | ⟨q, h⟩ | ⟨q, h⟩ | ⟨q, h⟩
  · have hs : sin x = sin (reduce n x).1 := by conv_lhs => rw [h, sin_add_int_mul_two_pi]
    have hc : cos x = cos (reduce n x).1 := by conv_lhs => rw [h, cos_add_int_mul_two_pi]
    simp [q, hs, hc]
  · have hs : sin x = cos (reduce n x).1 := by conv_lhs => rw [h, sin_add_int_mul_two_pi, sin_add_pi_div_two]
    have hc : cos x = -sin (reduce n x).1 := by conv_lhs => rw [h, cos_add_int_mul_two_pi, cos_add_pi_div_two]
    simp [q, hs, hc]
  · have hs : sin x = -sin (reduce n x).1 := by conv_lhs => rw [h, sin_add_int_mul_two_pi, sin_add_pi]
    have hc : cos x = -cos (reduce n x).1 := by conv_lhs => rw [h, cos_add_int_mul_two_pi, cos_add_pi]
    simp [q, hs, hc]
  · have hs : sin x = -cos (reduce n x).1 := by conv_lhs => rw [h, sin_add_int_mul_two_pi, e1]
    have hc : cos x = sin (reduce n x).1 := by conv_lhs => rw [h, cos_add_int_mul_two_pi, e2]
    simp [q, hs, hc]

/-- C86.  The cosine does not depend on the sign, so the reduction may lose it. -/
theorem C86_cos_abs (n : ℤ) (x : ℝ) (hn : Near n |x|) : cosFromQuadrant n |x| = cos x := by
  rw [(C86_sin_cos n |x| hn).2.1, cos_abs]

/-- The hypothesis of the theorems above: the nearest integer, as well as others. -/
example (θ : ℝ) : Near (round (θ / (π / 2))) θ ∧ Near ⌊θ / (π / 2)⌋ θ ∧ Near 1 2 ∧ Near 2 2 := by
  have hπ := pi_pos
  have h3 := two_le_pi
  have h4 := pi_le_four
  have e : θ = θ / (π / 2) * (π / 2) := by field_simp
  refine ⟨?_, ?_, ?_, ?_⟩
  · have h := abs_sub_round (θ / (π / 2))
    rw [Near]
    conv_lhs => rw [e]
    rw [show θ / (π / 2) * (π / 2) / (π / 2) = θ / (π / 2) by field_simp, ← sub_mul, abs_mul, abs_of_pos (show 0 < π / 2 by linarith)]
    nlinarith
  · have h1 := Int.floor_le (θ / (π / 2))
    have h2 := Int.lt_floor_add_one (θ / (π / 2))
    rw [Near]
    conv_lhs => rw [e]
    rw [show θ / (π / 2) * (π / 2) / (π / 2) = θ / (π / 2) by field_simp, ← sub_mul, abs_mul, abs_of_pos (show 0 < π / 2 by linarith), abs_of_nonneg (by linarith)]
    nlinarith
  · rw [Near, abs_le]; push_cast; constructor <;> linarith
  · rw [Near, abs_le]; push_cast; constructor <;> linarith

end

end Principia.Numerics.AngleReduction
