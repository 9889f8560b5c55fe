import Verif.Numerics.Hermite2Model
import Mathlib.Analysis.Calculus.Deriv.Mul
import Mathlib.Analysis.Calculus.Deriv.Add
import Mathlib.Tactic.Module
import Mathlib.Tactic.Ring
import Mathlib.Tactic.FieldSimp
import Mathlib.Tactic.Linarith

/-!
C83: the Hermite interpolation of degree 2.
-/

set_option linter.unusedSimpArgs false
set_option linter.unusedVariables false

namespace Principia.Numerics.Hermite2s

noncomputable section

variable {V : Type} [NormedAddCommGroup V] [NormedSpace ℝ V]

/-- C83.  For distinct arguments, the interpolation exists, it takes the given values at the arguments, and it has the given derivative at the first one. -/
theorem C83_interpolates (t₁ t₂ : ℝ) (h : t₁ ≠ t₂) (v₁ v₂ d : V) :
    ∃ p, construct (t₁, t₂) (v₁, v₂) d = some p ∧ p.evaluate t₁ = v₁ ∧ p.evaluate t₂ = v₂ ∧ p.evaluateDerivative t₁ = d := by
  have h' : t₂ - t₁ ≠ 0 := sub_ne_zero.mpr h.symm
  refine ⟨_, by rw [construct, if_neg (fun h => h' h.1), if_neg h'], ?_, ?_, ?_⟩
  · simp [Hermite2.evaluate]
  · simp only [Hermite2.evaluate, smul_add, smul_sub, smul_smul]
    have e1 : (t₂ - t₁) * ((t₂ - t₁) * (1 / (t₂ - t₁) * (1 / (t₂ - t₁)))) = 1 := by field_simp
    have e2 : (t₂ - t₁) * ((t₂ - t₁) * (1 / (t₂ - t₁))) = t₂ - t₁ := by field_simp
    rw [e1, e2]; module
  · simp [Hermite2.evaluateDerivative]

/-- C83.  `EvaluateDerivative` is the derivative of `Evaluate`. -/
theorem C83_derivative (p : Hermite2 V) (t : ℝ) : HasDerivAt p.evaluate (p.evaluateDerivative t) t := by
  have h1 : HasDerivAt (fun t : ℝ => t - p.first) 1 t := (hasDerivAt_id t).sub_const _
  have h2 := ((h1.smul_const p.a2).add_const p.a1)
  have h3 := (h1.smul h2).add_const p.a0
  have e : (t - p.first) • (1 : ℝ) • p.a2 + (1 : ℝ) • ((t - p.first) • p.a2 + p.a1) = p.evaluateDerivative t := by
    rw [Hermite2.evaluateDerivative]; module
  rw [e] at h3
  exact h3

/-- C83.  The interpolation reproduces the polynomials of degree at most 2. -/
theorem C83_reproduces (t₁ t₂ : ℝ) (h : t₁ ≠ t₂) (b₀ b₁ b₂ : V) (p : Hermite2 V)
    (hp : construct (t₁, t₂) (t₁ ^ 2 • b₂ + t₁ • b₁ + b₀, t₂ ^ 2 • b₂ + t₂ • b₁ + b₀) ((2 * t₁) • b₂ + b₁) = some p) (t : ℝ) :
    p.evaluate t = t ^ 2 • b₂ + t • b₁ + b₀ := by
  have h' : t₂ - t₁ ≠ 0 := sub_ne_zero.mpr h.symm
  rw [construct, if_neg (fun h => h' h.1), if_neg h'] at hp
  cases hp
  simp only [Hermite2.evaluate]
  have key : (1 / (t₂ - t₁) * (1 / (t₂ - t₁))) • (t₂ ^ 2 • b₂ + t₂ • b₁ + b₀ - (t₁ ^ 2 • b₂ + t₁ • b₁ + b₀)) - (1 / (t₂ - t₁)) • ((2 * t₁) • b₂ + b₁) = b₂ := by
    have e : t₂ ^ 2 • b₂ + t₂ • b₁ + b₀ - (t₁ ^ 2 • b₂ + t₁ • b₁ + b₀) = ((t₂ - t₁) * (t₂ + t₁)) • b₂ + (t₂ - t₁) • b₁ := by module
    rw [e]
    simp only [smul_add, smul_smul]
    have e1 : 1 / (t₂ - t₁) * (1 / (t₂ - t₁)) * ((t₂ - t₁) * (t₂ + t₁)) = 1 / (t₂ - t₁) * (2 * t₁) + 1 := by field_simp; ring
    have e2 : 1 / (t₂ - t₁) * (1 / (t₂ - t₁)) * (t₂ - t₁) = 1 / (t₂ - t₁) := by field_simp
    rw [e1, e2]; module
  rw [key]; module

/-- C83.  If the same point is given twice, the interpolation is the line with the given derivative; if the same argument is given with different values, it is not defined. -/
theorem C83_degenerate (t : ℝ) (v v' d : V) :
    (∃ p, construct (t, t) (v, v) d = some p ∧ ∀ s, p.evaluate s = v + (s - t) • d) ∧ (v ≠ v' → construct (t, t) (v, v') d = none) := by
  constructor
  · refine ⟨_, by rw [construct, if_pos ⟨sub_self _, rfl⟩], fun s => ?_⟩
    simp only [Hermite2.evaluate]; module
  · intro h
    rw [construct, if_neg (fun h' => h h'.2), if_pos (sub_self _)]

/-- C83.  The extremum is the only argument where the derivative is zero, and it is a minimum or a maximum of the polynomial; there is none if the polynomial is affine. -/
theorem C83_extremum (p : Hermite2 ℝ) :
    (∀ t, p.findExtremum = some t → (∀ s, p.evaluateDerivative s = 0 ↔ s = t) ∧ ((∀ s, p.evaluate t ≤ p.evaluate s) ∨ ∀ s, p.evaluate s ≤ p.evaluate t)) ∧
      (p.findExtremum = none ↔ ∀ s, p.evaluate s = p.a0 + (s - p.first) * p.a1) := by
  constructor
  · intro t ht
    rw [Hermite2.findExtremum] at ht
    by_cases h : 2 * p.a2 = 0
    · rw [if_pos h] at ht; cases ht
    · rw [if_neg h, Option.some.injEq] at ht
      have h2 : p.a2 ≠ 0 := fun h' => h (by rw [h', mul_zero])
      have e : ∀ s, p.evaluateDerivative s = 2 * p.a2 * (s - t) := by
        intro s
        simp only [Hermite2.evaluateDerivative, smul_eq_mul, ← ht]; field_simp; ring
      have e' : ∀ s, p.evaluate s - p.evaluate t = p.a2 * (s - t) ^ 2 := by
        intro s
        simp only [Hermite2.evaluate, smul_eq_mul, ← ht]; field_simp; ring
      refine ⟨fun s => ?_, ?_⟩
      · rw [e, mul_eq_zero, sub_eq_zero]
        exact ⟨fun h' => h'.resolve_left h, Or.inr⟩
      · rcases lt_or_gt_of_ne h2 with h3 | h3
        · right; intro s
          have := e' s; have := mul_nonneg (neg_nonneg.mpr h3.le) (sq_nonneg (s - t)); linarith
        · left; intro s
          have := e' s; have := mul_nonneg h3.le (sq_nonneg (s - t)); linarith
  · rw [Hermite2.findExtremum]
    constructor
    · intro h s
      by_cases h' : 2 * p.a2 = 0
      · have : p.a2 = 0 := by linarith
        simp [Hermite2.evaluate, this]; ring
      · rw [if_neg h'] at h; cases h
    · intro h
      have := h (p.first + 1)
      simp [Hermite2.evaluate] at this
      rw [if_pos (by linarith)]

/-- The hypotheses of the above: the parabola through (0, 1) and (2, 5) with a derivative of -2 has its extremum at 1/2. -/
example : ∃ p : Hermite2 ℝ, construct (0, 2) ((1 : ℝ), 5) (-2) = some p ∧ p.findExtremum = some (1 / 2) := by
  refine ⟨_, by rw [construct, if_neg (by norm_num), if_neg (by norm_num)], ?_⟩
  rw [Hermite2.findExtremum, if_neg (by norm_num)]
  norm_num

end

end Principia.Numerics.Hermite2s
