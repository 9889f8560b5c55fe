import Verif.Physics.KeplerSpec
import Mathlib.Tactic.FieldSimp
import Mathlib.Tactic.Positivity
import Mathlib.Tactic.Ring
import Mathlib.Tactic.Linarith
import Mathlib.Tactic.LinearCombination

/-!
The completion of each category of elements of a conic yields the elements of that conic, for C55.
-/

set_option linter.unusedSimpArgs false
set_option linter.unusedVariables false
set_option linter.unusedSectionVars false

namespace Principia.Physics.Kepler

open Real Fl

namespace Fl

@[simp] theorem num_add (x y : ℝ) : num x + num y = num (x + y) := rfl
@[simp] theorem num_sub (x y : ℝ) : num x - num y = num (x - y) := rfl
@[simp] theorem num_mul (x y : ℝ) : num x * num y = num (x * y) := rfl
@[simp] theorem num_neg (x : ℝ) : -num x = num (-x) := rfl
@[simp] theorem num_pow (n : ℕ) (x : ℝ) : pow n (num x) = num (x ^ n) := rfl
@[simp] theorem num_abs (x : ℝ) : abs (num x) = num |x| := rfl
@[simp] theorem num_sin (x : ℝ) : Fl.sin (num x) = num (Real.sin x) := rfl
@[simp] theorem num_cos (x : ℝ) : Fl.cos (num x) = num (Real.cos x) := rfl
@[simp] theorem mul_nan (x : Fl) : x * nan = nan := by cases x <;> rfl
@[simp] theorem nan_mul (x : Fl) : nan * x = nan := by cases x <;> rfl
@[simp] theorem div_nan (x : Fl) : x / nan = nan := by cases x <;> rfl
@[simp] theorem nan_div (x : Fl) : nan / x = nan := by cases x <;> rfl
@[simp] theorem cbrt_nan : cbrt nan = nan := rfl
@[simp] theorem arcSin_nan : arcSin nan = nan := rfl
@[simp] theorem arcCos_nan : arcCos nan = nan := rfl

theorem num_div {x y : ℝ} (h : y ≠ 0) : num x / num y = num (x / y) := by
  show (if y = 0 then nan else num (x / y)) = _
  rw [if_neg h]

theorem num_div_zero (x : ℝ) : num x / num 0 = nan := by
  show (if (0 : ℝ) = 0 then nan else num (x / 0)) = _
  rw [if_pos rfl]

theorem sqrt_num {x y : ℝ} (hy : 0 ≤ y) (h : x = y ^ 2) : sqrt (num x) = num y := by
  show (if x < 0 then nan else num √x) = _
  rw [if_neg (by rw [h]; exact not_lt.2 (sq_nonneg y)), h, Real.sqrt_sq hy]

theorem sqrt_num' {x y : ℝ} (hy : 0 ≤ y) (h : x = y) : sqrt (num x) = num √y := by
  show (if x < 0 then nan else num √x) = _
  rw [if_neg (by rw [h]; exact not_lt.2 hy), h]

theorem sqrt_neg {x : ℝ} (h : x < 0) : sqrt (num x) = nan := by
  show (if x < 0 then nan else num √x) = _
  rw [if_pos h]

theorem cbrt_num {x y : ℝ} (h : x = y ^ 3) : cbrt (num x) = num y := by
  show num _ = num y
  congr 1
  have key : ∀ z : ℝ, 0 ≤ z → (z ^ 3) ^ (1 / 3 : ℝ) = z := by
    intro z hz
    rw [← Real.rpow_natCast, ← Real.rpow_mul hz]
    norm_num
  rcases le_or_gt 0 y with hy | hy
  · rw [if_pos (by rw [h]; positivity), h, key y hy]
  · have h3 : y ^ 3 < 0 := by
      have := mul_pos_of_neg_of_neg hy hy
      nlinarith
    rw [if_neg (by rw [h]; exact not_le.2 h3), h, show -(y ^ 3) = (-y) ^ 3 by ring, key (-y) (by linarith), neg_neg]

theorem arcSin_num {x : ℝ} (h : -1 ≤ x ∧ x ≤ 1) : arcSin (num x) = num (arcsin x) := by
  show (if -1 ≤ x ∧ x ≤ 1 then num (Real.arcsin x) else nan) = _
  rw [if_pos h]

theorem arcSin_out {x : ℝ} (h : ¬(-1 ≤ x ∧ x ≤ 1)) : arcSin (num x) = nan := by
  show (if -1 ≤ x ∧ x ≤ 1 then num (Real.arcsin x) else nan) = _
  rw [if_neg h]

theorem arcCos_num {x : ℝ} (h : -1 ≤ x ∧ x ≤ 1) : arcCos (num x) = num (arccos x) := by
  show (if -1 ≤ x ∧ x ≤ 1 then num (Real.arccos x) else nan) = _
  rw [if_pos h]

theorem arcCos_out {x : ℝ} (h : ¬(-1 ≤ x ∧ x ≤ 1)) : arcCos (num x) = nan := by
  show (if -1 ≤ x ∧ x ≤ 1 then num (Real.arccos x) else nan) = _
  rw [if_neg h]

end Fl

namespace Conic

variable {c : Conic}

theorem IsEllipse.ellipse (h : c.IsEllipse) (x : ℝ) : c.ellipse x = num x := if_pos h.e₁
theorem IsEllipse.hyperbola (h : c.IsEllipse) (x : ℝ) : c.hyperbola x = nan := if_pos h.e₁
theorem IsHyperbola.ellipse (h : c.IsHyperbola) (x : ℝ) : c.ellipse x = nan := if_neg (not_lt.2 h.e.le)
theorem IsHyperbola.hyperbola (h : c.IsHyperbola) (x : ℝ) : c.hyperbola x = num x := if_neg (not_lt.2 h.e.le)

end Conic

variable {c : Conic}

theorem ecc_ellipse (h : c.IsEllipse) : EccentricityForms.fill { eccentricity := some (num c.e) } = c.elements.ecc := by
  have h1 : arcSin (num 1 / num c.e) = nan := by
    rcases h.e₀.eq_or_lt with h0 | h0
    · rw [← h0, num_div_zero, arcSin_nan]
    · rw [num_div h0.ne', arcSin_out]
      rintro ⟨_, h'⟩
      rw [div_le_one h0] at h'
      linarith [h.e₁]
  have h2 : arcCos (-num 1 / num c.e) = nan := by
    rcases h.e₀.eq_or_lt with h0 | h0
    · rw [← h0, num_neg, num_div_zero, arcCos_nan]
    · rw [num_neg, num_div h0.ne', arcCos_out]
      rintro ⟨h', _⟩
      rw [le_div_iff₀ h0] at h'
      linarith [h.e₁]
  show EccentricityForms.mk _ _ _ = EccentricityForms.mk _ _ _
  rw [h1, h2, h.hyperbola, h.hyperbola, mul_nan]

section Hyperbola

variable (h : c.IsHyperbola)

include h

theorem e_inv : -1 ≤ 1 / c.e ∧ 1 / c.e ≤ 1 := by
  have := h.e
  constructor
  · have : 0 < 1 / c.e := by positivity
    linarith
  · rw [div_le_one (by linarith)]
    linarith

theorem ecc_hyperbola : EccentricityForms.fill { eccentricity := some (num c.e) } = c.elements.ecc := by
  have he := h.e
  have e0 : c.e ≠ 0 := by linarith
  have h' := e_inv h
  show EccentricityForms.mk _ _ _ = EccentricityForms.mk _ _ _
  rw [h.hyperbola, h.hyperbola, num_neg, num_div e0, num_div e0, arcSin_num h', show (-1 : ℝ) / c.e = -(1 / c.e) by ring,
    arcCos_num ⟨by linarith, by linarith⟩, num_mul]

theorem ecc_turning : EccentricityForms.fill { turningAngle := some (c.hyperbola (2 * arcsin (1 / c.e))) } = c.elements.ecc := by
  have he := h.e
  have e0 : c.e ≠ 0 := by linarith
  have h' := e_inv h
  show EccentricityForms.mk _ _ _ = EccentricityForms.mk _ _ _
  have h1 : 2 * arcsin (1 / c.e) / 2 = arcsin (1 / c.e) := by ring
  have h2 : (2 * arcsin (1 / c.e) + π) / 2 = arccos (-(1 / c.e)) := by
    rw [arccos_neg, arccos]
    ring
  rw [h.hyperbola, h.hyperbola, num_add, num_div two_ne_zero, num_div two_ne_zero, num_sin, h1, h2, sin_arcsin h'.1 h'.2, num_div (by simpa using e0),
    show 1 / (1 / c.e) = c.e by field_simp]

theorem ecc_asymptotic : EccentricityForms.fill { asymptoticTrueAnomaly := some (c.hyperbola (arccos (-(1 / c.e)))) } = c.elements.ecc := by
  have he := h.e
  have e0 : c.e ≠ 0 := by linarith
  have h' := e_inv h
  show EccentricityForms.mk _ _ _ = EccentricityForms.mk _ _ _
  have h2 : 2 * arccos (-(1 / c.e)) - π = 2 * arcsin (1 / c.e) := by
    rw [arccos_neg, arccos]
    ring
  rw [h.hyperbola, h.hyperbola, num_cos, cos_arccos (by linarith) (by linarith), num_neg, num_div (by simpa using e0), num_mul, num_sub, h2,
    show (-1) / (-(1 / c.e)) = c.e by field_simp]

end Hyperbola

theorem fold_sma (μ : Fl) (x₁ x₂ x₃ x₄ x₅ x₆ x₇ : Option Fl) {g : SemimajorForms} (h₁ : x₁ = g.semimajorAxis) (h₂ : x₂ = g.specificEnergy) (h₃ : x₃ = g.characteristicEnergy)
    (h₄ : x₄ = g.meanMotion) (h₅ : x₅ = g.period) (h₆ : x₆ = g.hyperbolicMeanMotion) (h₇ : x₇ = g.hyperbolicExcessVelocity) :
    SemimajorForms.mk x₁ x₂ x₃ x₄ x₅ x₆ x₇ = g := by
  subst h₁ h₂ h₃ h₄ h₅ h₆ h₇
  rfl

section SemimajorEllipse

variable (h : c.IsEllipse)

include h

/-- The mean motion. -/
theorem n_pos : 0 < √(c.μ / c.a ^ 3) := by
  have := h.μ
  have := h.a
  positivity

theorem n_sq : √(c.μ / c.a ^ 3) ^ 2 = c.μ / c.a ^ 3 := by
  have := h.μ
  have := h.a
  exact Real.sq_sqrt (by positivity)

theorem sma_a : SemimajorForms.fill (num c.μ) { semimajorAxis := some (num c.a) } = c.elements.sma := by
  have hμ := h.μ
  have ha := h.a
  have hn := n_pos h
  have hn2 := n_sq h
  have hπ := Real.pi_pos
  apply fold_sma (num c.μ) <;> show some _ = some _ <;> congr 1
  · rw [num_neg, num_mul, num_div (by positivity)]
  · rw [num_neg, num_div (by positivity)]
  · rw [num_pow, num_div (by positivity), h.ellipse, sqrt_num' (by positivity) rfl]
  · rw [num_pow, num_div (by positivity), h.ellipse, sqrt_num (y := 1 / √(c.μ / c.a ^ 3)) (by positivity) (by rw [div_pow, hn2]; field_simp), num_mul,
      mul_one_div]
  · rw [num_neg, num_pow, num_div (by have : 0 < c.a ^ 3 := by positivity
                                      nlinarith [this, show (-c.a) ^ 3 = -(c.a ^ 3) by ring]), h.hyperbola, sqrt_neg]
    rw [show (-c.a) ^ 3 = -(c.a ^ 3) by ring, div_neg]
    have : 0 < c.μ / c.a ^ 3 := by positivity
    linarith
  · rw [num_neg, num_div (by positivity), h.hyperbola, sqrt_neg]
    rw [neg_div]
    have : 0 < c.μ / c.a := by positivity
    linarith

theorem sma_energy : SemimajorForms.fill (num c.μ) { specificEnergy := some (num (-c.μ / (2 * c.a))) } = c.elements.sma := by
  have hμ := h.μ
  have ha := h.a
  have hn := n_pos h
  have hn2 := n_sq h
  have hπ := Real.pi_pos
  have hε : -c.μ / (2 * c.a) < 0 := div_neg_of_neg_of_pos (by linarith) (by linarith)
  apply fold_sma (num c.μ) <;> show some _ = some _ <;> congr 1
  · rw [num_neg, num_mul, num_div (by nlinarith)]
    congr 1
    field_simp
  · rw [num_mul]
    congr 1
    field_simp
  · rw [num_pow, num_pow, num_mul, num_div (by positivity), h.ellipse, sqrt_num (y := √(c.μ / c.a ^ 3) / 2) (by positivity)
      (by rw [div_pow √(c.μ / c.a ^ 3), hn2]; field_simp; try ring), num_mul]
    congr 1
    ring
  · have : (-c.μ / (2 * c.a)) ^ 3 ≠ 0 := pow_ne_zero _ hε.ne
    rw [num_pow, num_pow, num_mul, num_neg, num_div (by simpa using this), h.ellipse, sqrt_num (y := 2 / √(c.μ / c.a ^ 3)) (by positivity)
      (by rw [div_pow _ √(c.μ / c.a ^ 3), hn2]; field_simp; try ring), num_mul]
    congr 1
    ring
  · rw [num_pow, num_pow, num_mul, num_div (by positivity), h.hyperbola, sqrt_neg, mul_nan]
    apply div_neg_of_neg_of_pos _ (by positivity)
    nlinarith [pow_pos (neg_pos.2 hε) 3, show (-(-c.μ / (2 * c.a))) ^ 3 = -((-c.μ / (2 * c.a)) ^ 3) by ring]
  · rw [num_mul, h.hyperbola, sqrt_neg]
    linarith

theorem sma_c3 : SemimajorForms.fill (num c.μ) { characteristicEnergy := some (num (-c.μ / c.a)) } = c.elements.sma := by
  have hμ := h.μ
  have ha := h.a
  have hn := n_pos h
  have hn2 := n_sq h
  have hπ := Real.pi_pos
  have hε : -c.μ / c.a < 0 := div_neg_of_neg_of_pos (by linarith) (by linarith)
  have hε3 : (-c.μ / c.a) ^ 3 < 0 := by
    nlinarith [pow_pos (neg_pos.2 hε) 3, show (-(-c.μ / c.a)) ^ 3 = -((-c.μ / c.a) ^ 3) by ring]
  apply fold_sma (num c.μ) <;> show some _ = some _ <;> congr 1
  · rw [num_neg, num_div hε.ne]
    congr 1
    field_simp
  · rw [num_div two_ne_zero]
    congr 1
    field_simp
  · rw [num_pow, num_pow, num_neg, num_div (by positivity), h.ellipse, sqrt_num (y := √(c.μ / c.a ^ 3)) (by positivity)
      (by rw [hn2]; field_simp)]
  · rw [num_pow, num_pow, num_neg, num_div hε3.ne, h.ellipse, sqrt_num (y := 1 / √(c.μ / c.a ^ 3)) (by positivity)
      (by rw [div_pow _ √(c.μ / c.a ^ 3), hn2]; field_simp), num_mul]
    congr 1
    ring
  · rw [num_pow, num_pow, num_div (by positivity), h.hyperbola, sqrt_neg]
    exact div_neg_of_neg_of_pos hε3 (by positivity)
  · rw [h.hyperbola, sqrt_neg hε]

theorem cbrt_μn : ∃ w, w ^ 3 = c.μ * √(c.μ / c.a ^ 3) ∧ w ^ 2 = c.μ / c.a ∧ 0 < w := by
  have hμ := h.μ
  have ha := h.a
  have h2 : √(c.μ / c.a) ^ 2 = c.μ / c.a := Real.sq_sqrt (by positivity)
  refine ⟨√(c.μ / c.a), ?_, h2, by positivity⟩
  have h1 : √(c.μ / c.a ^ 3) = √(c.μ / c.a) / c.a := by
    rw [Real.sqrt_eq_iff_eq_sq (by positivity) (by positivity), div_pow, h2]
    field_simp
  rw [h1, pow_succ, h2]
  field_simp

theorem sma_n : SemimajorForms.fill (num c.μ) { meanMotion := some (num √(c.μ / c.a ^ 3)) } = c.elements.sma := by
  have hμ := h.μ
  have ha := h.a
  have hn := n_pos h
  have hn2 := n_sq h
  have hπ := Real.pi_pos
  obtain ⟨w, w3, w2, w0⟩ := cbrt_μn h
  apply fold_sma (num c.μ) <;> show some _ = some _ <;> congr 1
  · rw [num_pow, num_div (by positivity), cbrt_num (y := c.a)]
    rw [hn2]
    field_simp
  · rw [num_mul, cbrt_num w3.symm, num_pow, num_neg, num_div two_ne_zero, w2]
    congr 1
    field_simp
  · rw [num_mul, cbrt_num w3.symm, num_pow, num_neg, w2]
    congr 1
    ring
  · exact (h.ellipse _).symm
  · rw [num_div hn.ne', h.ellipse]
  · rw [num_pow, num_neg, sqrt_neg (by nlinarith), h.hyperbola]
  · rw [num_mul, cbrt_num w3.symm, num_pow, num_neg, sqrt_neg (by nlinarith), h.hyperbola]

theorem sma_T : SemimajorForms.fill (num c.μ) { period := some (num (2 * π / √(c.μ / c.a ^ 3))) } = c.elements.sma := by
  have hμ := h.μ
  have ha := h.a
  have hn := n_pos h
  have hn2 := n_sq h
  have hπ := Real.pi_pos
  have hT : 0 < 2 * π / √(c.μ / c.a ^ 3) := by positivity
  generalize √(c.μ / c.a ^ 3) = n at hn hn2 hT ⊢
  have hμ' : c.μ = n ^ 2 * c.a ^ 3 := by
    rw [hn2]
    field_simp
  have en : √(c.μ / c.a ^ 3) = n := by
    rw [← hn2, Real.sqrt_sq hn.le]
  apply fold_sma (num c.μ) <;> show some _ = some _ <;> congr 1
  · rw [num_div (by positivity), num_pow, num_mul, cbrt_num (y := c.a)]
    rw [hμ']
    field_simp
  · rw [num_mul, num_div hT.ne', num_pow, num_div two_ne_zero, cbrt_num (y := c.μ / (2 * c.a)), num_neg]
    · congr 1
      ring
    · rw [hμ']
      field_simp
      try ring
  · rw [num_mul, num_div hT.ne', num_pow, cbrt_num (y := c.μ / c.a), num_neg]
    · congr 1
      ring
    · rw [hμ']
      field_simp
  · rw [num_div hT.ne', h.ellipse, en]
    congr 1
    field_simp
  · rw [en, h.ellipse]
  · rw [num_pow, num_div (by positivity), sqrt_neg (div_neg_of_neg_of_pos (by norm_num) (by positivity)), mul_nan, h.hyperbola]
  · rw [num_div hT.ne', num_pow, num_neg, sqrt_neg, mul_nan, cbrt_nan, h.hyperbola]
    have : 0 < c.μ / (2 * π / n) := by positivity
    nlinarith

end SemimajorEllipse

section SemimajorHyperbola

variable (h : c.IsHyperbola)

include h

/-- The hyperbolic mean motion. -/
theorem m_pos : 0 < √(c.μ / (-c.a) ^ 3) := by
  have := h.μ
  have : 0 < -c.a := neg_pos.2 h.a
  positivity

theorem m_sq : √(c.μ / (-c.a) ^ 3) ^ 2 = c.μ / (-c.a) ^ 3 := by
  have := h.μ
  have : 0 < -c.a := neg_pos.2 h.a
  exact Real.sq_sqrt (by positivity)

theorem cbrt_μm : ∃ w, w ^ 3 = c.μ * √(c.μ / (-c.a) ^ 3) ∧ w ^ 2 = c.μ / -c.a ∧ 0 < w ∧ √(c.μ / -c.a) = w := by
  have hμ := h.μ
  have ha : 0 < -c.a := neg_pos.2 h.a
  have h2 : √(c.μ / -c.a) ^ 2 = c.μ / -c.a := Real.sq_sqrt (by positivity)
  refine ⟨√(c.μ / -c.a), ?_, h2, by positivity, rfl⟩
  have h1 : √(c.μ / (-c.a) ^ 3) = √(c.μ / -c.a) / -c.a := by
    rw [Real.sqrt_eq_iff_eq_sq (by positivity) (by positivity), div_pow, h2]
    field_simp
  rw [h1, pow_succ, h2]
  field_simp

theorem sma_a' : SemimajorForms.fill (num c.μ) { semimajorAxis := some (num c.a) } = c.elements.sma := by
  have hμ := h.μ
  have ha := h.a
  have ha' : 0 < -c.a := neg_pos.2 h.a
  have ha3 : c.a ^ 3 < 0 := by nlinarith [pow_pos ha' 3]
  have hm := m_pos h
  have hm2 := m_sq h
  apply fold_sma (num c.μ) <;> show some _ = some _ <;> congr 1
  · rw [num_neg, num_mul, num_div (by nlinarith)]
  · rw [num_neg, num_div ha.ne]
  · rw [num_pow, num_div ha3.ne, h.ellipse, sqrt_neg (div_neg_of_pos_of_neg hμ ha3)]
  · rw [num_pow, num_div hμ.ne', h.ellipse, sqrt_neg (div_neg_of_neg_of_pos ha3 hμ), mul_nan]
  · rw [num_neg, num_pow, num_div (by positivity), h.hyperbola, sqrt_num' (by positivity) rfl]
  · rw [num_neg, num_div ha.ne, h.hyperbola, sqrt_num' (y := c.μ / -c.a) (by positivity)]
    rw [neg_div, div_neg]

theorem sma_energy' : SemimajorForms.fill (num c.μ) { specificEnergy := some (num (-c.μ / (2 * c.a))) } = c.elements.sma := by
  have hμ := h.μ
  have ha := h.a
  have ha' : 0 < -c.a := neg_pos.2 h.a
  have hm := m_pos h
  have hm2 := m_sq h
  have hε : 0 < -c.μ / (2 * c.a) := div_pos_of_neg_of_neg (by linarith) (by linarith)
  have hε3 : 0 < (-c.μ / (2 * c.a)) ^ 3 := by positivity
  apply fold_sma (num c.μ) <;> show some _ = some _ <;> congr 1
  · rw [num_neg, num_mul, num_div (by positivity)]
    congr 1
    field_simp
  · rw [num_mul]
    congr 1
    field_simp
  · rw [num_pow, num_pow, num_mul, num_div (by positivity), h.ellipse, sqrt_neg (div_neg_of_neg_of_pos (by linarith) (by positivity)), mul_nan]
  · rw [num_pow, num_pow, num_mul, num_neg, num_div (by positivity), h.ellipse, sqrt_neg (div_neg_of_neg_of_pos (by nlinarith) (by positivity)), mul_nan]
  · rw [num_pow, num_pow, num_mul, num_div (by positivity), h.hyperbola, sqrt_num (y := √(c.μ / (-c.a) ^ 3) / 2) (by positivity)
      (by rw [div_pow √(c.μ / (-c.a) ^ 3), hm2]; field_simp; try ring), num_mul]
    congr 1
    ring
  · rw [num_mul, h.hyperbola, sqrt_num' (y := c.μ / -c.a) (by positivity)]
    field_simp

theorem sma_c3' : SemimajorForms.fill (num c.μ) { characteristicEnergy := some (num (-c.μ / c.a)) } = c.elements.sma := by
  have hμ := h.μ
  have ha := h.a
  have ha' : 0 < -c.a := neg_pos.2 h.a
  have hm := m_pos h
  have hm2 := m_sq h
  have hε : 0 < -c.μ / c.a := div_pos_of_neg_of_neg (by linarith) (by linarith)
  have hε3 : 0 < (-c.μ / c.a) ^ 3 := by positivity
  apply fold_sma (num c.μ) <;> show some _ = some _ <;> congr 1
  · rw [num_neg, num_div hε.ne']
    congr 1
    field_simp
  · rw [num_div two_ne_zero]
    congr 1
    field_simp
  · rw [num_pow, num_pow, num_neg, num_div (by positivity), h.ellipse, sqrt_neg (div_neg_of_neg_of_pos (by linarith) (by positivity))]
  · rw [num_pow, num_pow, num_neg, num_div (by positivity), h.ellipse, sqrt_neg (div_neg_of_neg_of_pos (by nlinarith) (by positivity)), mul_nan]
  · rw [num_pow, num_pow, num_div (by positivity), h.hyperbola, sqrt_num (y := √(c.μ / (-c.a) ^ 3)) (by positivity)
      (by rw [hm2]; field_simp; try ring)]
  · rw [h.hyperbola, sqrt_num' (y := c.μ / -c.a) (by positivity)]
    rw [neg_div, div_neg]

theorem sma_m : SemimajorForms.fill (num c.μ) { hyperbolicMeanMotion := some (num √(c.μ / (-c.a) ^ 3)) } = c.elements.sma := by
  have hμ := h.μ
  have ha := h.a
  have ha' : 0 < -c.a := neg_pos.2 h.a
  have hm := m_pos h
  have hm2 := m_sq h
  obtain ⟨w, w3, w2, w0, hw⟩ := cbrt_μm h
  apply fold_sma (num c.μ) <;> show some _ = some _ <;> congr 1
  · rw [num_pow, num_div (by positivity), cbrt_num (y := -c.a), num_neg, neg_neg]
    rw [hm2]
    field_simp
  · rw [num_mul, cbrt_num w3.symm, num_pow, num_div two_ne_zero, w2]
    congr 1
    field_simp
  · rw [num_mul, cbrt_num w3.symm, num_pow, w2]
    congr 1
    field_simp
  · rw [num_pow, num_neg, sqrt_neg (by nlinarith), h.ellipse]
  · rw [num_pow, num_neg, sqrt_neg (by nlinarith), h.ellipse, div_nan]
  · exact (h.hyperbola _).symm
  · rw [num_mul, cbrt_num w3.symm, num_pow, sqrt_num w0.le rfl, h.hyperbola, hw]

theorem sma_v : SemimajorForms.fill (num c.μ) { hyperbolicExcessVelocity := some (num √(c.μ / -c.a)) } = c.elements.sma := by
  have hμ := h.μ
  have ha := h.a
  have ha' : 0 < -c.a := neg_pos.2 h.a
  have hm := m_pos h
  have hm2 := m_sq h
  obtain ⟨w, w3, w2, w0, hw⟩ := cbrt_μm h
  rw [hw]
  have w6 : w ^ 6 = c.μ ^ 2 * (c.μ / (-c.a) ^ 3) := by
    rw [← hm2, show w ^ 6 = (w ^ 3) ^ 2 by ring, w3]
    ring
  apply fold_sma (num c.μ) <;> show some _ = some _ <;> congr 1
  · rw [num_pow, num_neg, num_div (by positivity), w2]
    congr 1
    field_simp
  · rw [num_pow, num_div two_ne_zero, w2]
    congr 1
    field_simp
  · rw [num_pow, w2]
    congr 1
    field_simp
  · rw [num_pow, num_pow, num_neg, num_div (by positivity), sqrt_neg (div_neg_of_neg_of_pos (by nlinarith [pow_pos w0 6]) (by positivity)), h.ellipse]
  · rw [num_pow, num_pow, num_neg, num_div (by positivity), sqrt_neg (div_neg_of_neg_of_pos (by nlinarith) (by positivity)), mul_nan, h.ellipse]
  · rw [num_pow, num_pow, num_div (by positivity), h.hyperbola, sqrt_num' (y := c.μ / (-c.a) ^ 3) (by positivity)]
    rw [w6]
    field_simp
  · rw [h.hyperbola, hw]

end SemimajorHyperbola

theorem smi_b (h : c.IsEllipse) : SemiminorForms.fill { semiminorAxis := some (num (c.a * √(1 - c.e ^ 2))) } = c.elements.smi := by
  have ha := h.a
  have he : 0 < 1 - c.e ^ 2 := by nlinarith [h.e₀, h.e₁]
  have hb : 0 < c.a * √(1 - c.e ^ 2) := by positivity
  show SemiminorForms.mk _ _ = SemiminorForms.mk _ _
  rw [num_pow, num_neg, sqrt_neg (by nlinarith), h.ellipse, h.hyperbola]

theorem smi_p (h : c.IsHyperbola) : SemiminorForms.fill { impactParameter := some (num (-c.a * √(c.e ^ 2 - 1))) } = c.elements.smi := by
  have ha : 0 < -c.a := neg_pos.2 h.a
  have he : 0 < c.e ^ 2 - 1 := by nlinarith [h.e]
  have hb : 0 < -c.a * √(c.e ^ 2 - 1) := by positivity
  show SemiminorForms.mk _ _ = SemiminorForms.mk _ _
  rw [num_pow, num_neg, sqrt_neg (by nlinarith), h.ellipse, h.hyperbola]

/-- The semilatus rectum is positive. -/
theorem slr_pos (h : c.IsEllipse ∨ c.IsHyperbola) : 0 < c.a * (1 - c.e ^ 2) := by
  rcases h with h | h
  · have he : 0 < 1 - c.e ^ 2 := by nlinarith [h.e₀, h.e₁]
    exact mul_pos h.a he
  · have he : 1 - c.e ^ 2 < 0 := by nlinarith [h.e]
    exact mul_pos_of_neg_of_neg h.a he

theorem slr_l (h : c.IsEllipse ∨ c.IsHyperbola) : SemilatusForms.fill (num c.μ) { semilatusRectum := some (num (c.a * (1 - c.e ^ 2))) } = c.elements.slr := by
  have hμ : 0 < c.μ := h.elim (fun h => h.μ) fun h => h.μ
  have hl := slr_pos h
  show SemilatusForms.mk _ _ = SemilatusForms.mk _ _
  rw [num_mul, sqrt_num' (by positivity) rfl]

theorem slr_h (h : c.IsEllipse ∨ c.IsHyperbola) :
    SemilatusForms.fill (num c.μ) { specificAngularMomentum := some (num √(c.μ * (c.a * (1 - c.e ^ 2)))) } = c.elements.slr := by
  have hμ : 0 < c.μ := h.elim (fun h => h.μ) fun h => h.μ
  have hl := slr_pos h
  show SemilatusForms.mk _ _ = SemilatusForms.mk _ _
  rw [num_pow, num_div hμ.ne', Real.sq_sqrt (by positivity), mul_div_cancel_left₀ _ hμ.ne']

end Principia.Physics.Kepler
