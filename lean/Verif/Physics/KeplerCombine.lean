import Verif.Physics.KeplerCategories

/-!
Any two categories of elements of a conic determine the others, for C55.
-/

set_option linter.unusedSimpArgs false
set_option linter.unusedVariables false
set_option linter.unusedSectionVars false

namespace Principia.Physics.Kepler

open Real Fl

variable {c : Conic}

/-- Each category is complete, or has its main element. -/
structure Mid (c : Conic) (y : ConicElements) : Prop where
  ecc : y.ecc = c.elements.ecc ∨ y.ecc = { eccentricity := some (num c.e) }
  sma : y.sma = c.elements.sma ∨ y.sma = { semimajorAxis := some (num c.a) }
  smi : y.smi = c.elements.smi
  slr : y.slr = c.elements.slr ∨ y.slr = { semilatusRectum := some (num (c.a * (1 - c.e ^ 2))) }
  pe : y.periapsisDistance = c.elements.periapsisDistance
  ap : y.apoapsisDistance = c.elements.apoapsisDistance

section

variable (h : c.IsEllipse ∨ c.IsHyperbola)

include h

theorem a_ne : c.a ≠ 0 := by
  rcases h with h | h
  · exact h.a.ne'
  · exact h.a.ne

theorem e_ne : 1 - c.e ≠ 0 := by
  rcases h with h | h
  · have := h.e₁
    intro h'
    linarith
  · have := h.e
    intro h'
    linarith

theorem e_nonneg : 0 ≤ c.e := by
  rcases h with h | h
  · exact h.e₀
  · linarith [h.e]

theorem e_ne' : 1 + c.e ≠ 0 := by
  have := e_nonneg h
  positivity

theorem e_sq_ne : 1 - c.e ^ 2 ≠ 0 := by
  rw [show 1 - c.e ^ 2 = (1 - c.e) * (1 + c.e) by ring]
  exact mul_ne_zero (e_ne h) (e_ne' h)

theorem a_sqrt : num c.a * sqrt (num 1 - pow 2 (num c.e)) = c.ellipse (c.a * √(1 - c.e ^ 2)) := by
  rcases h with h | h
  · rw [num_pow, num_sub, sqrt_num' (by nlinarith [h.e₀, h.e₁]) rfl, num_mul, h.ellipse]
  · rw [num_pow, num_sub, sqrt_neg (by nlinarith [h.e]), mul_nan, h.ellipse]

theorem a_sqrt' : -num c.a * sqrt (pow 2 (num c.e) - num 1) = c.hyperbola (-c.a * √(c.e ^ 2 - 1)) := by
  rcases h with h | h
  · rw [num_pow, num_sub, sqrt_neg (by nlinarith [h.e₀, h.e₁]), mul_nan, h.hyperbola]
  · rw [num_pow, num_sub, sqrt_num' (by nlinarith [h.e]) rfl, num_neg, num_mul, h.hyperbola]

theorem sqrt_b {x : ℝ} (hx : x = c.a ^ 2 * (1 - c.e ^ 2)) : sqrt (num x) = c.ellipse (c.a * √(1 - c.e ^ 2)) := by
  rcases h with h | h
  · have he : 0 < 1 - c.e ^ 2 := by nlinarith [h.e₀, h.e₁]
    have ha := h.a
    rw [sqrt_num (y := c.a * √(1 - c.e ^ 2)) (by positivity) (by rw [hx, mul_pow, Real.sq_sqrt he.le]), h.ellipse]
  · rw [sqrt_neg, h.ellipse]
    rw [hx]
    have := h.a
    exact mul_neg_of_pos_of_neg (by have := h.a.ne; positivity) (by nlinarith [h.e])

theorem sqrt_p {x : ℝ} (hx : x = -(c.a ^ 2 * (1 - c.e ^ 2))) : sqrt (num x) = c.hyperbola (-c.a * √(c.e ^ 2 - 1)) := by
  rcases h with h | h
  · rw [sqrt_neg, h.hyperbola]
    rw [hx]
    have := h.a
    have : 0 < c.a ^ 2 * (1 - c.e ^ 2) := mul_pos (by positivity) (by nlinarith [h.e₀, h.e₁])
    linarith
  · have he : 0 < c.e ^ 2 - 1 := by nlinarith [h.e]
    have ha : 0 < -c.a := neg_pos.2 h.a
    rw [sqrt_num (y := -c.a * √(c.e ^ 2 - 1)) (by positivity) (by rw [hx, mul_pow, Real.sq_sqrt he.le]; ring), h.hyperbola]

theorem bSquared_eq :
    ConicElements.bSquared (c.ellipse (c.a * √(1 - c.e ^ 2))) (c.hyperbola (-c.a * √(c.e ^ 2 - 1))) = num (c.a ^ 2 * (1 - c.e ^ 2)) := by
  rcases h with h | h
  · rw [h.ellipse, h.hyperbola]
    unfold ConicElements.bSquared
    rw [if_neg (by exact id), num_pow, mul_pow, Real.sq_sqrt (by nlinarith [h.e₀, h.e₁])]
  · rw [h.ellipse, h.hyperbola]
    unfold ConicElements.bSquared
    rw [if_pos (show nan.IsNaN from trivial), num_pow, num_neg, mul_pow, Real.sq_sqrt (by nlinarith [h.e])]
    congr 1
    ring

theorem combine_ea : Mid c (ConicElements.combine { ecc := c.elements.ecc, sma := c.elements.sma }) := by
  refine ⟨Or.inl rfl, Or.inl rfl, ?_, Or.inr ?_, ?_, ?_⟩
  · show SemiminorForms.mk (some _) (some _) = SemiminorForms.mk (some _) (some _)
    rw [a_sqrt h, a_sqrt' h]
  · rfl
  · rfl
  · rfl

theorem abs_b : ∃ b, (open Classical in (if Fl.Gt (num c.e) (num 1) then c.hyperbola (-c.a * √(c.e ^ 2 - 1)) else c.ellipse (c.a * √(1 - c.e ^ 2))) = num b) ∧
    b * √|1 - c.e ^ 2| = c.a * (1 - c.e ^ 2) := by
  rcases h with h | h
  · have he : 0 ≤ 1 - c.e ^ 2 := by nlinarith [h.e₀, h.e₁]
    refine ⟨c.a * √(1 - c.e ^ 2), ?_, ?_⟩
    · rw [if_neg (by have := h.e₁; exact not_lt.2 this.le), h.ellipse]
    · rw [abs_of_nonneg he, mul_assoc, Real.mul_self_sqrt he]
  · have he : 0 ≤ c.e ^ 2 - 1 := by nlinarith [h.e]
    refine ⟨-c.a * √(c.e ^ 2 - 1), ?_, ?_⟩
    · rw [if_pos (by exact h.e), h.hyperbola]
    · rw [abs_of_nonpos (by linarith), show -(1 - c.e ^ 2) = c.e ^ 2 - 1 by ring, mul_assoc, Real.mul_self_sqrt he]
      ring

theorem combine_eb : Mid c (ConicElements.combine { ecc := c.elements.ecc, smi := c.elements.smi }) := by
  have ha := a_ne h
  have h1 := e_ne h
  have h2 := e_ne' h
  have h3 := e_sq_ne h
  obtain ⟨b, hb, hb'⟩ := abs_b h
  have hℓ : (open Classical in (if Fl.Gt (num c.e) (num 1) then c.hyperbola (-c.a * √(c.e ^ 2 - 1)) else c.ellipse (c.a * √(1 - c.e ^ 2)))) *
      sqrt (abs (num 1 - pow 2 (num c.e))) = num (c.a * (1 - c.e ^ 2)) := by
    rw [hb, num_pow, num_sub, num_abs, sqrt_num' (abs_nonneg _) rfl, num_mul, hb']
  have ha' : num (c.a * (1 - c.e ^ 2)) / (num 1 - pow 2 (num c.e)) = num c.a := by
    rw [num_pow, num_sub, num_div h3, mul_div_cancel_right₀ _ h3]
  have ha'' := hℓ
  refine ⟨Or.inl rfl, Or.inr ?_, rfl, Or.inr ?_, ?_, ?_⟩
  · show SemimajorForms.mk (some _) none none none none none none = SemimajorForms.mk (some _) none none none none none none
    congr 2
    exact (congrArg (· / (num 1 - pow 2 (num c.e))) hℓ).trans ha'
  · show SemilatusForms.mk (some _) none = SemilatusForms.mk (some _) none
    congr 2
  · show some _ = some _
    congr 1
    exact congrArg (· * (num 1 - num c.e)) ((congrArg (· / (num 1 - pow 2 (num c.e))) hℓ).trans ha')
  · show some _ = some _
    congr 1
    exact congrArg (· * (num 1 + num c.e)) ((congrArg (· / (num 1 - pow 2 (num c.e))) hℓ).trans ha')

theorem combine_el : Mid c (ConicElements.combine { ecc := c.elements.ecc, slr := c.elements.slr }) := by
  have ha := a_ne h
  have h1 := e_ne h
  have h2 := e_ne' h
  have h3 := e_sq_ne h
  have ha' : num (c.a * (1 - c.e ^ 2)) / (num 1 - pow 2 (num c.e)) = num c.a := by
    rw [num_pow, num_sub, num_div h3, mul_div_cancel_right₀ _ h3]
  refine ⟨Or.inl rfl, Or.inr ?_, ?_, Or.inl rfl, ?_, ?_⟩
  · show SemimajorForms.mk (some _) none none none none none none = SemimajorForms.mk (some _) none none none none none none
    rw [ha']
  · show SemiminorForms.mk (some _) (some _) = SemiminorForms.mk (some _) (some _)
    rw [ha', a_sqrt h, a_sqrt' h]
  · show some _ = some _
    rw [num_add, num_div h2]
    congr 2
    field_simp
    ring
  · show some _ = some _
    rw [num_sub, num_div h1]
    congr 2
    field_simp
    ring

theorem combine_ep : Mid c (ConicElements.combine { ecc := c.elements.ecc, periapsisDistance := c.elements.periapsisDistance }) := by
  have ha := a_ne h
  have h1 := e_ne h
  have h2 := e_ne' h
  have h3 := e_sq_ne h
  have ha' : num (c.a * (1 - c.e)) / (num 1 - num c.e) = num c.a := by
    rw [num_sub, num_div h1, mul_div_cancel_right₀ _ h1]
  refine ⟨Or.inl rfl, Or.inr ?_, ?_, Or.inr ?_, rfl, ?_⟩
  · show SemimajorForms.mk (some _) none none none none none none = SemimajorForms.mk (some _) none none none none none none
    rw [ha']
  · show SemiminorForms.mk (some _) (some _) = SemiminorForms.mk (some _) (some _)
    rw [ha', a_sqrt h, a_sqrt' h]
  · show SemilatusForms.mk (some _) none = SemilatusForms.mk (some _) none
    rw [num_add, num_mul]
    congr 3
    ring
  · show some _ = some _
    rw [ha', num_add, num_mul]

theorem combine_eq : Mid c (ConicElements.combine { ecc := c.elements.ecc, apoapsisDistance := c.elements.apoapsisDistance }) := by
  have ha := a_ne h
  have h1 := e_ne h
  have h2 := e_ne' h
  have h3 := e_sq_ne h
  have ha' : num (c.a * (1 + c.e)) / (num 1 + num c.e) = num c.a := by
    rw [num_add, num_div h2, mul_div_cancel_right₀ _ h2]
  refine ⟨Or.inl rfl, Or.inr ?_, ?_, Or.inr ?_, ?_, rfl⟩
  · show SemimajorForms.mk (some _) none none none none none none = SemimajorForms.mk (some _) none none none none none none
    rw [ha']
  · show SemiminorForms.mk (some _) (some _) = SemiminorForms.mk (some _) (some _)
    rw [ha', a_sqrt h, a_sqrt' h]
  · show SemilatusForms.mk (some _) none = SemilatusForms.mk (some _) none
    rw [num_sub, num_mul]
    congr 3
    ring
  · show some _ = some _
    rw [ha', num_sub, num_mul]

theorem sign_sqrt : signTimes (num c.a) (sqrt (num (c.a ^ 2 * c.e ^ 2))) = num (c.a * c.e) := by
  have he := e_nonneg h
  rcases h with h | h
  · have ha := h.a
    rw [sqrt_num (y := c.a * c.e) (by positivity) (by ring)]
    show (if c.a < 0 then num (-(c.a * c.e)) else num (c.a * c.e)) = _
    rw [if_neg (not_lt.2 ha.le)]
  · have ha : 0 < -c.a := neg_pos.2 h.a
    rw [sqrt_num (y := -c.a * c.e) (by positivity) (by ring)]
    show (if c.a < 0 then num (-(-c.a * c.e)) else num (-c.a * c.e)) = _
    rw [if_pos h.a]
    congr 1
    ring

theorem combine_ab : Mid c (ConicElements.combine { sma := c.elements.sma, smi := c.elements.smi }) := by
  have ha := a_ne h
  have h1 := e_ne h
  have h2 := e_ne' h
  have h3 := e_sq_ne h
  have hs : pow 2 (num c.a) - num (c.a ^ 2 * (1 - c.e ^ 2)) = num (c.a ^ 2 * c.e ^ 2) := by
    rw [num_pow, num_sub]
    congr 1
    ring
  refine ⟨Or.inr ?_, Or.inl rfl, rfl, Or.inr ?_, ?_, ?_⟩
  · show EccentricityForms.mk (some (sqrt (_ - ConicElements.bSquared (c.ellipse _) (c.hyperbola _) / _))) none none = EccentricityForms.mk (some _) none none
    rw [bSquared_eq h, num_pow, num_div (by positivity), num_sub, sqrt_num (y := c.e) (e_nonneg h) (by field_simp; ring)]
  · show SemilatusForms.mk (some (ConicElements.bSquared (c.ellipse _) (c.hyperbola _) / _)) none = SemilatusForms.mk (some _) none
    rw [bSquared_eq h, num_div ha]
    congr 3
    field_simp
  · show some (_ - signTimes (num c.a) (sqrt (_ - ConicElements.bSquared (c.ellipse _) (c.hyperbola _)))) = some _
    rw [bSquared_eq h, hs, sign_sqrt h, num_sub]
    congr 2
    ring
  · show some (_ + signTimes (num c.a) (sqrt (_ - ConicElements.bSquared (c.ellipse _) (c.hyperbola _)))) = some _
    rw [bSquared_eq h, hs, sign_sqrt h, num_add]
    congr 2
    ring

theorem combine_al : Mid c (ConicElements.combine { sma := c.elements.sma, slr := c.elements.slr }) := by
  have ha := a_ne h
  have h1 := e_ne h
  have h2 := e_ne' h
  have h3 := e_sq_ne h
  have he : sqrt (num 1 - num (c.a * (1 - c.e ^ 2)) / num c.a) = num c.e := by
    rw [num_div ha, num_sub, sqrt_num (y := c.e) (e_nonneg h) (by field_simp; ring)]
  refine ⟨Or.inr ?_, Or.inl rfl, ?_, Or.inl rfl, ?_, ?_⟩
  · show EccentricityForms.mk (some _) none none = EccentricityForms.mk (some _) none none
    rw [he]
  · show SemiminorForms.mk (some (Fl.sqrt _)) (some (Fl.sqrt _)) = SemiminorForms.mk (some _) (some _)
    rw [num_neg, num_mul, num_mul, sqrt_b h (by ring), sqrt_p h (by ring)]
  · show some _ = some _
    rw [he, num_add, num_div h2]
    congr 2
    field_simp
    ring
  · show some _ = some _
    rw [he, num_sub, num_div h1]
    congr 2
    field_simp
    ring

theorem combine_ap : Mid c (ConicElements.combine { sma := c.elements.sma, periapsisDistance := c.elements.periapsisDistance }) := by
  have ha := a_ne h
  have h1 := e_ne h
  have h2 := e_ne' h
  have h3 := e_sq_ne h
  refine ⟨Or.inr ?_, Or.inl rfl, ?_, Or.inr ?_, rfl, ?_⟩
  · show EccentricityForms.mk (some _) none none = EccentricityForms.mk (some _) none none
    rw [num_div ha, num_sub]
    congr 3
    field_simp
    ring
  · show SemiminorForms.mk (some (Fl.sqrt _)) (some (Fl.sqrt _)) = SemiminorForms.mk (some _) (some _)
    rw [num_mul, num_sub, num_sub, num_mul, num_mul, sqrt_b h (by ring), sqrt_p h (by ring)]
  · show SemilatusForms.mk (some _) none = SemilatusForms.mk (some _) none
    rw [num_div ha, num_sub, num_mul]
    congr 3
    field_simp
    ring
  · show some _ = some _
    rw [num_mul, num_sub]
    congr 2
    ring

theorem combine_aq : Mid c (ConicElements.combine { sma := c.elements.sma, apoapsisDistance := c.elements.apoapsisDistance }) := by
  have ha := a_ne h
  have h1 := e_ne h
  have h2 := e_ne' h
  have h3 := e_sq_ne h
  refine ⟨Or.inr ?_, Or.inl rfl, ?_, Or.inr ?_, ?_, rfl⟩
  · show EccentricityForms.mk (some _) none none = EccentricityForms.mk (some _) none none
    rw [num_div ha, num_sub]
    congr 3
    field_simp
    ring
  · show SemiminorForms.mk (some (Fl.sqrt _)) (some (Fl.sqrt _)) = SemiminorForms.mk (some _) (some _)
    rw [num_mul, num_sub, num_sub, num_mul, num_mul, sqrt_b h (by ring), sqrt_p h (by ring)]
  · show SemilatusForms.mk (some _) none = SemilatusForms.mk (some _) none
    rw [num_div ha, num_sub, num_mul]
    congr 3
    field_simp
    ring
  · show some _ = some _
    rw [num_mul, num_sub]
    congr 2
    ring

theorem combine_bl : Mid c (ConicElements.combine { smi := c.elements.smi, slr := c.elements.slr }) := by
  have ha := a_ne h
  have h1 := e_ne h
  have h2 := e_ne' h
  have h3 := e_sq_ne h
  have hℓ : c.a * (1 - c.e ^ 2) ≠ 0 := mul_ne_zero ha h3
  have hb : c.a ^ 2 * (1 - c.e ^ 2) ≠ 0 := mul_ne_zero (pow_ne_zero _ ha) h3
  have he : sqrt (num 1 - pow 2 (num (c.a * (1 - c.e ^ 2))) /
      ConicElements.bSquared (c.ellipse (c.a * √(1 - c.e ^ 2))) (c.hyperbola (-c.a * √(c.e ^ 2 - 1)))) = num c.e := by
    rw [bSquared_eq h, num_pow, num_div hb, num_sub, sqrt_num (y := c.e) (e_nonneg h) (by field_simp; ring)]
  refine ⟨Or.inr ?_, Or.inr ?_, rfl, Or.inl rfl, ?_, ?_⟩
  · show EccentricityForms.mk (some (sqrt (_ - _ / ConicElements.bSquared (c.ellipse _) (c.hyperbola _)))) none none = EccentricityForms.mk (some _) none none
    rw [he]
  · show SemimajorForms.mk (some (ConicElements.bSquared (c.ellipse _) (c.hyperbola _) / _)) none none none none none none =
      SemimajorForms.mk (some _) none none none none none none
    rw [bSquared_eq h, num_div hℓ]
    congr 3
    field_simp
  · show some (_ / (_ + sqrt (_ - _ / ConicElements.bSquared (c.ellipse _) (c.hyperbola _)))) = some _
    rw [he, num_add, num_div h2]
    congr 2
    field_simp
    ring
  · show some (_ / (_ - sqrt (_ - _ / ConicElements.bSquared (c.ellipse _) (c.hyperbola _)))) = some _
    rw [he, num_sub, num_div h1]
    congr 2
    field_simp
    ring

theorem combine_bp : Mid c (ConicElements.combine { smi := c.elements.smi, periapsisDistance := c.elements.periapsisDistance }) := by
  have ha := a_ne h
  have h1 := e_ne h
  have h2 := e_ne' h
  have h3 := e_sq_ne h
  have hp : c.a * (1 - c.e) ≠ 0 := mul_ne_zero ha h1
  have hs : c.a ^ 2 * (1 - c.e ^ 2) + (c.a * (1 - c.e)) ^ 2 = 2 * c.a * (c.a * (1 - c.e)) := by ring
  have hs' : 2 * c.a * (c.a * (1 - c.e)) ≠ 0 := mul_ne_zero (mul_ne_zero two_ne_zero ha) hp
  refine ⟨Or.inr ?_, Or.inr ?_, rfl, Or.inr ?_, rfl, ?_⟩
  · show EccentricityForms.mk (some ((ConicElements.bSquared (c.ellipse _) (c.hyperbola _) - _) / (ConicElements.bSquared (c.ellipse _) (c.hyperbola _) + _))) none none =
      EccentricityForms.mk (some _) none none
    rw [bSquared_eq h, num_pow, num_sub, num_add, hs, num_div hs']
    congr 3
    field_simp
    ring
  · show SemimajorForms.mk (some ((ConicElements.bSquared (c.ellipse _) (c.hyperbola _) + _) / _)) none none none none none none =
      SemimajorForms.mk (some _) none none none none none none
    rw [bSquared_eq h, num_pow, num_add, hs, num_mul, num_div (mul_ne_zero two_ne_zero hp)]
    congr 3
    field_simp
  · show SemilatusForms.mk (some (_ * ConicElements.bSquared (c.ellipse _) (c.hyperbola _) * _ / (ConicElements.bSquared (c.ellipse _) (c.hyperbola _) + _))) none =
      SemilatusForms.mk (some _) none
    rw [bSquared_eq h, num_pow, num_mul, num_mul, num_add, hs, num_div hs']
    congr 3
    field_simp
  · show some (ConicElements.bSquared (c.ellipse _) (c.hyperbola _) / _) = some _
    rw [bSquared_eq h, num_div hp]
    congr 2
    field_simp
    ring

theorem combine_bq : Mid c (ConicElements.combine { smi := c.elements.smi, apoapsisDistance := c.elements.apoapsisDistance }) := by
  have ha := a_ne h
  have h1 := e_ne h
  have h2 := e_ne' h
  have h3 := e_sq_ne h
  have hp : c.a * (1 + c.e) ≠ 0 := mul_ne_zero ha h2
  have hs : c.a ^ 2 * (1 - c.e ^ 2) + (c.a * (1 + c.e)) ^ 2 = 2 * c.a * (c.a * (1 + c.e)) := by ring
  have hs' : 2 * c.a * (c.a * (1 + c.e)) ≠ 0 := mul_ne_zero (mul_ne_zero two_ne_zero ha) hp
  refine ⟨Or.inr ?_, Or.inr ?_, rfl, Or.inr ?_, ?_, rfl⟩
  · show EccentricityForms.mk (some ((_ - ConicElements.bSquared (c.ellipse _) (c.hyperbola _)) / (ConicElements.bSquared (c.ellipse _) (c.hyperbola _) + _))) none none =
      EccentricityForms.mk (some _) none none
    rw [bSquared_eq h, num_pow, num_sub, num_add, hs, num_div hs']
    congr 3
    field_simp
    ring
  · show SemimajorForms.mk (some ((ConicElements.bSquared (c.ellipse _) (c.hyperbola _) + _) / _)) none none none none none none =
      SemimajorForms.mk (some _) none none none none none none
    rw [bSquared_eq h, num_pow, num_add, hs, num_mul, num_div (mul_ne_zero two_ne_zero hp)]
    congr 3
    field_simp
  · show SemilatusForms.mk (some (_ * ConicElements.bSquared (c.ellipse _) (c.hyperbola _) * _ / (ConicElements.bSquared (c.ellipse _) (c.hyperbola _) + _))) none =
      SemilatusForms.mk (some _) none
    rw [bSquared_eq h, num_pow, num_mul, num_mul, num_add, hs, num_div hs']
    congr 3
    field_simp
  · show some (ConicElements.bSquared (c.ellipse _) (c.hyperbola _) / _) = some _
    rw [bSquared_eq h, num_div hp]
    congr 2
    field_simp
    ring

theorem combine_lp : Mid c (ConicElements.combine { slr := c.elements.slr, periapsisDistance := c.elements.periapsisDistance }) := by
  have ha := a_ne h
  have h1 := e_ne h
  have h2 := e_ne' h
  have h3 := e_sq_ne h
  have hp : c.a * (1 - c.e) ≠ 0 := mul_ne_zero ha h1
  have hd : 2 * (c.a * (1 - c.e)) - c.a * (1 - c.e ^ 2) = c.a * (1 - c.e) ^ 2 := by ring
  have hd' : c.a * (1 - c.e) ^ 2 ≠ 0 := mul_ne_zero ha (pow_ne_zero _ h1)
  have ha' : pow 2 (num (c.a * (1 - c.e))) / (num 2 * num (c.a * (1 - c.e)) - num (c.a * (1 - c.e ^ 2))) = num c.a := by
    rw [num_pow, num_mul, num_sub, hd, num_div hd']
    congr 1
    field_simp
  refine ⟨Or.inr ?_, Or.inr ?_, ?_, Or.inl rfl, rfl, ?_⟩
  · show EccentricityForms.mk (some _) none none = EccentricityForms.mk (some _) none none
    rw [num_div hp, num_sub]
    congr 3
    field_simp
    ring
  · show SemimajorForms.mk (some _) none none none none none none = SemimajorForms.mk (some _) none none none none none none
    rw [ha']
  · show SemiminorForms.mk (some (Fl.sqrt _)) (some (Fl.sqrt _)) = SemiminorForms.mk (some _) (some _)
    rw [ha', num_neg, num_mul, num_mul, sqrt_b h (by ring), sqrt_p h (by ring)]
  · show some _ = some _
    rw [num_mul, num_mul, num_sub, hd, num_div hd']
    congr 2
    field_simp
    ring

theorem combine_lq : Mid c (ConicElements.combine { slr := c.elements.slr, apoapsisDistance := c.elements.apoapsisDistance }) := by
  have ha := a_ne h
  have h1 := e_ne h
  have h2 := e_ne' h
  have h3 := e_sq_ne h
  have hp : c.a * (1 + c.e) ≠ 0 := mul_ne_zero ha h2
  have hd : 2 * (c.a * (1 + c.e)) - c.a * (1 - c.e ^ 2) = c.a * (1 + c.e) ^ 2 := by ring
  have hd' : c.a * (1 + c.e) ^ 2 ≠ 0 := mul_ne_zero ha (pow_ne_zero _ h2)
  have ha' : pow 2 (num (c.a * (1 + c.e))) / (num 2 * num (c.a * (1 + c.e)) - num (c.a * (1 - c.e ^ 2))) = num c.a := by
    rw [num_pow, num_mul, num_sub, hd, num_div hd']
    congr 1
    field_simp
  refine ⟨Or.inr ?_, Or.inr ?_, ?_, Or.inl rfl, ?_, rfl⟩
  · show EccentricityForms.mk (some _) none none = EccentricityForms.mk (some _) none none
    rw [num_div hp, num_sub]
    congr 3
    field_simp
    ring
  · show SemimajorForms.mk (some _) none none none none none none = SemimajorForms.mk (some _) none none none none none none
    rw [ha']
  · show SemiminorForms.mk (some (Fl.sqrt _)) (some (Fl.sqrt _)) = SemiminorForms.mk (some _) (some _)
    rw [ha', num_neg, num_mul, num_mul, sqrt_b h (by ring), sqrt_p h (by ring)]
  · show some _ = some _
    rw [num_mul, num_mul, num_sub, hd, num_div hd']
    congr 2
    field_simp
    ring

theorem combine_pq :
    Mid c (ConicElements.combine { periapsisDistance := c.elements.periapsisDistance, apoapsisDistance := c.elements.apoapsisDistance }) := by
  have ha := a_ne h
  have h1 := e_ne h
  have h2 := e_ne' h
  have h3 := e_sq_ne h
  have hs : c.a * (1 + c.e) + c.a * (1 - c.e) = 2 * c.a := by ring
  have hs' : 2 * c.a ≠ 0 := mul_ne_zero two_ne_zero ha
  refine ⟨Or.inr ?_, Or.inr ?_, ?_, Or.inr ?_, rfl, rfl⟩
  · show EccentricityForms.mk (some _) none none = EccentricityForms.mk (some _) none none
    rw [num_sub, num_add, hs, num_div hs']
    congr 3
    field_simp
    ring
  · show SemimajorForms.mk (some _) none none none none none none = SemimajorForms.mk (some _) none none none none none none
    rw [num_add, hs, num_div two_ne_zero]
    congr 3
    field_simp
  · show SemiminorForms.mk (some (Fl.sqrt _)) (some (Fl.sqrt _)) = SemiminorForms.mk (some _) (some _)
    rw [num_neg, num_mul, num_mul, sqrt_b h (by ring), sqrt_p h (by ring)]
  · show SemilatusForms.mk (some _) none = SemilatusForms.mk (some _) none
    rw [num_add, hs, num_mul, num_mul, num_div hs']
    congr 3
    field_simp
    ring

end

end Principia.Physics.Kepler
