import Verif.Physics.KeplerMotionHyperbola
import Verif.Physics.KeplerProps
import Verif.Physics.KeplerFailure

/-!
C56: the state vectors of an orbit constructed from its elements.
-/

set_option linter.unusedSimpArgs false
set_option linter.unusedVariables false
set_option linter.unusedSectionVars false

namespace Principia.Physics.Kepler

open Geometry Real Fl

variable {c : Conic} {brent : RootFinder} {p : Plane}

/-- The orbit has the elements of the conic and of the plane. -/
structure Orbit.Has (o : Orbit) (c : Conic) (p : Plane) : Prop where
  μ : o.μ = num c.μ
  conic : o.conic = c.elements
  inclination : o.orientation.inclination = num p.i
  node : o.orientation.longitudeOfAscendingNode = num p.Ω
  argument : o.orientation.argumentOfPeriapsis = some (num p.ω)

theorem stateVectors_ellipse (hb : IsRootFinder brent) (h : c.IsEllipse) {o : Orbit} (ho : o.Has c p) {M : ℝ} (hM : o.anomalies.meanAnomaly = some (num M)) (t : ℝ) :
    ∃ E, E - c.e * Real.sin E = M + √(c.μ / c.a ^ 3) * (t - o.epoch) ∧
      o.stateVectors brent t = .ok (p.rotation.apply (c.ellipsePosition E)) (p.rotation.apply (c.ellipseVelocity E)) := by
  obtain ⟨E, hE, hk⟩ := eccentricAnomaly_eq hb h.e₀ (M := M + √(c.μ / c.a ^ 3) * (t - o.epoch))
  obtain ⟨ν, hν, hc, hs⟩ := trueFromEccentric_eq h.e₀ h.e₁ E
  refine ⟨E, hk, ?_⟩
  have h1 : o.anomaliesAt (num c.e) t = some { meanAnomaly := some (num (M + √(c.μ / c.a ^ 3) * (t - o.epoch))) } := by
    rw [Orbit.anomaliesAt, if_pos (show (num c.e).Lt (num 1) from h.e₁), hM, ho.conic]
    simp only [Conic.elements, h.ellipse, num_mul, num_add]
  have h2 : (o.anomaliesAt (num c.e) t).bind (Anomalies.complete brent (num c.e)) =
      some ⟨some (num ν), some (num (M + √(c.μ / c.a ^ 3) * (t - o.epoch))), some nan⟩ := by
    rw [h1, ← hν]
    show (Option.map _ (eccentricAnomaly brent c.e _)) = _
    rw [hE]; rfl
  have hp : 0 < 1 + c.e * Real.cos ν := by
    rw [hc, ellipse_ν_pos h]
    exact div_pos (ellipse_s h) (D_pos h.e₀ h.e₁ E)
  have h3 := statesAt_eq (Or.inl h) p hp
  rw [hc, hs, planePosition_ellipse h, planeVelocity_ellipse h] at h3
  rw [Orbit.stateVectors, ho.conic, ho.argument, ho.inclination, ho.node, ho.μ]
  simp only [Conic.elements, h2]
  exact h3

theorem stateVectors_hyperbola (hb : IsRootFinder brent) (h : c.IsHyperbola) {o : Orbit} (ho : o.Has c p) {M : ℝ} (hM : o.anomalies.hyperbolicMeanAnomaly = some (num M)) (t : ℝ) :
    ∃ H, c.e * Real.sinh H - H = M + √(c.μ / (-c.a) ^ 3) * (t - o.epoch) ∧
      o.stateVectors brent t = .ok (p.rotation.apply (c.hyperbolaPosition H)) (p.rotation.apply (c.hyperbolaVelocity H)) := by
  obtain ⟨H, hH, hk⟩ := hyperbolicEccentricAnomaly_eq hb h.e (M := M + √(c.μ / (-c.a) ^ 3) * (t - o.epoch))
  obtain ⟨ν, hν, hc, hs⟩ := trueFromHyperbolicEccentric_eq h.e H
  refine ⟨H, hk, ?_⟩
  have h1 : o.anomaliesAt (num c.e) t = some { hyperbolicMeanAnomaly := some (num (M + √(c.μ / (-c.a) ^ 3) * (t - o.epoch))) } := by
    rw [Orbit.anomaliesAt, if_neg (show ¬(num c.e).Lt (num 1) from not_lt.2 h.e.le), if_neg (show ¬(num c.e).Eq (num 1) from h.e.ne'), hM, ho.conic]
    simp only [Conic.elements, h.hyperbola, num_mul, num_add]
  have h2 : (o.anomaliesAt (num c.e) t).bind (Anomalies.complete brent (num c.e)) =
      some ⟨some (num ν), some nan, some (num (M + √(c.μ / (-c.a) ^ 3) * (t - o.epoch)))⟩ := by
    rw [h1, ← hν]
    show (Option.map _ (hyperbolicEccentricAnomaly brent c.e _)) = _
    rw [hH]; rfl
  have hp : 0 < 1 + c.e * Real.cos ν := by
    rw [hc, hyperbola_ν_pos h]
    exact div_pos (hyperbola_s h) (DH_pos h.e H)
  have h3 := statesAt_eq (Or.inr h) p hp
  rw [hc, hs, planePosition_hyperbola h, planeVelocity_hyperbola h] at h3
  rw [Orbit.stateVectors, ho.conic, ho.argument, ho.inclination, ho.node, ho.μ]
  simp only [Conic.elements, h2]
  exact h3

/-! ### The motion, from the mean anomaly at epoch -/

theorem motion_ellipse (hb : IsRootFinder brent) (h : c.IsEllipse) {o : Orbit} (ho : o.Has c p) {M : ℝ} (hM : o.anomalies.meanAnomaly = some (num M)) :
    ∃ E : ℝ → ℝ, (∀ t, E t - c.e * Real.sin (E t) = M + √(c.μ / c.a ^ 3) * (t - o.epoch)) ∧
      (∀ t, o.stateVectors brent t = .ok (p.rotation.apply (c.ellipsePosition (E t))) (p.rotation.apply (c.ellipseVelocity (E t)))) ∧
      Newton c.μ (fun t => p.rotation.apply (c.ellipsePosition (E t))) (fun t => p.rotation.apply (c.ellipseVelocity (E t))) ∧
      (∀ t, OnConic c p (p.rotation.apply (c.ellipsePosition (E t))) (p.rotation.apply (c.ellipseVelocity (E t)))) := by
  obtain ⟨g, g1, g2, g3⟩ := kepler_inverse h.e₀ h.e₁
  refine ⟨fun t => g (M + √(c.μ / c.a ^ 3) * (t - o.epoch)), fun t => g1 _, fun t => ?_, ?_, fun t => ?_⟩
  · obtain ⟨E, hE, hs⟩ := stateVectors_ellipse hb h ho hM t
    beta_reduce
    rw [hs, ← hE, g2]
  · apply ellipse_newton h p
    intro t
    have hd : HasDerivAt (fun t => M + √(c.μ / c.a ^ 3) * (t - o.epoch)) (√(c.μ / c.a ^ 3) * 1) t :=
      (((hasDerivAt_id' t).sub_const o.epoch).const_mul _).const_add M
    refine ((g3 _).comp t hd).congr_deriv ?_
    rw [mul_one]; exact (div_eq_inv_mul _ _).symm
  · show OnConic c p (p.rotation.apply (c.ellipsePosition (g _))) (p.rotation.apply (c.ellipseVelocity (g _)))
    rw [← planePosition_ellipse h, ← planeVelocity_ellipse h]
    apply onConic (Or.inl h) p (ellipse_cs h _)
    rw [ellipse_ν_pos h]
    exact div_pos (ellipse_s h) (D_pos h.e₀ h.e₁ _)

theorem motion_hyperbola (hb : IsRootFinder brent) (h : c.IsHyperbola) {o : Orbit} (ho : o.Has c p) {M : ℝ} (hM : o.anomalies.hyperbolicMeanAnomaly = some (num M)) :
    ∃ H : ℝ → ℝ, (∀ t, c.e * Real.sinh (H t) - H t = M + √(c.μ / (-c.a) ^ 3) * (t - o.epoch)) ∧
      (∀ t, o.stateVectors brent t = .ok (p.rotation.apply (c.hyperbolaPosition (H t))) (p.rotation.apply (c.hyperbolaVelocity (H t)))) ∧
      Newton c.μ (fun t => p.rotation.apply (c.hyperbolaPosition (H t))) (fun t => p.rotation.apply (c.hyperbolaVelocity (H t))) ∧
      (∀ t, OnConic c p (p.rotation.apply (c.hyperbolaPosition (H t))) (p.rotation.apply (c.hyperbolaVelocity (H t)))) := by
  obtain ⟨g, g1, g2, g3⟩ := hyperbolic_inverse h.e
  refine ⟨fun t => g (M + √(c.μ / (-c.a) ^ 3) * (t - o.epoch)), fun t => g1 _, fun t => ?_, ?_, fun t => ?_⟩
  · obtain ⟨E, hE, hs⟩ := stateVectors_hyperbola hb h ho hM t
    beta_reduce
    rw [hs, ← hE, g2]
  · apply hyperbola_newton h p
    intro t
    have hd : HasDerivAt (fun t => M + √(c.μ / (-c.a) ^ 3) * (t - o.epoch)) (√(c.μ / (-c.a) ^ 3) * 1) t :=
      (((hasDerivAt_id' t).sub_const o.epoch).const_mul _).const_add M
    refine ((g3 _).comp t hd).congr_deriv ?_
    rw [mul_one]; exact (div_eq_inv_mul _ _).symm
  · show OnConic c p (p.rotation.apply (c.hyperbolaPosition (g _))) (p.rotation.apply (c.hyperbolaVelocity (g _)))
    rw [← planePosition_hyperbola h, ← planeVelocity_hyperbola h]
    apply onConic (Or.inr h) p (hyperbola_cs h _)
    rw [hyperbola_ν_pos h]
    exact div_pos (hyperbola_s h) (DH_pos h.e _)

/-! ### Uniqueness of the solution of Kepler's equation -/

theorem kepler_injective {e E E' : ℝ} (h0 : 0 ≤ e) (h1 : e < 1) (h : E - e * Real.sin E = E' - e * Real.sin E') : E = E' := by
  obtain ⟨g, -, g2, -⟩ := kepler_inverse h0 h1
  rw [← g2 E, h, g2]

theorem hyperbolic_injective {e H H' : ℝ} (h1 : 1 < e) (h : e * Real.sinh H - H = e * Real.sinh H' - H') : H = H' := by
  obtain ⟨g, -, g2, -⟩ := hyperbolic_inverse h1
  rw [← g2 H, h, g2]

/-! ### The anomalies at epoch, from the true anomaly -/

theorem ellipse_one_add_pos (h : c.IsEllipse) (ν : ℝ) : 0 < 1 + c.e * Real.cos ν := by
  have h1 := Real.neg_one_le_cos ν
  have h2 := h.e₀
  have h3 := h.e₁
  nlinarith

theorem meanFromTrue_eq (h : c.IsEllipse) (ν : ℝ) :
    ∃ E, meanFromTrue (num c.e) (num ν) = num (E - c.e * Real.sin E) ∧ (Real.cos E - c.e) / (1 - c.e * Real.cos E) = Real.cos ν ∧
      √(1 - c.e ^ 2) * Real.sin E / (1 - c.e * Real.cos E) = Real.sin ν := by
  have hp := ellipse_one_add_pos h ν
  have hs := ellipse_s h
  have hs2 : √(1 - c.e ^ 2) ^ 2 = 1 - c.e ^ 2 := Real.sq_sqrt hs.le
  have hcs := Real.cos_sq_add_sin_sq ν
  obtain ⟨hc, hsn⟩ := arg_cs (x := c.e + Real.cos ν) (y := √(1 - c.e ^ 2) * Real.sin ν) hp (by
    rw [mul_pow, hs2]
    linear_combination (1 - c.e ^ 2) * hcs)
  have key : ∀ E, Real.cos E = (c.e + Real.cos ν) / (1 + c.e * Real.cos ν) → Real.sin E = √(1 - c.e ^ 2) * Real.sin ν / (1 + c.e * Real.cos ν) →
      (Real.cos E - c.e) / (1 - c.e * Real.cos E) = Real.cos ν ∧ √(1 - c.e ^ 2) * Real.sin E / (1 - c.e * Real.cos E) = Real.sin ν := by
    intro E h1 h2
    have hD : 1 - c.e * Real.cos E = (1 - c.e ^ 2) / (1 + c.e * Real.cos ν) := by
      rw [h1]; field_simp; ring
    rw [hD, h1, h2]
    constructor
    · field_simp; ring
    · field_simp; rw [hs2]
  set E₀ := Complex.arg ⟨c.e + Real.cos ν, √(1 - c.e ^ 2) * Real.sin ν⟩ with hE₀
  have hm : meanFromTrue (num c.e) (num ν) = positiveAngle (num (E₀ - c.e * Real.sin E₀)) := by
    rw [meanFromTrue]
    rw [num_pow, num_sub, sqrt_num' (y := 1 - c.e ^ 2) hs.le rfl]
    rfl
  by_cases hg : (num (E₀ - c.e * Real.sin E₀)).Gt (num 0)
  · refine ⟨E₀, ?_, key E₀ hc hsn⟩
    rw [hm, positiveAngle, if_pos hg]
  · refine ⟨E₀ + 2 * π, ?_, key _ (by rw [Real.cos_add_two_pi, hc]) (by rw [Real.sin_add_two_pi, hsn])⟩
    rw [hm, positiveAngle, if_neg hg, Real.sin_add_two_pi, num_add]
    congr 1; ring

theorem hyperbolicMeanFromTrue_eq (h : c.IsHyperbola) {ν : ℝ} (hp : 0 < 1 + c.e * Real.cos ν) :
    ∃ H, hyperbolicMeanFromTrue (num c.e) (num ν) = num (c.e * Real.sinh H - H) ∧ (c.e - Real.cosh H) / (c.e * Real.cosh H - 1) = Real.cos ν ∧
      √(c.e ^ 2 - 1) * Real.sinh H / (c.e * Real.cosh H - 1) = |Real.sin ν| := by
  have hs := hyperbola_s h
  have he := h.e
  have hs2 : √(c.e ^ 2 - 1) ^ 2 = c.e ^ 2 - 1 := Real.sq_sqrt hs.le
  have hcs := Real.cos_sq_add_sin_sq ν
  have h1 : 1 ≤ (c.e + Real.cos ν) / (1 + c.e * Real.cos ν) := by
    rw [le_div_iff₀ hp]
    nlinarith [Real.cos_le_one ν]
  have hcosh := Real.cosh_arcosh h1
  set H := Real.arcosh ((c.e + Real.cos ν) / (1 + c.e * Real.cos ν)) with hH
  have hH0 : 0 ≤ H := Real.arcosh_nonneg h1
  have hsinh : Real.sinh H = √(c.e ^ 2 - 1) * |Real.sin ν| / (1 + c.e * Real.cos ν) := by
    have h2 : Real.sinh H ^ 2 = (√(c.e ^ 2 - 1) * |Real.sin ν| / (1 + c.e * Real.cos ν)) ^ 2 := by
      rw [div_pow, mul_pow, hs2, sq_abs, Real.sinh_sq, hcosh, div_pow, eq_div_iff (by positivity), sub_mul, div_mul_cancel₀ _ (by positivity)]
      linear_combination (1 - c.e ^ 2) * hcs
    exact (pow_left_inj₀ (Real.sinh_nonneg_iff.2 hH0) (by positivity) (by norm_num)).1 h2
  have hD : c.e * Real.cosh H - 1 = (c.e ^ 2 - 1) / (1 + c.e * Real.cos ν) := by
    rw [hcosh]; field_simp; ring
  refine ⟨H, ?_, ?_, ?_⟩
  · rw [hyperbolicMeanFromTrue]
    have : num c.e + Fl.cos (num ν) = num (c.e + Real.cos ν) := rfl
    have h3 : (num c.e + Fl.cos (num ν)) / (num 1 + num c.e * Fl.cos (num ν)) = num ((c.e + Real.cos ν) / (1 + c.e * Real.cos ν)) := by
      rw [num_cos, num_mul, num_add, num_add, num_div hp.ne']
    rw [h3]
    have h4 : arcCosh (num ((c.e + Real.cos ν) / (1 + c.e * Real.cos ν))) = num H := if_neg (not_lt.2 h1)
    rw [h4]
    rfl
  · rw [hD, hcosh]; field_simp; ring
  · rw [hD, hsinh]; field_simp; rw [hs2]

/-! ### The construction -/

theorem ofElements_eq {x : ConicElements} {y : Orientation} {z z' : Anomalies} {μ₁ μ₂ epoch : ℝ} (h : c.IsEllipse ∨ c.IsHyperbola) (hμ : c.μ = μ₁ + μ₂) (hx : MinimallySpecified x)
    (hc : Describes x c) (hy : y.Describes p) (hz : z.complete brent (num c.e) = some z') :
    ∃ o, Orbit.ofElements brent μ₁ μ₂ x y z epoch = some o ∧ o.Has c p ∧ o.anomalies = z' ∧ o.epoch = epoch := by
  have h1 := C55_conic h hc hx
  have h2 := C55_orientation y
  obtain ⟨y', hy'⟩ := Option.isSome_iff_exists.1 (h2.1.2 hy.exactlyOne)
  have h3 := h2.2 p.i p.Ω p.ω (p.Ω + p.ω) rfl hy.inclination hy.node hy.argument hy.longitude y' hy'
  refine ⟨⟨num c.μ, c.elements, y', z', epoch⟩, ?_, ⟨rfl, rfl, ?_, ?_, ?_⟩, rfl, rfl⟩
  · rw [Orbit.ofElements, ← hμ]
    simp only [h1, hy', Conic.elements, hz, Option.map_some]
  all_goals rw [h3]

/-! ### The theorems -/

theorem atTrueAnomaly_of_plane (h : c.IsEllipse ∨ c.IsHyperbola) {ν : ℝ} (hp : 0 < 1 + c.e * Real.cos ν) :
    p.rotation.apply (c.planePosition (Real.cos ν) (Real.sin ν)) =
      (p.rotation.apply (c.planePosition (Real.cos ν) (Real.sin ν))).norm • p.atTrueAnomaly ν := by
  rw [p.apply_norm, planePosition_norm h (Real.cos_sq_add_sin_sq ν) hp, ← p.apply_atTrueAnomaly, ← p.apply_smul]
  rfl

/-- An elliptic orbit constructed from elements that minimally specify a conic, from the orientation of its plane, and from the mean or true anomaly at epoch: at all times
its state vectors are those of a motion that obeys Newton's law, on the given conic, in the given plane; it is at the given true anomaly at epoch, or passes at the
periapsis at the time given by the mean anomaly at epoch.  The motion is periodic, with the period of the elements. -/
theorem C56_ellipse (hb : IsRootFinder brent) (h : c.IsEllipse) {x : ConicElements} {y : Orientation} {z : Anomalies} {μ₁ μ₂ epoch : ℝ} (hμ : c.μ = μ₁ + μ₂)
    (hx : MinimallySpecified x) (hc : Describes x c) (hy : y.Describes p)
    (hz : (∃ M, z = { meanAnomaly := some (num M) }) ∨ ∃ ν, z = { trueAnomaly := some (num ν) }) :
    ∃ o q v, Orbit.ofElements brent μ₁ μ₂ x y z epoch = some o ∧ (∀ t, o.stateVectors brent t = .ok (q t) (v t)) ∧
      Newton (μ₁ + μ₂) q v ∧ (∀ t, OnConic c p (q t) (v t)) ∧
      (∀ M, z.meanAnomaly = some (num M) → q (epoch - M / √(c.μ / c.a ^ 3)) = (c.a * (1 - c.e)) • p.periapsis) ∧
      (∀ ν, z.trueAnomaly = some (num ν) → q epoch = (q epoch).norm • p.atTrueAnomaly ν) ∧
      (∀ T, o.conic.sma.period = some (num T) → 0 < T ∧ ∀ t, q (t + T) = q t ∧ v (t + T) = v t) := by
  have hn : 0 < √(c.μ / c.a ^ 3) := by
    have := h.μ; have := h.a
    exact Real.sqrt_pos.2 (by positivity)
  have main : ∀ (z' : Anomalies) (M : ℝ), z.complete brent (num c.e) = some z' → z'.meanAnomaly = some (num M) →
      ∃ (o : Orbit) (E : ℝ → ℝ), Orbit.ofElements brent μ₁ μ₂ x y z epoch = some o ∧ (∀ t, E t - c.e * Real.sin (E t) = M + √(c.μ / c.a ^ 3) * (t - epoch)) ∧
        (∀ t, o.stateVectors brent t = .ok (p.rotation.apply (c.ellipsePosition (E t))) (p.rotation.apply (c.ellipseVelocity (E t)))) ∧
        Newton c.μ (fun t => p.rotation.apply (c.ellipsePosition (E t))) (fun t => p.rotation.apply (c.ellipseVelocity (E t))) ∧
        (∀ t, OnConic c p (p.rotation.apply (c.ellipsePosition (E t))) (p.rotation.apply (c.ellipseVelocity (E t)))) ∧
        (∀ T, o.conic.sma.period = some (num T) → 0 < T ∧ ∀ t, p.rotation.apply (c.ellipsePosition (E (t + T))) = p.rotation.apply (c.ellipsePosition (E t)) ∧
          p.rotation.apply (c.ellipseVelocity (E (t + T))) = p.rotation.apply (c.ellipseVelocity (E t))) := by
    intro z' M hz' hM
    obtain ⟨o, h1, h2, h3, h4⟩ := ofElements_eq (epoch := epoch) (brent := brent) (Or.inl h) hμ hx hc hy hz'
    obtain ⟨E, e1, e2, e3, e4⟩ := motion_ellipse hb h h2 (h3 ▸ hM)
    rw [h4] at e1
    refine ⟨o, E, h1, e1, e2, e3, e4, ?_⟩
    intro T hT
    rw [h2.conic] at hT
    simp only [Conic.elements, h.ellipse, Option.some.injEq, num.injEq] at hT
    have hT' : T = 2 * π / √(c.μ / c.a ^ 3) := hT.symm
    refine ⟨by rw [hT']; have := Real.pi_pos; positivity, fun t => ?_⟩
    have : E (t + T) = E t + 2 * π := by
      apply kepler_injective h.e₀ h.e₁
      rw [e1, Real.sin_add_two_pi]
      have e5 := e1 t
      have : √(c.μ / c.a ^ 3) * T = 2 * π := by rw [hT']; field_simp
      linear_combination this - e5
    rw [this]
    simp only [Conic.ellipsePosition, Conic.ellipseVelocity, Real.cos_add_two_pi, Real.sin_add_two_pi, and_self]
  rcases hz with ⟨M, rfl⟩ | ⟨ν, rfl⟩
  · obtain ⟨E₀, hE₀, hk⟩ := eccentricAnomaly_eq (brent := brent) hb h.e₀ (M := M)
    have hz' : Anomalies.complete brent (num c.e) { meanAnomaly := some (num M) } =
        some ⟨some (trueFromEccentric (num c.e) (num E₀)), some (num M), some nan⟩ := by
      show (Option.map _ (eccentricAnomaly brent c.e _)) = _
      rw [hE₀]; rfl
    obtain ⟨o, E, h1, h2, h3, h4, h5, h6⟩ := main _ M hz' rfl
    refine ⟨o, _, _, h1, h3, hμ ▸ h4, h5, ?_, ?_, h6⟩
    · intro M' hM'
      have : M = M' := by simpa using hM'
      subst this
      have : E (epoch - M / √(c.μ / c.a ^ 3)) = 0 := by
        apply kepler_injective h.e₀ h.e₁
        rw [h2, Real.sin_zero]
        field_simp
        ring
      rw [this, ← p.apply_periapsis, ← p.apply_smul]
      congr 1
      ext <;> simp [Conic.ellipsePosition]
    · intro ν hν; simp at hν
  · obtain ⟨E₀, hM, hcν, hsν⟩ := meanFromTrue_eq h ν
    have hz' : Anomalies.complete brent (num c.e) { trueAnomaly := some (num ν) } =
        some ⟨some (num ν), some (meanFromTrue (num c.e) (num ν)), some (hyperbolicMeanFromTrue (num c.e) (num ν))⟩ := rfl
    obtain ⟨o, E, h1, h2, h3, h4, h5, h6⟩ := main _ _ hz' (congrArg some hM)
    refine ⟨o, _, _, h1, h3, hμ ▸ h4, h5, ?_, ?_, h6⟩
    · intro M hM; simp at hM
    · intro ν' hν'
      have : ν = ν' := by simpa using hν'
      subst this
      have : E epoch = E₀ := by
        apply kepler_injective h.e₀ h.e₁
        rw [h2]; ring
      rw [this, ← planePosition_ellipse h, hcν, hsν]
      exact atTrueAnomaly_of_plane (Or.inl h) (ellipse_one_add_pos h ν)

theorem hyperbola_main (hb : IsRootFinder brent) (h : c.IsHyperbola) {x : ConicElements} {y : Orientation} {z z' : Anomalies} {μ₁ μ₂ epoch M : ℝ} (hμ : c.μ = μ₁ + μ₂)
    (hx : MinimallySpecified x) (hc : Describes x c) (hy : y.Describes p) (hz' : z.complete brent (num c.e) = some z') (hM : z'.hyperbolicMeanAnomaly = some (num M)) :
    ∃ (o : Orbit) (H : ℝ → ℝ), Orbit.ofElements brent μ₁ μ₂ x y z epoch = some o ∧ (∀ t, c.e * Real.sinh (H t) - H t = M + √(c.μ / (-c.a) ^ 3) * (t - epoch)) ∧
      (∀ t, o.stateVectors brent t = .ok (p.rotation.apply (c.hyperbolaPosition (H t))) (p.rotation.apply (c.hyperbolaVelocity (H t)))) ∧
      Newton c.μ (fun t => p.rotation.apply (c.hyperbolaPosition (H t))) (fun t => p.rotation.apply (c.hyperbolaVelocity (H t))) ∧
      (∀ t, OnConic c p (p.rotation.apply (c.hyperbolaPosition (H t))) (p.rotation.apply (c.hyperbolaVelocity (H t)))) := by
  obtain ⟨o, h1, h2, h3, h4⟩ := ofElements_eq (epoch := epoch) (brent := brent) (Or.inr h) hμ hx hc hy hz'
  obtain ⟨H, e1, e2, e3, e4⟩ := motion_hyperbola hb h h2 (h3 ▸ hM)
  rw [h4] at e1
  exact ⟨o, H, h1, e1, e2, e3, e4⟩

/-- The state at epoch of a hyperbolic orbit constructed from its true anomaly. -/
theorem hyperbola_true (hb : IsRootFinder brent) (h : c.IsHyperbola) {x : ConicElements} {y : Orientation} {μ₁ μ₂ epoch ν : ℝ} (hμ : c.μ = μ₁ + μ₂)
    (hx : MinimallySpecified x) (hc : Describes x c) (hy : y.Describes p) (hp : 0 < 1 + c.e * Real.cos ν) :
    ∃ (o : Orbit) (H : ℝ → ℝ), Orbit.ofElements brent μ₁ μ₂ x y { trueAnomaly := some (num ν) } epoch = some o ∧
      (∀ t, o.stateVectors brent t = .ok (p.rotation.apply (c.hyperbolaPosition (H t))) (p.rotation.apply (c.hyperbolaVelocity (H t)))) ∧
      Newton c.μ (fun t => p.rotation.apply (c.hyperbolaPosition (H t))) (fun t => p.rotation.apply (c.hyperbolaVelocity (H t))) ∧
      (∀ t, OnConic c p (p.rotation.apply (c.hyperbolaPosition (H t))) (p.rotation.apply (c.hyperbolaVelocity (H t)))) ∧
      p.rotation.apply (c.hyperbolaPosition (H epoch)) = p.rotation.apply (c.planePosition (Real.cos ν) |Real.sin ν|) ∧
      p.rotation.apply (c.hyperbolaVelocity (H epoch)) = p.rotation.apply (c.planeVelocity (Real.cos ν) |Real.sin ν|) := by
  obtain ⟨H₀, hM, hcν, hsν⟩ := hyperbolicMeanFromTrue_eq h hp
  have hz' : Anomalies.complete brent (num c.e) { trueAnomaly := some (num ν) } =
      some ⟨some (num ν), some (meanFromTrue (num c.e) (num ν)), some (hyperbolicMeanFromTrue (num c.e) (num ν))⟩ := rfl
  obtain ⟨o, H, h1, h2, h3, h4, h5⟩ := hyperbola_main (epoch := epoch) hb h hμ hx hc hy hz' (congrArg some hM)
  have : H epoch = H₀ := by
    apply hyperbolic_injective h.e
    rw [h2]; ring
  exact ⟨o, H, h1, h3, h4, h5, by rw [this, ← planePosition_hyperbola h, hcν, hsν], by rw [this, ← planeVelocity_hyperbola h, hcν, hsν]⟩

/-- A hyperbolic orbit constructed from elements, in the same way, from the hyperbolic mean anomaly, or from a true anomaly that is not before the periapsis. -/
theorem C56_hyperbola (hb : IsRootFinder brent) (h : c.IsHyperbola) {x : ConicElements} {y : Orientation} {z : Anomalies} {μ₁ μ₂ epoch : ℝ} (hμ : c.μ = μ₁ + μ₂)
    (hx : MinimallySpecified x) (hc : Describes x c) (hy : y.Describes p)
    (hz : (∃ M, z = { hyperbolicMeanAnomaly := some (num M) }) ∨ ∃ ν, z = { trueAnomaly := some (num ν) } ∧ 0 < 1 + c.e * Real.cos ν ∧ 0 ≤ Real.sin ν) :
    ∃ o q v, Orbit.ofElements brent μ₁ μ₂ x y z epoch = some o ∧ (∀ t, o.stateVectors brent t = .ok (q t) (v t)) ∧
      Newton (μ₁ + μ₂) q v ∧ (∀ t, OnConic c p (q t) (v t)) ∧
      (∀ M, z.hyperbolicMeanAnomaly = some (num M) → q (epoch - M / √(c.μ / (-c.a) ^ 3)) = (c.a * (1 - c.e)) • p.periapsis) ∧
      (∀ ν, z.trueAnomaly = some (num ν) → q epoch = (q epoch).norm • p.atTrueAnomaly ν) := by
  have hn : 0 < √(c.μ / (-c.a) ^ 3) := by
    have := h.μ
    have : 0 < -c.a := by linarith [h.a]
    exact Real.sqrt_pos.2 (by positivity)
  rcases hz with ⟨M, rfl⟩ | ⟨ν, rfl, hp, hs⟩
  · obtain ⟨H₀, hH₀, hk⟩ := hyperbolicEccentricAnomaly_eq (brent := brent) hb h.e (M := M)
    have hz' : Anomalies.complete brent (num c.e) { hyperbolicMeanAnomaly := some (num M) } =
        some ⟨some (trueFromHyperbolicEccentric (num c.e) (num H₀)), some nan, some (num M)⟩ := by
      show (Option.map _ (hyperbolicEccentricAnomaly brent c.e _)) = _
      rw [hH₀]; rfl
    obtain ⟨o, H, h1, h2, h3, h4, h5⟩ := hyperbola_main (epoch := epoch) hb h hμ hx hc hy hz' rfl
    refine ⟨o, _, _, h1, h3, hμ ▸ h4, h5, ?_, ?_⟩
    · intro M' hM'
      have : M = M' := by simpa using hM'
      subst this
      have : H (epoch - M / √(c.μ / (-c.a) ^ 3)) = 0 := by
        apply hyperbolic_injective h.e
        rw [h2, Real.sinh_zero]
        generalize √(c.μ / (-c.a) ^ 3) = n at hn ⊢
        field_simp
        ring
      rw [this, ← p.apply_periapsis, ← p.apply_smul]
      congr 1
      ext <;> simp [Conic.hyperbolaPosition]
      ring
    · intro ν hν; simp at hν
  · obtain ⟨o, H, h1, h3, h4, h5, h6, h7⟩ := hyperbola_true (epoch := epoch) hb h hμ hx hc hy hp
    refine ⟨o, _, _, h1, h3, hμ ▸ h4, h5, ?_, ?_⟩
    · intro M hM; simp at hM
    · intro ν' hν'
      have : ν = ν' := by simpa using hν'
      subst this
      simp only [h6, abs_of_nonneg hs]
      exact atTrueAnomaly_of_plane (Or.inr h) hp

/-- A hyperbolic orbit constructed from a true anomaly that is before the periapsis: the body is placed on the other side of the periapsis, because the hyperbolic
eccentric anomaly is obtained by an inverse hyperbolic cosine. -/
theorem C56_true_anomaly_counterexample (hb : IsRootFinder brent) (h : c.IsHyperbola) {x : ConicElements} {y : Orientation} {μ₁ μ₂ epoch ν : ℝ} (hμ : c.μ = μ₁ + μ₂)
    (hx : MinimallySpecified x) (hc : Describes x c) (hy : y.Describes p) (hp : 0 < 1 + c.e * Real.cos ν) (hs : Real.sin ν < 0) :
    ∃ o q v, Orbit.ofElements brent μ₁ μ₂ x y { trueAnomaly := some (num ν) } epoch = some o ∧ o.stateVectors brent epoch = .ok q v ∧
      q = q.norm • p.atTrueAnomaly (-ν) ∧ q ≠ q.norm • p.atTrueAnomaly ν := by
  obtain ⟨o, H, h1, h3, h4, h5, h6, h7⟩ := hyperbola_true (epoch := epoch) hb h hμ hx hc hy hp
  have h8 := h4.distance epoch
  beta_reduce at h8
  have h9 : p.rotation.apply (c.hyperbolaPosition (H epoch)) = (p.rotation.apply (c.hyperbolaPosition (H epoch))).norm • p.atTrueAnomaly (-ν) := by
    have := atTrueAnomaly_of_plane (p := p) (Or.inr h) (ν := -ν) (by rw [Real.cos_neg]; exact hp)
    rw [Real.cos_neg, Real.sin_neg] at this
    rw [h6, abs_of_neg hs]
    exact this
  refine ⟨o, _, _, h1, h3 epoch, h9, fun h10 => ?_⟩
  have h11 := h9.symm.trans h10
  generalize (p.rotation.apply (c.hyperbolaPosition (H epoch))).norm = k at h8 h11
  rw [← p.apply_atTrueAnomaly, ← p.apply_atTrueAnomaly, ← p.apply_smul, ← p.apply_smul] at h11
  have h12 := congrArg R3.y (p.apply_inj h11)
  simp only [R3.smul_y, Real.sin_neg] at h12
  have h13 := mul_left_cancel₀ h8.ne' h12
  linarith

/-- An orbit can only be constructed from exactly one anomaly. -/
theorem C56_one_anomaly {x : ConicElements} {y : Orientation} {z : Anomalies} {μ₁ μ₂ epoch : ℝ} (h : (Orbit.ofElements brent μ₁ μ₂ x y z epoch).isSome) :
    (z.trueAnomaly.isSome ∧ z.meanAnomaly = none ∧ z.hyperbolicMeanAnomaly = none) ∨
    (z.trueAnomaly = none ∧ z.meanAnomaly.isSome ∧ z.hyperbolicMeanAnomaly = none) ∨
    (z.trueAnomaly = none ∧ z.meanAnomaly = none ∧ z.hyperbolicMeanAnomaly.isSome) := by
  obtain ⟨e, he⟩ : ∃ e, (z.complete brent e).isSome := by
    rw [Orbit.ofElements] at h
    cases h1 : x.complete (num (μ₁ + μ₂)) with
    | none => rw [h1] at h; simp at h
    | some x' =>
      rw [h1] at h
      cases h2 : y.complete with
      | none => rw [h2] at h; simp at h
      | some y' =>
        cases h3 : x'.ecc.eccentricity with
        | none => rw [h2] at h; simp only [h3] at h; simp at h
        | some e =>
          refine ⟨e, ?_⟩
          rw [h2] at h
          simp only [h3] at h
          simpa using h
  obtain ⟨ν, M, Mh⟩ := z
  cases ν <;> cases M <;> cases Mh <;> simp [Anomalies.complete] at he ⊢

/-- The motion on a parabola is not implemented: the state vectors fail. -/
theorem C56_parabola_counterexample (o : Orbit) (he : o.conic.ecc.eccentricity = some (num 1)) (t : ℝ) : o.stateVectors brent t = .abort := by
  have : o.anomaliesAt (num 1) t = none := by
    rw [Orbit.anomaliesAt, if_neg (show ¬(num 1).Lt (num 1) from lt_irrefl (1 : ℝ)), if_pos (show (num 1).Eq (num 1) from rfl)]
  rw [Orbit.stateVectors, he]
  split
  · rename_i h1 h2 h3 h4
    cases h1
    rw [this]; rfl
  · rfl

end Principia.Physics.Kepler
