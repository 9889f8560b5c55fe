import Verif.Physics.KeplerMotionStates
import Mathlib.Tactic.NormNum

/-!
C56: the state vectors for which the constructor of orbits loses information, and examples.
-/

set_option linter.unusedSimpArgs false
set_option linter.unusedVariables false
set_option linter.unusedSectionVars false

namespace Principia.Physics.Kepler

open Geometry Real Fl

theorem angleBetween_zero_left (w : R3 ℝ) : (0 : R3 ℝ).angleBetween w = 0 := by
  have h0 : (0 : R3 ℝ).norm = 0 := Rotation.norm_eq_zero.2 rfl
  have h1 : w.norm • (0 : R3 ℝ) + (0 : R3 ℝ).norm • w = 0 := by rw [h0]; ext <;> simp
  have h2 : w.norm • (0 : R3 ℝ) - (0 : R3 ℝ).norm • w = 0 := by rw [h0]; ext <;> simp
  rw [R3.angleBetween, h1, h2, h0]
  simp [show (⟨0, 0⟩ : ℂ) = 0 from rfl]

theorem angleBetween_zero_right (w : R3 ℝ) : w.angleBetween (0 : R3 ℝ) = 0 := by
  have h0 : (0 : R3 ℝ).norm = 0 := Rotation.norm_eq_zero.2 rfl
  have h1 : (0 : R3 ℝ).norm • w + w.norm • (0 : R3 ℝ) = 0 := by rw [h0]; ext <;> simp
  have h2 : (0 : R3 ℝ).norm • w - w.norm • (0 : R3 ℝ) = 0 := by rw [h0]; ext <;> simp
  rw [R3.angleBetween, h1, h2, h0]
  simp [show (⟨0, 0⟩ : ℂ) = 0 from rfl]

theorem angleBetween_smul {k : ℝ} (hk : 0 < k) {w : R3 ℝ} : w.angleBetween (k • w) = 0 := by
  have h1 : (k • w).norm = k * w.norm := by rw [Rotation.norm_smul, abs_of_pos hk]
  have h2 : (k * w.norm) • w - w.norm • k • w = 0 := by ext <;> simp <;> ring
  rw [R3.angleBetween, h1, h2, show (0 : R3 ℝ).norm = 0 from Rotation.norm_eq_zero.2 rfl]
  have : Complex.arg ⟨((k * w.norm) • w + w.norm • k • w).norm, 0⟩ = 0 := Complex.arg_ofReal_of_nonneg (Real.sqrt_nonneg _)
  rw [this, mul_zero]

theorem reduce_zero : reduceAngle 0 = 0 := by simp [reduceAngle]

theorem oriented_of_angle {v w n : R3 ℝ} (h : v.angleBetween w = 0) : orientedAngleBetween v w n = 0 := by
  simp only [orientedAngleBetween, Sign.act, h, neg_zero, ite_self]

/-- When the computed argument of the periapsis and true anomaly are both 0, the body is at the ascending node at epoch. -/
theorem states_at_node {brent : RootFinder} (hb : IsRootFinder brent) {μ₁ μ₂ epoch : ℝ} {r v : R3 ℝ} (hμ : 0 < μ₁ + μ₂) (hh : r.cross v ≠ 0) (hε : energy (μ₁ + μ₂) r v < 0)
    (hω : (planeOf (μ₁ + μ₂) r v).ω = 0) (hν : trueAnomalyOf (μ₁ + μ₂) r v = 0) :
    ∃ o w, ∃ k : ℝ, Orbit.ofStates brent μ₁ μ₂ r v epoch = some o ∧ o.stateVectors brent epoch = .ok (k • (planeOf (μ₁ + μ₂) r v).node) w := by
  have ho := ofStates_eq (brent := brent) (epoch := epoch) hμ hh hε.ne
  have hcases := conic_cases hμ hh hε.ne
  have hcμ : (conicOf (μ₁ + μ₂) r v).μ = μ₁ + μ₂ := rfl
  generalize planeOf (μ₁ + μ₂) r v = p at *
  generalize conicOf (μ₁ + μ₂) r v = c at *
  generalize trueAnomalyOf (μ₁ + μ₂) r v = ν at *
  have h : c.IsEllipse := by
    rcases hcases with ⟨-, h⟩ | ⟨h', -⟩
    · exact h
    · exact absurd h' hε.not_gt
  obtain ⟨E₀, hM, hcν, hsν⟩ := meanFromTrue_eq h ν
  rw [hM] at ho
  obtain ⟨o, ho, hom⟩ : ∃ o, Orbit.ofStates brent μ₁ μ₂ r v epoch = some o ∧ o = _ := ⟨_, ho, rfl⟩
  have hoe : o.epoch = epoch := by rw [hom]
  obtain ⟨E, e1, e2, e3, e4⟩ := motion_ellipse (p := p) hb h (o := o) ⟨by rw [hom, hcμ], by rw [hom], by rw [hom], by rw [hom], by rw [hom]⟩ (by rw [hom])
  have hE : E epoch = E₀ := by
    apply kepler_injective h.e₀ h.e₁
    rw [e1, hoe]; ring
  have h2 := e2 epoch
  rw [hE, ← planePosition_ellipse h, hcν, hsν, hν, Real.cos_zero, Real.sin_zero, Conic.planePosition, p.apply_smul, p.apply_periapsis] at h2
  have hn : p.periapsis = p.node := by
    rw [Plane.periapsis, Plane.direction, hω, Real.cos_zero, Real.sin_zero]
    ext <;> simp
  rw [hn] at h2
  exact ⟨o, _, _, ho, h2⟩

theorem norm_y : (⟨0, 1, 0⟩ : R3 ℝ).norm = 1 := norm_of_sq (by norm_num) (by simp [R3.normSq])

theorem norm_z : (⟨0, 0, 1⟩ : R3 ℝ).norm = 1 := norm_of_sq (by norm_num) (by simp [R3.normSq])

theorem norm_x : (⟨1, 0, 0⟩ : R3 ℝ).norm = 1 := norm_of_sq (by norm_num) (by simp [R3.normSq])

/-- The direction of the periapsis of an equatorial orbit is lost: the orbit does not go through the state vectors from which it was constructed.  Here the body is at the
periapsis in the direction of the y axis, and the orbit has its periapsis in the direction of the x axis. -/
theorem C56_equatorial_counterexample {brent : RootFinder} (hb : IsRootFinder brent) (epoch : ℝ) :
    ∃ o q w, Orbit.ofStates brent 6 0 ⟨0, 1, 0⟩ ⟨-3, 0, 0⟩ epoch = some o ∧ o.stateVectors brent epoch = .ok q w ∧ q ≠ ⟨0, 1, 0⟩ := by
  have hcr : (⟨0, 1, 0⟩ : R3 ℝ).cross ⟨-3, 0, 0⟩ = ⟨0, 0, 3⟩ := by ext <;> norm_num [R3.cross]
  have hnode : (⟨0, 0, 1⟩ : R3 ℝ).cross ⟨0, 0, 3⟩ = 0 := by ext <;> norm_num [R3.cross]
  have hecc : eccentricityVector (6 + 0) ⟨0, 1, 0⟩ ⟨-3, 0, 0⟩ = ⟨0, 1 / 2, 0⟩ := by
    rw [eccentricityVector, hcr, norm_y]
    ext <;> norm_num [R3.cross, R3.div]
  have hen : energy (6 + 0) ⟨0, 1, 0⟩ ⟨-3, 0, 0⟩ = -3 / 2 := by
    rw [energy, norm_y]
    norm_num [R3.normSq]
  obtain ⟨o, w, k, h1, h2⟩ := states_at_node (epoch := epoch) (μ₁ := 6) (μ₂ := 0) (r := ⟨0, 1, 0⟩) (v := ⟨-3, 0, 0⟩) hb (by norm_num)
    (by rw [hcr]; intro h; simpa using congrArg R3.z h)
    (by rw [hen]; norm_num)
    (by
      simp only [planeOf, hcr, hnode]
      rw [oriented_of_angle (angleBetween_zero_left _), reduce_zero])
    (by
      rw [trueAnomalyOf, hecc, oriented_of_angle, reduce_zero]
      have : (⟨0, 1, 0⟩ : R3 ℝ) = (2 : ℝ) • ⟨0, 1 / 2, 0⟩ := by ext <;> norm_num
      rw [this]
      exact angleBetween_smul (by norm_num))
  refine ⟨o, _, w, h1, h2, fun h => ?_⟩
  have hy := congrArg R3.y h
  have hΩ : (planeOf (6 + 0) ⟨0, 1, 0⟩ ⟨-3, 0, 0⟩).Ω = 0 := by
    simp only [planeOf, hcr, hnode]
    rw [show (⟨(0 : R3 ℝ).x, (0 : R3 ℝ).y⟩ : ℂ) = 0 from rfl, Complex.arg_zero, reduce_zero]
  rw [Plane.node, hΩ] at hy
  simp at hy

/-- The position on a circular orbit is lost: the body is placed at the ascending node at epoch. -/
theorem C56_circular_counterexample {brent : RootFinder} (hb : IsRootFinder brent) (epoch : ℝ) :
    ∃ o q w, Orbit.ofStates brent 1 0 ⟨0, 0, 1⟩ ⟨0, -1, 0⟩ epoch = some o ∧ o.stateVectors brent epoch = .ok q w ∧ q ≠ ⟨0, 0, 1⟩ := by
  have hcr : (⟨0, 0, 1⟩ : R3 ℝ).cross ⟨0, -1, 0⟩ = ⟨1, 0, 0⟩ := by ext <;> norm_num [R3.cross]
  have hecc : eccentricityVector (1 + 0) ⟨0, 0, 1⟩ ⟨0, -1, 0⟩ = 0 := by
    rw [eccentricityVector, hcr, norm_z]
    ext <;> norm_num [R3.cross, R3.div]
  have hen : energy (1 + 0) ⟨0, 0, 1⟩ ⟨0, -1, 0⟩ = -1 / 2 := by
    rw [energy, norm_z]
    norm_num [R3.normSq]
  obtain ⟨o, w, k, h1, h2⟩ := states_at_node (epoch := epoch) (μ₁ := 1) (μ₂ := 0) (r := ⟨0, 0, 1⟩) (v := ⟨0, -1, 0⟩) hb (by norm_num)
    (by rw [hcr]; intro h; simpa using congrArg R3.x h)
    (by rw [hen]; norm_num)
    (by
      simp only [planeOf, hecc]
      rw [oriented_of_angle (angleBetween_zero_right _), reduce_zero])
    (by rw [trueAnomalyOf, hecc, oriented_of_angle (angleBetween_zero_left _), reduce_zero])
  refine ⟨o, _, w, h1, h2, fun h => ?_⟩
  have hz := congrArg R3.z h
  simp [Plane.node] at hz

/-! ### Examples -/

/-- There is a root finder. -/
theorem exists_rootFinder : ∃ brent, IsRootFinder brent := by
  classical
  refine ⟨fun f a b => if h : ∃ x ∈ Set.uIcc a b, f x = 0 then some h.choose else none, ?_⟩
  intro f a b hf hab
  have h := exists_root hf hab
  exact ⟨h.choose, h.choose_spec.1, h.choose_spec.2, dif_pos h⟩

/-- An ellipse given by its semimajor axis and eccentricity, with a mean anomaly, meets the hypotheses of `C56_ellipse`. -/
example : ∃ (brent : RootFinder) (c : Conic) (p : Plane) (x : ConicElements) (y : Orientation) (z : Anomalies), IsRootFinder brent ∧ c.IsEllipse ∧ c.μ = 3 + 1 ∧
    MinimallySpecified x ∧ Describes x c ∧ y.Describes p ∧ ∃ M, z = { meanAnomaly := some (num M) } := by
  obtain ⟨brent, hb⟩ := exists_rootFinder
  refine ⟨brent, ⟨4, 2, 1 / 2⟩, ⟨1, 2, 3⟩, { ecc := { eccentricity := some (num (1 / 2)) }, sma := { semimajorAxis := some (num 2) } },
    ⟨num 1, num 2, none, some (num 5)⟩, { meanAnomaly := some (num 7) }, hb, ⟨by norm_num, by norm_num, by norm_num, by norm_num⟩, by norm_num, ?_, ?_, ?_, 7, rfl⟩
  · refine ⟨1, 2, by decide, by decide, by decide, .one .eccentricity rfl ?_, .one .semimajorAxis rfl ?_, ?_⟩
    · intro g hg; cases g <;> simp_all [Element.category, ConicElements.get]
    · intro g hg; cases g <;> simp_all [Element.category, ConicElements.get]
    · intro l _ h1 h2 g hg; cases g <;> simp_all [Element.category, ConicElements.get]
  · intro f v hv
    cases f <;> simp_all [ConicElements.get, Conic.elements] <;> exact hv ▸ (by simp)
  · refine ⟨rfl, rfl, by simp, by simp, ?_⟩
    intro v hv
    simp only [Option.some.injEq] at hv
    rw [← hv]; norm_num

/-- A hyperbola given by its semimajor axis and eccentricity, with a true anomaly, meets the hypotheses of `C56_hyperbola` and, with the opposite true anomaly, those of
`C56_true_anomaly_counterexample`. -/
example : ∃ (c : Conic) (p : Plane) (x : ConicElements) (y : Orientation), c.IsHyperbola ∧ c.μ = 3 + 1 ∧
    MinimallySpecified x ∧ Describes x c ∧ y.Describes p ∧ (0 < 1 + c.e * Real.cos (π / 2) ∧ 0 ≤ Real.sin (π / 2)) ∧
      0 < 1 + c.e * Real.cos (-(π / 2)) ∧ Real.sin (-(π / 2)) < 0 := by
  refine ⟨⟨4, -2, 2⟩, ⟨1, 2, 3⟩, { ecc := { eccentricity := some (num 2) }, sma := { semimajorAxis := some (num (-2)) } },
    ⟨num 1, num 2, some (num 3), none⟩, ⟨by norm_num, by norm_num, by norm_num⟩, by norm_num, ?_, ?_, ?_, ?_, ?_⟩
  · refine ⟨1, 2, by decide, by decide, by decide, .one .eccentricity rfl ?_, .one .semimajorAxis rfl ?_, ?_⟩
    · intro g hg; cases g <;> simp_all [Element.category, ConicElements.get]
    · intro g hg; cases g <;> simp_all [Element.category, ConicElements.get]
    · intro l _ h1 h2 g hg; cases g <;> simp_all [Element.category, ConicElements.get]
  · intro f v hv
    cases f <;> simp_all [ConicElements.get, Conic.elements] <;> exact hv ▸ (by simp)
  · refine ⟨rfl, rfl, by simp, ?_, by simp⟩
    intro v hv
    simp only [Option.some.injEq] at hv
    rw [← hv]
  · simp
  · simp

/-- State vectors that meet the hypotheses of `C56_states`. -/
example : (((⟨1, 0, 0⟩ : R3 ℝ).cross ⟨0, 1, 1⟩).x ≠ 0 ∨ ((⟨1, 0, 0⟩ : R3 ℝ).cross ⟨0, 1, 1⟩).y ≠ 0) ∧
    ((⟨0, 1, 1⟩ : R3 ℝ).cross ((⟨1, 0, 0⟩ : R3 ℝ).cross ⟨0, 1, 1⟩)).div (3 + 1) - (⟨1, 0, 0⟩ : R3 ℝ).div (⟨1, 0, 0⟩ : R3 ℝ).norm ≠ 0 ∧
    (⟨0, 1, 1⟩ : R3 ℝ).normSq / 2 - (3 + 1) / (⟨1, 0, 0⟩ : R3 ℝ).norm < 0 := by
  rw [norm_x]
  refine ⟨by norm_num [R3.cross], ?_, by norm_num [R3.normSq]⟩
  intro h
  have := congrArg R3.x h
  norm_num [R3.cross, R3.div] at this

/-- State vectors that meet the hypotheses of `C56_incoming_counterexample`. -/
example : (((⟨1, 0, 0⟩ : R3 ℝ).cross ⟨-1, 2, 2⟩).x ≠ 0 ∨ ((⟨1, 0, 0⟩ : R3 ℝ).cross ⟨-1, 2, 2⟩).y ≠ 0) ∧
    ((⟨-1, 2, 2⟩ : R3 ℝ).cross ((⟨1, 0, 0⟩ : R3 ℝ).cross ⟨-1, 2, 2⟩)).div (1 + 1) - (⟨1, 0, 0⟩ : R3 ℝ).div (⟨1, 0, 0⟩ : R3 ℝ).norm ≠ 0 ∧
    0 < (⟨-1, 2, 2⟩ : R3 ℝ).normSq / 2 - (1 + 1) / (⟨1, 0, 0⟩ : R3 ℝ).norm ∧ (⟨1, 0, 0⟩ : R3 ℝ).dot ⟨-1, 2, 2⟩ < 0 := by
  rw [norm_x]
  refine ⟨by norm_num [R3.cross], ?_, by norm_num [R3.normSq], by norm_num [R3.dot]⟩
  intro h
  have := congrArg R3.x h
  norm_num [R3.cross, R3.div] at this

end Principia.Physics.Kepler
