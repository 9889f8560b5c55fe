import Verif.Physics.FramesProps
import Verif.Physics.SimilarMotionProps

/-!
The rotating-pulsating frame, and the cache of the barycentric frame.
-/

set_option linter.unusedSimpArgs false
set_option linter.unusedVariables false
set_option linter.unusedSectionVars false

namespace Principia.Physics.Frames

open Geometry Motion

variable {Body : Type} {F : BarycentricRotating Body}

theorem _root_.Principia.Geometry.Quat.conjugate_one_mul (q : Quat ℝ) : (Quat.ofReal 1).conjugate * q = q := by
  ext <;> simp [Quat.conjugate, Quat.ofReal, R3.dot, R3.cross]

/-! ## The distance -/

/-- The distance between the barycentres and its derivatives. -/
noncomputable def ρ (F : BarycentricRotating Body) (t : ℝ) : ℝ := (separation F 0 t).norm

noncomputable def ρ' (F : BarycentricRotating Body) (t : ℝ) : ℝ := (separation F 0 t).dot (separation F 1 t) / ρ F t

noncomputable def ρ'' (F : BarycentricRotating Body) (t : ℝ) : ℝ :=
  (separation F 1 t).normSq / ρ F t + (separation F 0 t).dot (separation F 2 t) / ρ F t - ρ' F t ^ 2 / ρ F t

section

variable (hE : F.ephemeris.Consistent) (h₁ : 0 < F.ephemeris.parameter F.primaries) (h₂ : 0 < F.ephemeris.parameter F.secondaries)
  (h : ∀ t, (separation F 0 t).cross (separation F 1 t) ≠ 0)

include h in
theorem ρ_pos (t : ℝ) : 0 < ρ F t := norm_pos (left_ne_zero (h t))

include hE h in
theorem ρ_deriv (t : ℝ) : HasDerivAt (ρ F) (ρ' F t) t := (separation_deriv hE t).1.norm (left_ne_zero (h t))

include hE h in
theorem ρ'_deriv (t : ℝ) : HasDerivAt (ρ' F) (ρ'' F t) t := by
  refine (((separation_deriv hE t).1.dot (separation_deriv hE t).2.1).div (ρ_deriv hE h t) (ρ_pos h t).ne').congr_deriv ?_
  have := (ρ_pos h t).ne'
  have e : (separation F 1 t).dot (separation F 1 t) = (separation F 1 t).normSq := rfl
  rw [e, ρ'', ρ']
  field_simp

include h₁ h₂ in
theorem rDerivatives_eq (t : ℝ) : RotatingPulsating.rDerivatives ⟨F⟩ t = some (ρ F t, ρ' F t, ρ'' F t) := by
  have hn : ∀ x y : R3 ℝ, (x - y).norm = (y - x).norm := by
    intro x y
    have : (x - y).normSq = (y - x).normSq := by simp [R3.normSq, R3.dot]; ring
    rw [R3.norm, this]; rfl
  have hs : ∀ x y : R3 ℝ, (x - y).normSq = (y - x).normSq := by intro x y; simp [R3.normSq, R3.dot]; ring
  have hd : ∀ x y z w : R3 ℝ, (x - y).dot (z - w) = (y - x).dot (w - z) := by intro x y z w; simp [R3.dot]; ring
  simp only [RotatingPulsating.rDerivatives, barycentreDerivative_eq _ h₁.ne', barycentreDerivative_eq _ h₂.ne', Option.bind_eq_bind, Option.bind_some, Option.pure_def]
  simp only [ρ, ρ', ρ'', separation]
  rw [hn (F.ephemeris.mean F.primaries _), hd (F.ephemeris.mean F.primaries _), hs (F.ephemeris.mean F.primaries _), hd (F.ephemeris.mean F.primaries _)]

/-! ## The motion -/

/-- The motion from the rotating-pulsating frame to the rotating frame. -/
noncomputable def toRotating (F : BarycentricRotating Body) (t : ℝ) : SimilarMotion := ⟨dilatation (ρ F t), 0, 0, ρ' F t / ρ F t⟩

/-- The motion of the rotating-pulsating frame. -/
noncomputable def pulsatingMotion (F : BarycentricRotating Body) (t : ℝ) : SimilarMotion := multiplied (inverted (toRotating F t)) (forgottenMotion (barycentricMotion F t))

include h in
theorem toRotatingFrame_eq (t : ℝ) : RotatingPulsating.toRotatingFrame (ρ F t) (ρ' F t) = some (toRotating F t) := by
  rw [RotatingPulsating.toRotatingFrame, Homothecy.make, if_pos (ρ_pos h t), Option.bind_some]
  exact dilatationAboutOrigin_eq (h := ⟨ρ F t⟩) (ρ_pos h t) _

include h in
theorem toRotating_unit (t : ℝ) : (toRotating F t).conformalMap.IsUnit := dilatation_unit (ρ_pos h t)

include h in
theorem barycentric_unit (t : ℝ) : (barycentricMotion F t).orthogonalMap.IsUnit := (computeRotation_eq (tri_orthonormal (h t))).1

include h in
theorem forgotten_barycentric_unit (t : ℝ) : (forgottenMotion (barycentricMotion F t)).conformalMap.IsUnit := forgotten_unit (barycentric_unit h t)

include h₁ h₂ h in
theorem toThisFrameAtTimeSimilarly_eq (t : ℝ) : RotatingPulsating.toThisFrameAtTimeSimilarly ⟨F⟩ t = some (pulsatingMotion F t) := by
  simp only [RotatingPulsating.toThisFrameAtTimeSimilarly, rDerivatives_eq h₁ h₂, Option.bind_eq_bind, Option.bind_some]
  rw [toRotatingFrame_eq h, Option.bind_some, inverse_eq (toRotating_unit h t), Option.bind_some, barycentric_toThisFrameAtTime h₁ h₂ h, Option.bind_some, forgetMotion_eq, Option.bind_some,
    mul_eq (inverted_unit (toRotating_unit h t)) (forgotten_barycentric_unit h t)]
  rfl

include hE h₁ h₂ h in
theorem pulsating_motion (t : ℝ) : IsSimilarMotionOf (fun s => (pulsatingMotion F s).similarity) (pulsatingMotion F t) t := by
  have hd : IsSimilarMotionOf (fun s => dilatation (ρ F s)) (toRotating F t) t := by
    refine dilatation_motion (ρ_pos h) ((ρ_deriv hE h t).congr_deriv ?_)
    rw [div_mul_cancel₀ _ (ρ_pos h t).ne']
  obtain ⟨a, -, hm⟩ := (barycentric_isFrame hE h₁ h₂ h).accelerated t
  obtain ⟨n, U, hn, hU, hs⟩ := C57_similar_compose hd.inverted (hm.motion t).forgotten
  have e1 : n = pulsatingMotion F t := by
    rw [mul_eq (inverted_unit (toRotating_unit h t)) (forgotten_barycentric_unit h t)] at hn
    exact (Option.some.inj hn).symm
  have e2 : U = fun s => (pulsatingMotion F s).similarity := by
    funext s
    have := hU s
    rw [mulSimilarity_eq (inverseOf_unit (dilatation_unit (ρ_pos h s))) (forgotten_unit (barycentric_unit h s))] at this
    exact (Option.some.inj this).symm
  rw [← e1, ← e2]
  exact hs

include h in
/-- The effect of the motion to the rotating frame. -/
theorem applied_toRotating (t : ℝ) (d : DegreesOfFreedom) : applied (toRotating F t) d = ⟨ρ F t • d.position, ρ' F t • d.position + ρ F t • d.velocity⟩ := by
  have hv := value_dilatation (ρ_pos h t) d.position
  have hp := (ρ_pos h t).ne'
  have hi : (OrthogonalMap.identity : OrthogonalMap ℝ).IsUnit := by simp [OrthogonalMap.IsUnit, OrthogonalMap.identity, Quat.normSq, Quat.ofReal, R3.normSq]
  ext1
  · exact hv
  · show (ρ' F t / ρ F t) • value (dilatation (ρ F t)) d.position + (-(OrthogonalMap.identity : OrthogonalMap ℝ).applyBivector 0).cross (value (dilatation (ρ F t)) d.position) +
      ρ F t • (OrthogonalMap.identity : OrthogonalMap ℝ).apply (d.velocity - 0) = ρ' F t • d.position + ρ F t • d.velocity
    rw [hv, ((C37_orthogonal_inverse _ hi).2.2.2.2 _).1, ((C37_orthogonal_inverse _ hi).2.2.2.2 _).2]
    ext <;> simp [R3.cross] <;> field_simp

include h in
/-- The effect of the inverse motion. -/
theorem applied_inverted_toRotating (t : ℝ) (d : DegreesOfFreedom) :
    applied (inverted (toRotating F t)) d = ⟨(1 / ρ F t) • d.position, (1 / ρ F t) • d.velocity - (ρ' F t / ρ F t ^ 2) • d.position⟩ := by
  have hp := (ρ_pos h t).ne'
  have e : d = applied (toRotating F t) ⟨(1 / ρ F t) • d.position, (1 / ρ F t) • d.velocity - (ρ' F t / ρ F t ^ 2) • d.position⟩ := by
    rw [applied_toRotating h]
    ext <;> simp <;> field_simp <;> ring
  conv_lhs => rw [e]
  rw [inverted_applied (toRotating_unit h t)]

include h in
theorem applyVector_inverted_toRotating (t : ℝ) (v : R3 ℝ) : (inverted (toRotating F t)).conformalMap.apply v = some ((1 / ρ F t) • v) := by
  have hi : (OrthogonalMap.identity : OrthogonalMap ℝ).IsUnit := by simp [OrthogonalMap.IsUnit, OrthogonalMap.identity, Quat.normSq, Quat.ofReal, R3.normSq]
  rw [ConformalMap.apply_eq (inverted_unit (toRotating_unit h t))]
  have e : (inverted (toRotating F t)).conformalMap.orthogonalMap = OrthogonalMap.identity := by
    show (⟨true, (Quat.ofReal 1).conjugate⟩ : OrthogonalMap ℝ) = ⟨true, Quat.ofReal 1⟩
    congr 1
    ext <;> simp [Quat.conjugate, Quat.ofReal]
  rw [e, ((C37_orthogonal_inverse _ hi).2.2.2.2 _).1]
  rfl

include h in
theorem applied_pulsating (t : ℝ) (d : DegreesOfFreedom) : (pulsatingMotion F t).apply d = some (applied (inverted (toRotating F t)) ((barycentricMotion F t).apply d)) := by
  have hl := inverted_unit (toRotating_unit h t)
  have hr : (forgottenMotion (barycentricMotion F t)).conformalMap.IsUnit := forgotten_unit (barycentric_unit h t)
  obtain ⟨⟨n, hn, hd⟩, -⟩ := C57_similar_group hl hr d
  rw [mul_eq hl hr] at hn
  cases hn
  refine hd.trans ?_
  rw [apply_eq hr, Option.bind_some, apply_eq hl, applied_forgotten (barycentric_unit h t)]

end

/-- The rotating-pulsating frame: the motion is the derivative of the similarity, the barycentre of all the bodies is at rest at the origin, and the barycentre of the primaries and that of the
secondaries are at rest on the first axis, at a distance of 1 from one another. -/
theorem C59_rotating_pulsating (hE : F.ephemeris.Consistent) (hF : F.Valid) (hμ : ∀ b, 0 < F.ephemeris.gravitationalParameter b) {g₁ v₁ g₂ v₂ : ℝ → R3 ℝ}
    (hg₁ : ∀ t, g₁ t = F.ephemeris.mean F.primaries (F.ephemeris.position · t)) (hv₁ : ∀ t, v₁ t = F.ephemeris.mean F.primaries (F.ephemeris.velocity · t))
    (hg₂ : ∀ t, g₂ t = F.ephemeris.mean F.secondaries (F.ephemeris.position · t)) (hv₂ : ∀ t, v₂ t = F.ephemeris.mean F.secondaries (F.ephemeris.velocity · t))
    (h : ∀ t, (g₂ t - g₁ t).cross (v₂ t - v₁ t) ≠ 0) {μ₁ μ₂ : ℝ} (hμ₁ : μ₁ = F.ephemeris.parameter F.primaries) (hμ₂ : μ₂ = F.ephemeris.parameter F.secondaries) :
    ∃ m : ℝ → SimilarMotion, (∀ t, RotatingPulsating.toThisFrameAtTimeSimilarly ⟨F⟩ t = some (m t)) ∧
      (∀ t, IsSimilarMotionOf (fun s => (m s).similarity) (m t) t) ∧
      (∀ t, (m t).apply ⟨F.ephemeris.mean (F.primaries ++ F.secondaries) (F.ephemeris.position · t), F.ephemeris.mean (F.primaries ++ F.secondaries) (F.ephemeris.velocity · t)⟩ = some ⟨0, 0⟩) ∧
      (∀ t, (m t).apply ⟨g₁ t, v₁ t⟩ = some ⟨⟨-(μ₂ / (μ₁ + μ₂)), 0, 0⟩, 0⟩) ∧
      (∀ t, (m t).apply ⟨g₂ t, v₂ t⟩ = some ⟨⟨μ₁ / (μ₁ + μ₂), 0, 0⟩, 0⟩) ∧
      (∀ t, ∃ a b, 0 < b ∧ (m t).conformalMap.apply (v₂ t - v₁ t) = some ⟨a, b, 0⟩) ∧ ∀ t, (m t).conformalMap.same = true := by
  obtain ⟨m, hm, -⟩ := C59_barycentric_rotating hE hF hμ hg₁ hv₁ hg₂ hv₂ h hμ₁ hμ₂
  have h₁ := parameter_pos hμ hF.1
  have h₂ := parameter_pos hμ hF.2.2.1
  obtain rfl : g₁ = _ := funext hg₁
  obtain rfl : v₁ = _ := funext hv₁
  obtain rfl : g₂ = _ := funext hg₂
  obtain rfl : v₂ = _ := funext hv₂
  have hs : ∀ t, (separation F 0 t).cross (separation F 1 t) ≠ 0 := h
  subst hμ₁ hμ₂
  have key : ∀ k t, (pulsatingMotion F t).apply ⟨centre F 0 t + k • separation F 0 t, centre F 1 t + k • separation F 1 t⟩ = some ⟨⟨k, 0, 0⟩, 0⟩ := by
    intro k t
    have hp := (ρ_pos hs t).ne'
    rw [applied_pulsating hs, barycentric_apply hE hs, applied_inverted_toRotating hs]
    have e : (separation F 0 t).dot (separation F 1 t) / (separation F 0 t).norm = ρ' F t := rfl
    have e' : (separation F 0 t).norm = ρ F t := rfl
    rw [e, e']
    congr 1
    ext <;> simp <;> field_simp
    ring
  refine ⟨pulsatingMotion F, toThisFrameAtTimeSimilarly_eq h₁ h₂ hs, pulsating_motion hE h₁ h₂ hs, fun t => ?_, fun t => ?_, fun t => ?_, fun t => ?_, fun t => rfl⟩
  · refine Eq.trans (congrArg _ ?_) ((key 0 t).trans ?_)
    · ext <;> simp [centre, BarycentricRotating.bodyDerivative]
    · congr 1
  · refine Eq.trans (congrArg _ ?_) (key _ t)
    ext1
    · exact mean_primaries h₁ h₂ 0 t
    · exact mean_primaries h₁ h₂ 1 t
  · refine Eq.trans (congrArg _ ?_) (key _ t)
    ext1
    · exact mean_secondaries h₁ h₂ 0 t
    · exact mean_secondaries h₁ h₂ 1 t
  · obtain ⟨a, b, hb, hab⟩ := (tri_apply (hs t)).2
    have hp := ρ_pos hs t
    have hu : (pulsatingMotion F t).conformalMap.IsUnit := (pulsating_motion hE h₁ h₂ hs t).unit'
    refine ⟨1 / ρ F t * a, 1 / ρ F t * b, mul_pos (one_div_pos.2 hp) hb, ?_⟩
    rw [ConformalMap.apply_eq hu]
    have e1 : (pulsatingMotion F t).conformalMap.scale = 1 / ρ F t := mul_one _
    have e2 : (pulsatingMotion F t).conformalMap.orthogonalMap = (computeRotation (tri (separation F 0 t) (separation F 1 t))).forgetOrthogonal := by
      show (⟨true == true, (Quat.ofReal 1).conjugate * (computeRotation (tri (separation F 0 t) (separation F 1 t))).quaternion⟩ : OrthogonalMap ℝ) = ⟨true, _⟩
      rw [Quat.conjugate_one_mul]; rfl
    rw [e1, e2]
    congr 1
    refine (congrArg _ hab).trans ?_
    ext <;> simp

/-- The velocity of a particle in the rotating-pulsating frame is the derivative of its position, and the geometric acceleration of a particle in free fall is the derivative of its
velocity. -/
theorem C59_pulsating_free_fall (hE : F.ephemeris.Consistent) (hF : F.Valid) (hμ : ∀ b, 0 < F.ephemeris.gravitationalParameter b) {g₁ v₁ g₂ v₂ : ℝ → R3 ℝ}
    (hg₁ : ∀ t, g₁ t = F.ephemeris.mean F.primaries (F.ephemeris.position · t)) (hv₁ : ∀ t, v₁ t = F.ephemeris.mean F.primaries (F.ephemeris.velocity · t))
    (hg₂ : ∀ t, g₂ t = F.ephemeris.mean F.secondaries (F.ephemeris.position · t)) (hv₂ : ∀ t, v₂ t = F.ephemeris.mean F.secondaries (F.ephemeris.velocity · t))
    (h : ∀ t, (g₂ t - g₁ t).cross (v₂ t - v₁ t) ≠ 0) {m : ℝ → SimilarMotion} (hm : ∀ t, RotatingPulsating.toThisFrameAtTimeSimilarly ⟨F⟩ t = some (m t)) {t : ℝ}
    {q v : ℝ → R3 ℝ} (hq : ∀ s, HasDeriv q (v s) s) (hv : HasDeriv v (F.ephemeris.accelerationOnMasslessBody (q t) t) t) :
    ∃ d : ℝ → DegreesOfFreedom, (∀ s, (m s).apply ⟨q s, v s⟩ = some (d s)) ∧ (∀ s, HasDeriv (fun s => (d s).position) (d s).velocity s) ∧
      ∃ a, RotatingPulsating.geometricAcceleration ⟨F⟩ t (d t) = some a ∧ HasDeriv (fun s => (d s).velocity) a t := by
  have h₁ := parameter_pos hμ hF.1
  have h₂ := parameter_pos hμ hF.2.2.1
  obtain rfl : g₁ = _ := funext hg₁
  obtain rfl : v₁ = _ := funext hv₁
  obtain rfl : g₂ = _ := funext hg₂
  obtain rfl : v₂ = _ := funext hv₂
  have hs : ∀ t, (separation F 0 t).cross (separation F 1 t) ≠ 0 := h
  obtain rfl : m = pulsatingMotion F := funext fun t => by
    have := hm t
    rw [toThisFrameAtTimeSimilarly_eq h₁ h₂ hs] at this
    exact (Option.some.inj this).symm
  obtain ⟨hx, aR, haR, hw⟩ := C59_free_fall (F := F.frame) (barycentric_isFrame hE h₁ h₂ hs) hq hv
  have hp := fun s => (ρ_pos hs s).ne'
  have hρ := ρ_deriv hE hs
  have hρ' := ρ'_deriv hE hs
  have hk : ∀ s, HasDerivAt (fun s => 1 / ρ F s) (-ρ' F s / ρ F s ^ 2) s := by
    intro s
    simp only [one_div]
    exact (hρ s).inv (hp s)
  have hk' : ∀ s, HasDerivAt (fun s => ρ' F s / ρ F s ^ 2) ((ρ'' F s * ρ F s - 2 * ρ' F s ^ 2) / ρ F s ^ 3) s := by
    intro s
    have h2 : HasDerivAt (fun s => ρ F s ^ 2) (2 * ρ F s * ρ' F s) s := by
      refine ((hρ s).pow 2).congr_deriv ?_
      norm_num
    refine ((hρ' s).div h2 (pow_ne_zero 2 (hp s))).congr_deriv ?_
    have := hp s
    field_simp
  refine ⟨_, fun s => applied_pulsating hs s _, fun s => ?_, ?_⟩
  · simp only [applied_inverted_toRotating hs]
    refine (HasDeriv.smul (hk s) (hx s)).congr_deriv ?_
    ext <;> simp <;> ring
  · have hd : (toRotating F t).apply (applied (inverted (toRotating F t)) ((barycentricMotion F t).apply ⟨q t, v t⟩)) = some ((barycentricMotion F t).apply ⟨q t, v t⟩) := by
      rw [apply_eq (toRotating_unit hs t), applied_inverted (toRotating_unit hs t)]
    have hc : (inverted (toRotating F t)).conformalMap.apply aR = some ((1 / ρ F t) • aR) := applyVector_inverted_toRotating hs t aR
    refine ⟨_, by
      simp only [RotatingPulsating.geometricAcceleration, rDerivatives_eq h₁ h₂, Option.bind_eq_bind, Option.bind_some]
      rw [toRotatingFrame_eq hs, Option.bind_some, inverse_eq (toRotating_unit hs t), Option.bind_some, hd, Option.bind_some, haR, Option.bind_some, hc]
      rfl, ?_⟩
    simp only [applied_inverted_toRotating hs]
    refine ((HasDeriv.smul (hk t) hw).sub (HasDeriv.smul (hk' t) (hx t))).congr_deriv ?_
    have := hp t
    ext <;> simp <;> field_simp <;> ring

/-- In the rotating-pulsating frame, the acceleration at rest without rotation is minus the gradient of the geometric potential; and the part of the acceleration at rest that is left out is that
of a rotation. -/
theorem C59_pulsating_potential (hE : F.ephemeris.Consistent) (hF : F.Valid) (hμ : ∀ b, 0 < F.ephemeris.gravitationalParameter b) {g₁ v₁ g₂ v₂ : ℝ → R3 ℝ}
    (hg₁ : ∀ t, g₁ t = F.ephemeris.mean F.primaries (F.ephemeris.position · t)) (hv₁ : ∀ t, v₁ t = F.ephemeris.mean F.primaries (F.ephemeris.velocity · t))
    (hg₂ : ∀ t, g₂ t = F.ephemeris.mean F.secondaries (F.ephemeris.position · t)) (hv₂ : ∀ t, v₂ t = F.ephemeris.mean F.secondaries (F.ephemeris.velocity · t))
    (h : ∀ t, (g₂ t - g₁ t).cross (v₂ t - v₁ t) ≠ 0) {m : ℝ → SimilarMotion} (hm : ∀ t, RotatingPulsating.toThisFrameAtTimeSimilarly ⟨F⟩ t = some (m t)) {t : ℝ} :
    (∃ V, (∀ y, RotatingPulsating.geometricPotential ⟨F⟩ t y = some (V y)) ∧
      ∀ x p, (m t).similarity.applySimilarity p = some x → IsGradient (F.ephemeris.potential · t) (-F.ephemeris.accelerationOnMasslessBody p t) p →
        ∃ a, RotatingPulsating.rotationFreeGeometricAccelerationAtRest ⟨F⟩ t x = some a ∧ IsGradient V (-a) x) ∧
      ∃ B : R3 ℝ, ∀ x, ∃ a, RotatingPulsating.rotationFreeGeometricAccelerationAtRest ⟨F⟩ t x = some a ∧
        RotatingPulsating.geometricAcceleration ⟨F⟩ t ⟨x, 0⟩ = some (a + B.cross x) := by
  have h₁ := parameter_pos hμ hF.1
  have h₂ := parameter_pos hμ hF.2.2.1
  obtain rfl : g₁ = _ := funext hg₁
  obtain rfl : v₁ = _ := funext hv₁
  obtain rfl : g₂ = _ := funext hg₂
  obtain rfl : v₂ = _ := funext hv₂
  have hs : ∀ t, (separation F 0 t).cross (separation F 1 t) ≠ 0 := h
  obtain rfl : m = pulsatingMotion F := funext fun t => by
    have := hm t
    rw [toThisFrameAtTimeSimilarly_eq h₁ h₂ hs] at this
    exact (Option.some.inj this).symm
  have hb := barycentric_isFrame hE h₁ h₂ hs
  have hp := ρ_pos hs t
  have hp' := hp.ne'
  have hpos : ∀ x, (toRotating F t).similarity.applySimilarity x = some (ρ F t • x) := fun x => by
    rw [applySimilarity_eq (toRotating_unit hs t)]
    exact congrArg some (value_dilatation hp x)
  have hrest : ∀ x aR, F.frame.rotationFreeGeometricAccelerationAtRest t (ρ F t • x) = some aR →
      RotatingPulsating.rotationFreeGeometricAccelerationAtRest ⟨F⟩ t x = some ((-ρ'' F t / ρ F t) • (x - 0) + (1 / ρ F t) • aR) := by
    intro x aR ha
    simp only [RotatingPulsating.rotationFreeGeometricAccelerationAtRest, rDerivatives_eq h₁ h₂, Option.bind_eq_bind, Option.bind_some]
    rw [toRotatingFrame_eq hs, Option.bind_some, inverse_eq (toRotating_unit hs t), Option.bind_some, hpos, Option.bind_some, ha, Option.bind_some,
      applyVector_inverted_toRotating hs]
    rfl
  refine ⟨?_, ?_⟩
  · have hV : ∃ VR : R3 ℝ → ℝ, ∀ y, F.frame.geometricPotential t y = some (VR y) := by
      obtain ⟨a, ha, -⟩ := hb.accelerated t
      exact ⟨_, fun y => by rw [RigidReferenceFrame.geometricPotential, ha, Option.map_some]⟩
    obtain ⟨VR, hVR⟩ := hV
    refine ⟨fun y => ρ'' F t * (y - 0).normSq / (2 * ρ F t) + VR (ρ F t • y) / ρ F t ^ 2, fun y => ?_, fun x p hx hg => ?_⟩
    · simp only [RotatingPulsating.geometricPotential, rDerivatives_eq h₁ h₂, Option.bind_eq_bind, Option.bind_some]
      rw [toRotatingFrame_eq hs, Option.bind_some, hpos, Option.bind_some, hVR, Option.bind_some]
      rfl
    · have hu : (pulsatingMotion F t).conformalMap.IsUnit := (pulsating_motion hE h₁ h₂ hs t).unit'
      have hx1 : x = (1 / ρ F t) • ((barycentricMotion F t).apply ⟨p, 0⟩).position := by
        have e := applied_pulsating hs t ⟨p, 0⟩
        rw [apply_eq hu, applied_inverted_toRotating hs] at e
        have e1 := congrArg DegreesOfFreedom.position (Option.some.inj e)
        rw [applySimilarity_eq hu] at hx
        rw [← Option.some.inj hx]
        exact e1
      have hx2 : ((barycentricMotion F t).apply ⟨p, 0⟩).position = ρ F t • x := by
        rw [hx1]; ext <;> simp <;> field_simp
      have hx3 : ((barycentricMotion F t).inverse.apply ⟨ρ F t • x, 0⟩).position = p := by
        rw [← hx2]
        exact congrArg DegreesOfFreedom.position (RigidMotion.inverse_apply (barycentric_unit hs t) ⟨p, 0⟩)
      obtain ⟨VR', aR, hVR', haR, hgR⟩ := C59_potential (F := F.frame) (t := t) hb (ρ F t • x) (by rw [hx3]; exact hg)
      obtain rfl : VR' = VR := funext fun y => Option.some.inj ((hVR' y).symm.trans (hVR y))
      refine ⟨_, hrest x aR haR, ?_⟩
      intro c c' s hc hcx
      have k1 := hgR (fun s => ρ F t • c s) (ρ F t • c') s (hc.const_smul _) (by rw [hcx])
      have hc0 : HasDeriv (fun s => c s - 0) c' s := hc.congr_fun fun s => by ext <;> simp
      have k2 := hc0.normSq
      refine (((k2.const_mul (ρ'' F t)).div_const (2 * ρ F t)).add (k1.div_const (ρ F t ^ 2))).congr_deriv ?_
      rw [hcx]
      simp [R3.dot]
      field_simp
      ring
  · obtain ⟨B, C, hBC⟩ := C59_rotation (F := F.frame) (t := t) hb
    refine ⟨B + (ρ' F t / ρ F t) • C, fun x => ?_⟩
    obtain ⟨aR, haR, hv⟩ := hBC (ρ F t • x)
    refine ⟨_, hrest x aR haR, ?_⟩
    have hd : (toRotating F t).apply ⟨x, 0⟩ = some ⟨ρ F t • x, ρ' F t • x⟩ := by
      rw [apply_eq (toRotating_unit hs t), applied_toRotating hs]
      congr 1
      ext <;> simp
    simp only [RotatingPulsating.geometricAcceleration, rDerivatives_eq h₁ h₂, Option.bind_eq_bind, Option.bind_some]
    rw [toRotatingFrame_eq hs, Option.bind_some, inverse_eq (toRotating_unit hs t), Option.bind_some, hd, Option.bind_some, hv, Option.bind_some,
      applyVector_inverted_toRotating hs]
    show some _ = some _
    congr 1
    ext <;> simp [R3.cross] <;> field_simp <;> ring

/-! ## The cache -/

/-- The values of a cache are those of the computation. -/
def CachedDerivatives.Sound {Time Value : Type} (compute : Fin 4 → Time → Value) (cache : CachedDerivatives Time Value) : Prop :=
  ∀ degree t, cache.times degree = some t → cache.derivatives degree = compute degree t

/-- Whatever the sequence of the evaluations, the cache, which is initially without times, makes no difference to their results. -/
theorem C59_cache {Time Value : Type} [DecidableEq Time] (compute : Fin 4 → Time → Value) (initial : Fin 4 → Value) (requests : List (Fin 4 × Time)) :
    (requests.foldl (fun (state : List Value × CachedDerivatives Time Value) request =>
        let (value, cache) := cachedDerivative compute state.2 request.1 request.2
        (state.1 ++ [value], cache)) ([], ⟨initial, fun _ => none⟩)).1 = requests.map fun request => compute request.1 request.2 := by
  have step : ∀ (cache : CachedDerivatives Time Value) (d : Fin 4) (t : Time), cache.Sound compute →
      (cachedDerivative compute cache d t).1 = compute d t ∧ (cachedDerivative compute cache d t).2.Sound compute := by
    intro cache d t hs
    rw [cachedDerivative]
    by_cases hc : cache.times d ≠ some t
    · rw [if_pos hc]
      refine ⟨if_pos rfl, fun d' t' h' => ?_⟩
      by_cases hd : d' = d
      · subst hd
        have h1 : (some t : Option Time) = some t' := by simpa using h'
        obtain rfl := Option.some.inj h1
        exact if_pos rfl
      · have h1 : cache.times d' = some t' := by simpa [hd] using h'
        have h2 := hs d' t' h1
        simpa [hd] using h2
    · rw [if_neg hc]
      exact ⟨hs d t (not_not.1 hc), hs⟩
  have main : ∀ (requests : List (Fin 4 × Time)) (acc : List Value) (cache : CachedDerivatives Time Value), cache.Sound compute →
      (requests.foldl (fun (state : List Value × CachedDerivatives Time Value) request =>
        let (value, cache) := cachedDerivative compute state.2 request.1 request.2
        (state.1 ++ [value], cache)) (acc, cache)).1 = acc ++ requests.map fun request => compute request.1 request.2 := by
    intro requests
    induction requests with
    | nil => intro acc cache _; simp
    | cons q l ih =>
      intro acc cache hs
      rw [List.foldl_cons, List.map_cons]
      obtain ⟨h1, h2⟩ := step cache q.1 q.2 hs
      refine (ih _ _ h2).trans ?_
      show acc ++ [(cachedDerivative compute cache q.1 q.2).1] ++ _ = _
      rw [h1]; simp
  refine (main requests [] _ ?_).trans (by simp)
  intro d t ht
  simp at ht

end Principia.Physics.Frames
