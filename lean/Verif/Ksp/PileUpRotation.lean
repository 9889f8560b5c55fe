import Verif.Ksp.PileUpSpec
import Verif.Geometry.FormsPositive
import Verif.Geometry.SolveInertia
import Verif.Physics.MechanicalSystemProps
import Verif.Physics.EulerSolverProps

/-!
Lemmas about sets of particles that are rotated.
-/

set_option linter.unusedSimpArgs false
set_option linter.unusedVariables false
set_option linter.unusedSectionVars false

namespace Principia.Geometry.Rotation

variable {Q : Rotation ℝ}

theorem apply_add' (v w : R3 ℝ) : Q.apply (v + w) = Q.apply v + Q.apply w := (Q.C36_linear v w 0).1
theorem apply_smul' (a : ℝ) (v : R3 ℝ) : Q.apply (a • v) = a • Q.apply v := (Q.C36_linear v 0 a).2
theorem apply_zero' : Q.apply 0 = 0 := by
  have := Q.apply_smul' 0 0
  rwa [show (0 : ℝ) • (0 : R3 ℝ) = 0 by ext <;> simp, show (0 : ℝ) • Q.apply 0 = 0 by ext <;> simp] at this
theorem apply_neg' (v : R3 ℝ) : Q.apply (-v) = -Q.apply v := by
  have := Q.apply_smul' (-1) v
  rwa [show (-1 : ℝ) • v = -v by ext <;> simp, show (-1 : ℝ) • Q.apply v = -Q.apply v by ext <;> simp] at this
theorem apply_sub' (v w : R3 ℝ) : Q.apply (v - w) = Q.apply v - Q.apply w := by
  rw [show v - w = v + -w by ext <;> simp [sub_eq_add_neg], apply_add', apply_neg']
  ext <;> simp [sub_eq_add_neg]
theorem apply_cross' (h : Q.IsUnit) (v w : R3 ℝ) : Q.apply (v.cross w) = (Q.apply v).cross (Q.apply w) := (C36_cross Q h v w).symm
theorem inverse_apply' (h : Q.IsUnit) (v : R3 ℝ) : Q.inverse.apply (Q.apply v) = v := (C36_inverse Q h v).2.1
theorem apply_inverse' (h : Q.IsUnit) (v : R3 ℝ) : Q.apply (Q.inverse.apply v) = v := (C36_inverse Q h v).2.2.1
theorem inverse_unit' (h : Q.IsUnit) : Q.inverse.IsUnit := (C36_inverse Q h 0).1
theorem apply_normSq (h : Q.IsUnit) (v : R3 ℝ) : (Q.apply v).normSq = v.normSq := C36_isometry Q h v v
theorem apply_norm (h : Q.IsUnit) (v : R3 ℝ) : (Q.apply v).norm = v.norm := by rw [R3.norm, R3.norm, apply_normSq h]
theorem forgetOrthogonal_apply (v : R3 ℝ) : Q.forgetOrthogonal.apply v = Q.apply v := by
  simp only [Rotation.forgetOrthogonal, OrthogonalMap.apply, OrthogonalMap.makeRotation, OrthogonalMap.makeSignature]
  congr 1
theorem forgetOrthogonal_applyBivector (v : R3 ℝ) : Q.forgetOrthogonal.applyBivector v = Q.apply v := by
  simp only [Rotation.forgetOrthogonal, OrthogonalMap.applyBivector, OrthogonalMap.makeRotation, OrthogonalMap.makeSignature]
  congr 1

/-- The image of a form, as a linear map. -/
theorem applyForm_mulVec (h : Q.IsUnit) {M : M3 ℝ} (hM : M.Symmetric) (v : R3 ℝ) : (Q.applyForm M).mulVec (Q.apply v) = Q.apply (M.mulVec v) := by
  refine R3.ext_dot fun e => ?_
  have hf := (C36_form Q h M hM).2 (Q.inverse.apply e) v
  rw [apply_inverse' h] at hf
  simp only [M3.form] at hf
  have h1 : (Q.apply (M.mulVec v)).dot e = (M.mulVec v).dot (Q.inverse.apply e) := by
    conv_lhs => rw [← apply_inverse' h e]
    exact C36_isometry Q h _ _
  rw [h1]
  have hc : ∀ a b : R3 ℝ, a.dot b = b.dot a := by intro a b; simp [R3.dot]; ring
  rw [hc, hf, hc]

theorem applyForm_mulVec' (h : Q.IsUnit) {M : M3 ℝ} (hM : M.Symmetric) (v : R3 ℝ) : (Q.applyForm M).mulVec v = Q.apply (M.mulVec (Q.inverse.apply v)) := by
  rw [← applyForm_mulVec h hM, apply_inverse' h]

/-- The norm of a form is that of its image. -/
theorem applyForm_frobenius (h : Q.IsUnit) {M : M3 ℝ} (hM : M.Symmetric) : Form.frobeniusNorm (Q.applyForm M) = Form.frobeniusNorm M := by
  let V : M3 ℝ := M3.transpose ⟨Q.apply ⟨1, 0, 0⟩, Q.apply ⟨0, 1, 0⟩, Q.apply ⟨0, 0, 1⟩⟩
  have hV : ∀ v, V.mulVec v = Q.apply v := by
    intro v
    have : v = v.x • (⟨1, 0, 0⟩ : R3 ℝ) + v.y • (⟨0, 1, 0⟩ : R3 ℝ) + v.z • (⟨0, 0, 1⟩ : R3 ℝ) := by ext <;> simp
    conv_rhs => rw [this]
    rw [apply_add', apply_add', apply_smul', apply_smul', apply_smul']
    ext <;> simp [V, M3.mulVec, M3.transpose, R3.dot] <;> ring
  have ho : ∀ v w, (Q.apply v).dot (Q.apply w) = v.dot w := C36_isometry Q h
  have hl : V.transpose.mul V = M3.identity := by
    ext <;> simp only [V, M3.mul, Form.transpose_transpose', M3.identity, ho] <;> simp [R3.dot]
  have hT : ∀ v, V.transpose.mulVec v = Q.inverse.apply v := by
    intro v
    have e : ∀ (a b : M3 ℝ) (u : R3 ℝ), (a.mul b).mulVec u = a.mulVec (b.mulVec u) := by
      intro a b u; ext <;> simp [M3.mul, M3.mulVec, M3.transpose, R3.dot] <;> ring
    conv_lhs => rw [← apply_inverse' h v, ← hV, ← e, hl]
    ext <;> simp [M3.mulVec, M3.identity, R3.dot]
  have e : ∀ (a b : M3 ℝ) (u : R3 ℝ), (a.mul b).mulVec u = a.mulVec (b.mulVec u) := by
    intro a b u; ext <;> simp [M3.mul, M3.mulVec, M3.transpose, R3.dot] <;> ring
  have hr : V.mul V.transpose = M3.identity := by
    refine Physics.Mechanical.mulVec_ext fun v => ?_
    rw [e, hT, hV, apply_inverse' h]
    ext <;> simp [M3.mulVec, M3.identity, R3.dot]
  have hd : V.det = 1 := by
    have h1 : V.det = (Q.apply ⟨1, 0, 0⟩).dot ((Q.apply ⟨0, 1, 0⟩).cross (Q.apply ⟨0, 0, 1⟩)) := by
      simp [V, M3.det, M3.transpose, R3.dot, R3.cross]; ring
    rw [h1, C36_cross Q h, ho]
    simp [R3.dot, R3.cross]
  have hc : Q.applyForm M = (V.mul M).mul V.transpose := by
    refine Physics.Mechanical.mulVec_ext fun v => ?_
    rw [applyForm_mulVec' h hM, e, e, hT, hV]
  have := Form.frobeniusSq_conj ⟨hl, hr, hd⟩ M
  rw [Form.frobeniusNorm, Form.frobeniusNorm, hc]
  exact congrArg Real.sqrt this

end Principia.Geometry.Rotation

namespace Principia.Geometry.Form

/-- The Frobenius norm bounds the effect of a matrix. -/
theorem mulVec_norm_le (M : M3 ℝ) (v : R3 ℝ) : (M.mulVec v).norm ≤ frobeniusNorm M * v.norm := by
  have hn : ∀ a : R3 ℝ, 0 ≤ a.normSq := fun a => by simp only [R3.normSq]; nlinarith [mul_self_nonneg a.x, mul_self_nonneg a.y, mul_self_nonneg a.z]
  rw [R3.norm, R3.norm, frobeniusNorm, ← Real.sqrt_mul (by linarith [hn M.rowX, hn M.rowY, hn M.rowZ])]
  apply Real.sqrt_le_sqrt
  have key : ∀ a v : R3 ℝ, a.dot v * a.dot v ≤ a.normSq * v.normSq := by
    intro a v
    simp only [R3.dot, R3.normSq]
    nlinarith [mul_self_nonneg (a.x * v.y - a.y * v.x), mul_self_nonneg (a.x * v.z - a.z * v.x), mul_self_nonneg (a.y * v.z - a.z * v.y)]
  have h1 := key M.rowX v
  have h2 := key M.rowY v
  have h3 := key M.rowZ v
  simp only [M3.mulVec, R3.normSq] at *
  nlinarith

end Principia.Geometry.Form

namespace Principia.Ksp.PileUp

open Geometry Physics.Motion Physics.Mechanical Physics.Euler

/-! ## Motions that are rotations around the origin -/

/-- The motion from a frame that rotates around the origin. -/
noncomputable def rotating (R : Rotation ℝ) (ω : R3 ℝ) : RigidMotion := RigidMotion.ofFromFrame ⟨0, 0, R.forgetOrthogonal⟩ ω 0

variable {R Q : Rotation ℝ}

theorem rotating_transformation (h : R.IsUnit) (ω : R3 ℝ) : (rotating R ω).rigidTransformation = ⟨0, 0, R.forgetOrthogonal⟩ := (C57_getters ⟨0, 0, R.forgetOrthogonal⟩ h ω 0).1

theorem rotating_unit (h : R.IsUnit) (ω : R3 ℝ) : (rotating R ω).orthogonalMap.IsUnit := by
  rw [RigidMotion.orthogonalMap, rotating_transformation h]
  exact h

theorem rotating_apply (h : R.IsUnit) (ω : R3 ℝ) (d : DegreesOfFreedom) :
    (rotating R ω).apply d = ⟨R.apply d.position, R.apply d.velocity + ω.cross (R.apply d.position)⟩ := by
  obtain ⟨g1, g2, g3⟩ := C57_getters ⟨0, 0, R.forgetOrthogonal⟩ h ω 0
  change (rotating R ω).rigidTransformation = _ at g1
  change (rotating R ω).angularVelocityOfFromFrame = _ at g2
  change (rotating R ω).velocityOfFromFrameOrigin = _ at g3
  have hu := rotating_unit h ω
  have ho : (rotating R ω).orthogonalMap = R.forgetOrthogonal := by rw [RigidMotion.orthogonalMap, g1]
  generalize rotating R ω = μ at *
  have h1 := motion_resting hu d.position
  have h2 := RigidMotion.velocity_sub hu d ⟨d.position, 0⟩
  have e1 : (μ.apply ⟨0, 0⟩).velocity = 0 := g3
  have e2 : (μ.apply ⟨0, 0⟩).position = 0 := by
    show μ.rigidTransformation.apply 0 = 0
    rw [g1]
    simp only [Geometry.AffineMap.apply]
    rw [show (0 : R3 ℝ) - 0 = 0 by ext <;> simp, Rotation.forgetOrthogonal_apply, Rotation.apply_zero']
    ext <;> simp
  rw [e1, e2, ho, g2, Rotation.forgetOrthogonal_apply] at h1
  have hp : (μ.apply d).position = (μ.apply ⟨d.position, 0⟩).position := rfl
  rw [h1] at hp
  rw [h1, ho, Rotation.forgetOrthogonal_apply] at h2
  have hz : d.velocity - 0 - μ.angularVelocityOfToFrame.cross (d.position - d.position) = d.velocity := by ext <;> simp [R3.cross]
  rw [hz] at h2
  ext1
  · rw [hp]; ext <;> simp
  · have : (μ.apply d).velocity = (μ.apply d).velocity - (0 + ω.cross (R.apply d.position)) + (0 + ω.cross (R.apply d.position)) := by ext <;> simp
    rw [this, h2]; ext <;> simp

theorem rotating_inverse_apply (h : R.IsUnit) (ω : R3 ℝ) (d : DegreesOfFreedom) :
    (rotating R ω).inverse.apply d = ⟨R.inverse.apply d.position, R.inverse.apply (d.velocity - ω.cross d.position)⟩ := by
  have h1 := RigidMotion.inverse_apply (rotating_unit h ω) ⟨R.inverse.apply d.position, R.inverse.apply (d.velocity - ω.cross d.position)⟩
  rw [rotating_apply h, Rotation.apply_inverse' h, Rotation.apply_inverse' h] at h1
  rw [← h1]
  congr 1
  ext <;> simp

/-- The motion that is computed by an Euler solver. -/
theorem solver_motion {d L : R3 ℝ} {A : Rotation ℝ} {t₀ : ℝ} (hd : 0 < d.x ∧ d.x ≤ d.y ∧ d.y ≤ d.z) (hA : A.IsUnit) :
    ∃ s m R, make (M3.diagonal d) L A t₀ = some s ∧ FreeRotation d L A t₀ m R ∧
      (∀ t, s.attitudeAt (s.angularMomentumAt t) t = some (R t)) ∧
      ∀ t, s.motionAt t ⟨0, 0⟩ = some (rotating (R t) ((R t).apply (angularVelocity d (m t)))) := by
  obtain ⟨s, R, h1, h2, h3⟩ := C71_free_rotation d L A t₀ hd hA
  refine ⟨s, s.angularMomentumAt, R, h1, h3, h2, fun t => ?_⟩
  have hω : ∀ m, s.angularVelocityFor m = angularVelocity d m := by
    obtain ⟨s', M, k, hP, k1, -⟩ := make_diagonal (L := L) (t₀ := t₀) hd.1 hd.2.1 hd.2.2 hA
    rw [h1] at k
    obtain rfl := Option.some.inj k
    intro m
    rw [← k1]
    rfl
  simp only [EulerSolver.motionAt]
  rw [h2 t, hω]
  rfl

/-! ## Sets of particles -/

variable (c : DegreesOfFreedom) (ωₐ ω : R3 ℝ)

@[simp] theorem turn_nil : turn c ωₐ Q ω [] = [] := rfl
@[simp] theorem turn_cons (p : Particle) (ps : List Particle) : turn c ωₐ Q ω (p :: ps) = ⟨p.mass, turned c ωₐ Q ω p.state⟩ :: turn c ωₐ Q ω ps := rfl

theorem totalMass_turn (ps : List Particle) : totalMass (turn c ωₐ Q ω ps) = totalMass ps := by
  induction ps with
  | nil => rfl
  | cons p ps ih => simp [ih]

theorem firstMoment_turn (ps : List Particle) : firstMoment (turn c ωₐ Q ω ps) = Q.apply (firstMoment ps - totalMass ps • c.position) := by
  induction ps with
  | nil =>
    simp only [turn_nil, firstMoment_nil, totalMass_nil]
    rw [show (0 : R3 ℝ) - (0 : ℝ) • c.position = 0 by ext <;> simp, Rotation.apply_zero']
  | cons p ps ih =>
    simp only [turn_cons, firstMoment_cons, totalMass_cons, ih, turned]
    rw [← Rotation.apply_smul', ← Rotation.apply_add']
    congr 1
    ext <;> simp <;> ring

theorem momentum_turn (ps : List Particle) : momentum (turn c ωₐ Q ω ps) =
    Q.apply (momentum ps - totalMass ps • c.velocity - ωₐ.cross (firstMoment ps - totalMass ps • c.position)) +
      ω.cross (Q.apply (firstMoment ps - totalMass ps • c.position)) := by
  induction ps with
  | nil =>
    simp only [turn_nil, momentum_nil, firstMoment_nil, totalMass_nil]
    rw [show (0 : R3 ℝ) - (0 : ℝ) • c.position = 0 by ext <;> simp, show (0 : R3 ℝ) - (0 : ℝ) • c.velocity - ωₐ.cross 0 = 0 by ext <;> simp [R3.cross], Rotation.apply_zero']
    ext <;> simp [R3.cross]
  | cons p ps ih =>
    simp only [turn_cons, momentum_cons, firstMoment_cons, totalMass_cons, ih, turned]
    have e1 : p.mass • p.state.velocity + momentum ps - (p.mass + totalMass ps) • c.velocity -
        ωₐ.cross (p.mass • p.state.position + firstMoment ps - (p.mass + totalMass ps) • c.position) =
        p.mass • (p.state.velocity - c.velocity - ωₐ.cross (p.state.position - c.position)) +
          (momentum ps - totalMass ps • c.velocity - ωₐ.cross (firstMoment ps - totalMass ps • c.position)) := by
      ext <;> simp [R3.cross] <;> ring
    have e2 : p.mass • p.state.position + firstMoment ps - (p.mass + totalMass ps) • c.position =
        p.mass • (p.state.position - c.position) + (firstMoment ps - totalMass ps • c.position) := by
      ext <;> simp <;> ring
    rw [e1, e2, Rotation.apply_add', Rotation.apply_add', Rotation.apply_smul', Rotation.apply_smul']
    ext <;> simp [R3.cross] <;> ring

theorem angularMomentum_turn (hQ : Q.IsUnit) (ps : List Particle) : angularMomentumAbout ⟨0, 0⟩ (turn c ωₐ Q ω ps) =
    Q.apply (angularMomentumAbout c ps - spin c.position ps ωₐ + spin c.position ps (Q.inverse.apply ω)) := by
  induction ps with
  | nil =>
    simp only [turn_nil, angularMomentumAbout_nil, spin_nil]
    rw [show (0 : R3 ℝ) - 0 + 0 = 0 by ext <;> simp, Rotation.apply_zero']
  | cons p ps ih =>
    simp only [turn_cons, angularMomentumAbout_cons, spin_cons, ih, turned]
    have e : (p.state.position - c.position).cross (p.mass • (p.state.velocity - c.velocity)) + angularMomentumAbout c ps -
        ((p.state.position - c.position).cross (p.mass • ωₐ.cross (p.state.position - c.position)) + spin c.position ps ωₐ) +
        ((p.state.position - c.position).cross (p.mass • (Q.inverse.apply ω).cross (p.state.position - c.position)) + spin c.position ps (Q.inverse.apply ω)) =
        (p.state.position - c.position).cross (p.mass • (p.state.velocity - c.velocity - ωₐ.cross (p.state.position - c.position) +
          (Q.inverse.apply ω).cross (p.state.position - c.position))) + (angularMomentumAbout c ps - spin c.position ps ωₐ + spin c.position ps (Q.inverse.apply ω)) := by
      ext <;> simp [R3.cross] <;> ring
    rw [e, Rotation.apply_add' ((p.state.position - c.position).cross _), Rotation.apply_cross' hQ, Rotation.apply_smul', Rotation.apply_add' (_ - ωₐ.cross _),
      Rotation.apply_cross' hQ (Q.inverse.apply ω), Rotation.apply_inverse' hQ]
    congr 2
    · ext <;> simp
    · ext <;> simp

theorem spin_turn (hQ : Q.IsUnit) (ps : List Particle) (v : R3 ℝ) : spin 0 (turn c ωₐ Q ω ps) v = Q.apply (spin c.position ps (Q.inverse.apply v)) := by
  induction ps with
  | nil => simp only [turn_nil, spin_nil]; rw [Rotation.apply_zero']
  | cons p ps ih =>
    simp only [turn_cons, spin_cons, ih, turned]
    rw [Rotation.apply_add', Rotation.apply_cross' hQ, Rotation.apply_smul', Rotation.apply_cross' hQ, Rotation.apply_inverse' hQ]
    congr 1
    ext <;> simp [R3.cross] <;> ring

end Principia.Ksp.PileUp
