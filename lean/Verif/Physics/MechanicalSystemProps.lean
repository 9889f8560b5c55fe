import Verif.Physics.MechanicalSystemSpec
import Verif.Physics.RigidMotionProps
import Verif.Geometry.FormsProps
import Mathlib.Tactic.Ring
import Mathlib.Tactic.FieldSimp
import Mathlib.Tactic.LinearCombination

/-!
C58: the properties of a mechanical system are those of the particles of which its bodies are made.
-/

set_option linter.unusedSimpArgs false
set_option linter.unusedVariables false
set_option linter.unusedSectionVars false

namespace Principia.Physics.Mechanical

open Geometry Motion

/-! ## Sums -/

@[simp] theorem totalMass_nil : totalMass [] = 0 := rfl
@[simp] theorem totalMass_cons (p : Particle) (ps : List Particle) : totalMass (p :: ps) = p.mass + totalMass ps := rfl
@[simp] theorem firstMoment_nil : firstMoment [] = 0 := rfl
@[simp] theorem firstMoment_cons (p : Particle) (ps : List Particle) : firstMoment (p :: ps) = p.mass • p.state.position + firstMoment ps := rfl
@[simp] theorem momentum_nil : momentum [] = 0 := rfl
@[simp] theorem momentum_cons (p : Particle) (ps : List Particle) : momentum (p :: ps) = p.mass • p.state.velocity + momentum ps := rfl
@[simp] theorem angularMomentumAbout_nil (c : DegreesOfFreedom) : angularMomentumAbout c [] = 0 := rfl
@[simp] theorem angularMomentumAbout_cons (c : DegreesOfFreedom) (p : Particle) (ps : List Particle) : angularMomentumAbout c (p :: ps) =
    (p.state.position - c.position).cross (p.mass • (p.state.velocity - c.velocity)) + angularMomentumAbout c ps := rfl
@[simp] theorem spin_nil (c ω : R3 ℝ) : spin c [] ω = 0 := rfl
@[simp] theorem spin_cons (c ω : R3 ℝ) (p : Particle) (ps : List Particle) : spin c (p :: ps) ω =
    (p.state.position - c).cross (p.mass • ω.cross (p.state.position - c)) + spin c ps ω := rfl

theorem R3.add_assoc' (a b c : R3 ℝ) : a + b + c = a + (b + c) := by ext <;> simp <;> ring
theorem R3.zero_add' (a : R3 ℝ) : 0 + a = a := by ext <;> simp
theorem R3.add_zero' (a : R3 ℝ) : a + 0 = a := by ext <;> simp

theorem totalMass_append (a b : List Particle) : totalMass (a ++ b) = totalMass a + totalMass b := by
  induction a with
  | nil => simp
  | cons p a ih => simp [ih]; ring

theorem firstMoment_append (a b : List Particle) : firstMoment (a ++ b) = firstMoment a + firstMoment b := by
  induction a with
  | nil => simp [R3.zero_add']
  | cons p a ih => simp [ih, R3.add_assoc']

theorem momentum_append (a b : List Particle) : momentum (a ++ b) = momentum a + momentum b := by
  induction a with
  | nil => simp [R3.zero_add']
  | cons p a ih => simp [ih, R3.add_assoc']

theorem angularMomentumAbout_append (c : DegreesOfFreedom) (a b : List Particle) :
    angularMomentumAbout c (a ++ b) = angularMomentumAbout c a + angularMomentumAbout c b := by
  induction a with
  | nil => simp [R3.zero_add']
  | cons p a ih => simp [ih, R3.add_assoc']

theorem spin_append (c ω : R3 ℝ) (a b : List Particle) : spin c (a ++ b) ω = spin c a ω + spin c b ω := by
  induction a with
  | nil => simp [R3.zero_add']
  | cons p a ih => simp [ih, R3.add_assoc']

/-! ## Forms -/

/-- The second moments of a set of masses. -/
noncomputable def secondMoment : List (ℝ × R3 ℝ) → M3 ℝ
  | [] => ⟨0, 0, 0⟩
  | x :: l => x.1 • M3.kronecker x.2 x.2 + secondMoment l

/-- The particles at rest at the given positions. -/
def resting (l : List (ℝ × R3 ℝ)) : List Particle := l.map fun x => ⟨x.1, ⟨x.2, 0⟩⟩

theorem anticommutator_secondMoment (l : List (ℝ × R3 ℝ)) (ω : R3 ℝ) :
    (Form.anticommutator (secondMoment l)).mulVec ω = spin 0 (resting l) ω := by
  induction l with
  | nil => ext <;> simp [resting, secondMoment, Form.anticommutator, M3.mulVec, M3.trace, M3.identity, R3.dot]
  | cons x l ih =>
    have : spin 0 (resting (x :: l)) ω = x.2.cross (x.1 • ω.cross x.2) + spin 0 (resting l) ω := by
      show spin 0 (_ :: resting l) ω = _
      rw [spin_cons]
      congr 1
      ext <;> simp [R3.cross]
    rw [this, ← ih]
    ext <;> simp [secondMoment, Form.anticommutator, M3.mulVec, M3.trace, M3.identity, R3.dot, M3.kronecker, R3.cross] <;> ring

theorem mulVec_ext {m n : M3 ℝ} (h : ∀ v, m.mulVec v = n.mulVec v) : m = n := by
  have h0 := h ⟨1, 0, 0⟩
  have h1 := h ⟨0, 1, 0⟩
  have h2 := h ⟨0, 0, 1⟩
  simp [M3.mulVec, R3.dot, R3.ext_iff] at h0 h1 h2
  ext <;> simp [h0, h1, h2]

theorem anticommutatorInverse_of_inertia {J : M3 ℝ} {l : List (ℝ × R3 ℝ)} (h : ∀ ω, J.mulVec ω = spin 0 (resting l) ω) :
    Form.anticommutatorInverse J = secondMoment l := by
  have : J = Form.anticommutator (secondMoment l) := mulVec_ext fun ω => by rw [h, anticommutator_secondMoment]
  rw [this]
  exact (Form.C53_anticommutator_inverse two_ne_zero _).1

theorem symmetric_iff (m : M3 ℝ) : m.Symmetric ↔ m.rowY.x = m.rowX.y ∧ m.rowZ.x = m.rowX.z ∧ m.rowZ.y = m.rowY.z := by
  constructor
  · intro h
    exact ⟨congrArg (fun m : M3 ℝ => m.rowX.y) h, congrArg (fun m : M3 ℝ => m.rowX.z) h, congrArg (fun m : M3 ℝ => m.rowY.z) h⟩
  · rintro ⟨h1, h2, h3⟩
    ext <;> simp [M3.transpose, h1, h2, h3]

theorem symmetric_add {m n : M3 ℝ} (hm : m.Symmetric) (hn : n.Symmetric) : (m + n).Symmetric := by
  rw [symmetric_iff] at hm hn ⊢
  simp only [M3.add_rowX, M3.add_rowY, M3.add_rowZ, R3.add_x, R3.add_y, R3.add_z]
  rw [hm.1, hm.2.1, hm.2.2, hn.1, hn.2.1, hn.2.2]
  exact ⟨rfl, rfl, rfl⟩

theorem secondMoment_symmetric (l : List (ℝ × R3 ℝ)) : (secondMoment l).Symmetric := by
  induction l with
  | nil => rfl
  | cons x l ih =>
    refine symmetric_add ?_ ih
    rw [symmetric_iff]
    refine ⟨?_, ?_, ?_⟩ <;> simp only [M3.kronecker, M3.smul_rowX, M3.smul_rowY, M3.smul_rowZ, R3.smul_x, R3.smul_y, R3.smul_z] <;> ring

theorem form_ext {m n : M3 ℝ} (h : ∀ v w, m.form v w = n.form v w) : m = n := by
  refine mulVec_ext fun w => R3.ext_dot fun v => ?_
  have := h v w
  simp only [M3.form, R3.dot] at this ⊢
  linear_combination this

theorem form_secondMoment (L : OrthogonalMap ℝ) (hL : L.IsUnit) (l : List (ℝ × R3 ℝ)) (v w : R3 ℝ) :
    (secondMoment (l.map fun x => (x.1, L.apply x.2))).form (L.apply v) (L.apply w) = (secondMoment l).form v w := by
  induction l with
  | nil => simp [secondMoment, M3.form, M3.mulVec, R3.dot]
  | cons x l ih =>
    have h : ∀ (a : ℝ) (y : R3 ℝ) (m : M3 ℝ) (v w : R3 ℝ), (a • M3.kronecker y y + m).form v w = a * (y.dot v * y.dot w) + m.form v w := by
      intro a y m v w
      simp [M3.form, M3.mulVec, R3.dot, M3.kronecker]; ring
    have hd := (C37_orthogonal_map L hL).1.inner
    simp only [List.map_cons, secondMoment, h, ih, hd]

theorem applyForm_secondMoment (L : OrthogonalMap ℝ) (hL : L.IsUnit) (l : List (ℝ × R3 ℝ)) :
    L.applyForm (secondMoment l) = secondMoment (l.map fun x => (x.1, L.apply x.2)) := by
  refine form_ext fun v w => ?_
  rw [← OrthogonalMap.apply_inverse hL v, ← OrthogonalMap.apply_inverse hL w, form_secondMoment L hL]
  exact (C37_orthogonal_form L hL _ (secondMoment_symmetric l)).2 _ _

theorem secondMoment_append (a b : List (ℝ × R3 ℝ)) : secondMoment (a ++ b) = secondMoment a + secondMoment b := by
  induction a with
  | nil => ext <;> simp [secondMoment]
  | cons x a ih => rw [List.cons_append, secondMoment, ih]; ext <;> simp [secondMoment] <;> ring

/-! ## One body -/

theorem motion_resting {m : RigidMotion} (hm : m.orthogonalMap.IsUnit) (x : R3 ℝ) :
    m.apply ⟨x, 0⟩ = ⟨(m.apply ⟨0, 0⟩).position + m.orthogonalMap.apply x,
      (m.apply ⟨0, 0⟩).velocity + m.angularVelocityOfFromFrame.cross (m.orthogonalMap.apply x)⟩ := by
  have h := RigidMotion.velocity_sub hm ⟨x, 0⟩ ⟨0, 0⟩
  have hx : x - 0 = x := by ext <;> simp
  have h0 : (0 : R3 ℝ) - 0 - m.angularVelocityOfToFrame.cross (x - 0) = -m.angularVelocityOfToFrame.cross x := by ext <;> simp [R3.cross]
  simp only [h0] at h
  rw [OrthogonalMap.apply_neg hm, OrthogonalMap.apply_cross hm] at h
  have hp := (C37_rigid_transformation m.rigidTransformation hm x 0).2.1
  rw [hx] at hp
  ext1
  · show m.rigidTransformation.apply x = m.rigidTransformation.apply 0 + m.rigidTransformation.linearMap.apply x
    rw [← hp]; ext <;> simp
  · have e : m.angularVelocityOfFromFrame = -m.orthogonalMap.applyBivector m.angularVelocityOfToFrame := rfl
    rw [e]
    have h1 := congrArg R3.x h
    have h2 := congrArg R3.y h
    have h3 := congrArg R3.z h
    simp only [R3.sub_x, R3.sub_y, R3.sub_z, R3.neg_x, R3.neg_y, R3.neg_z, R3.cross] at h1 h2 h3
    ext <;> simp only [R3.add_x, R3.add_y, R3.add_z, R3.neg_x, R3.neg_y, R3.neg_z, R3.cross]
    · linear_combination h1
    · linear_combination h2
    · linear_combination h3

/-- The particles of a body that moves. -/
noncomputable def movingOf (d : DegreesOfFreedom) (ω : R3 ℝ) (l : List (ℝ × R3 ℝ)) : List Particle :=
  l.map fun x => ⟨x.1, ⟨d.position + x.2, d.velocity + ω.cross x.2⟩⟩

theorem moving_eq (b : RigidBody) :
    b.moving = movingOf (b.motion.apply ⟨0, 0⟩) b.motion.angularVelocityOfFromFrame (b.particles.map fun x => (x.1, b.motion.orthogonalMap.apply x.2)) := by
  simp only [RigidBody.moving, movingOf, List.map_map]
  refine List.map_congr_left fun x _ => ?_
  rw [motion_resting b.unit]
  rfl

@[simp] theorem movingOf_cons (d : DegreesOfFreedom) (ω : R3 ℝ) (x : ℝ × R3 ℝ) (l : List (ℝ × R3 ℝ)) :
    movingOf d ω (x :: l) = ⟨x.1, ⟨d.position + x.2, d.velocity + ω.cross x.2⟩⟩ :: movingOf d ω l := rfl

@[simp] theorem movingOf_nil (d : DegreesOfFreedom) (ω : R3 ℝ) : movingOf d ω [] = [] := rfl

@[simp] theorem resting_cons (x : ℝ × R3 ℝ) (l : List (ℝ × R3 ℝ)) : resting (x :: l) = ⟨x.1, ⟨x.2, 0⟩⟩ :: resting l := rfl

@[simp] theorem resting_nil : resting [] = [] := rfl

theorem totalMass_moving (d : DegreesOfFreedom) (ω : R3 ℝ) (l : List (ℝ × R3 ℝ)) : totalMass (movingOf d ω l) = totalMass (resting l) := by
  induction l with
  | nil => rfl
  | cons x l ih => simp [ih]

theorem firstMoment_moving (d : DegreesOfFreedom) (ω : R3 ℝ) (l : List (ℝ × R3 ℝ)) :
    firstMoment (movingOf d ω l) = totalMass (resting l) • d.position + firstMoment (resting l) := by
  induction l with
  | nil => ext <;> simp
  | cons x l ih => ext <;> simp [ih] <;> ring

theorem momentum_moving (d : DegreesOfFreedom) (ω : R3 ℝ) (l : List (ℝ × R3 ℝ)) :
    momentum (movingOf d ω l) = totalMass (resting l) • d.velocity + ω.cross (firstMoment (resting l)) := by
  induction l with
  | nil => ext <;> simp [R3.cross]
  | cons x l ih => ext <;> simp [ih, R3.cross] <;> ring

theorem angularMomentum_moving (c d : DegreesOfFreedom) (ω : R3 ℝ) (l : List (ℝ × R3 ℝ)) :
    angularMomentumAbout c (movingOf d ω l) = (d.position - c.position).cross (totalMass (resting l) • (d.velocity - c.velocity)) +
      (d.position - c.position).cross (ω.cross (firstMoment (resting l))) + (firstMoment (resting l)).cross (d.velocity - c.velocity) +
      Form.anticommutatorWith (secondMoment l) ω := by
  induction l with
  | nil => ext <;> simp [R3.cross, secondMoment, Form.anticommutatorWith, M3.trace, M3.mulVec, R3.dot]
  | cons x l ih => ext <;> simp [ih, R3.cross, secondMoment, Form.anticommutatorWith, M3.trace, M3.mulVec, R3.dot, M3.kronecker] <;> ring

theorem spin_moving (c ω' : R3 ℝ) (d : DegreesOfFreedom) (ω : R3 ℝ) (l : List (ℝ × R3 ℝ)) :
    spin c (movingOf d ω l) ω' = (d.position - c).cross (totalMass (resting l) • ω'.cross (d.position - c)) +
      (d.position - c).cross (ω'.cross (firstMoment (resting l))) + (firstMoment (resting l)).cross (ω'.cross (d.position - c)) +
      (Form.anticommutator (secondMoment l)).mulVec ω' := by
  induction l with
  | nil => ext <;> simp [R3.cross, secondMoment, Form.anticommutator, M3.trace, M3.mulVec, R3.dot, M3.identity]
  | cons x l ih => ext <;> simp [ih, R3.cross, secondMoment, Form.anticommutator, M3.trace, M3.mulVec, R3.dot, M3.kronecker, M3.identity] <;> ring

theorem totalMass_map (f : R3 ℝ → R3 ℝ) (l : List (ℝ × R3 ℝ)) : totalMass (resting (l.map fun x => (x.1, f x.2))) = totalMass (resting l) := by
  induction l with
  | nil => rfl
  | cons x l ih => simp [ih]

theorem firstMoment_map {L : OrthogonalMap ℝ} (hL : L.IsUnit) (l : List (ℝ × R3 ℝ)) :
    firstMoment (resting (l.map fun x => (x.1, L.apply x.2))) = L.apply (firstMoment (resting l)) := by
  induction l with
  | nil => exact (OrthogonalMap.apply_zero hL).symm
  | cons x l ih => simp [ih, OrthogonalMap.apply_add hL, OrthogonalMap.apply_smul hL]

/-! ## All the bodies -/

/-- The particles of all the bodies. -/
noncomputable def particlesOf (bs : List RigidBody) : List Particle := bs.flatMap RigidBody.moving

/-- The inertia of a body in the axes of the inertial frame. -/
noncomputable def inertiaOf (b : RigidBody) : M3 ℝ := b.motion.orthogonalMap.applyForm (Form.anticommutatorInverse b.inertiaTensor)

structure Summary (bs : List RigidBody) (s : MechanicalSystem) : Prop where
  empty : s.empty = decide (bs = [])
  weight : s.weight = totalMass (particlesOf bs)
  position : s.weightedPosition = firstMoment (particlesOf bs)
  velocity : s.weightedVelocity = momentum (particlesOf bs)
  angular : ∀ c : DegreesOfFreedom, s.bodyLinearMotions.foldl (fun r x => r + (x.1.position - c.position).cross (x.2 • (x.1.velocity - c.velocity))) s.sumOfIntrinsicAngularMomenta =
    angularMomentumAbout c (particlesOf bs)
  symmetric : s.sumOfInertiaTensors.Symmetric
  inertia : ∀ c ω : R3 ℝ, (Form.anticommutator (s.bodyLinearMotions.foldl (fun r x => r + x.2 • Form.symmetricSquare (x.1.position - c)) s.sumOfInertiaTensors)).mulVec ω =
    spin c (particlesOf bs) ω

theorem summary_init : Summary [] .init := by
  refine ⟨rfl, rfl, rfl, rfl, fun c => rfl, rfl, fun c ω => ?_⟩
  ext <;> simp [MechanicalSystem.init, Form.anticommutator, M3.mulVec, M3.trace, M3.identity, R3.dot, particlesOf]

theorem foldl_add_start {α : Type} (f : α → R3 ℝ) (l : List α) (a b : R3 ℝ) : l.foldl (fun r x => r + f x) (a + b) = l.foldl (fun r x => r + f x) a + b := by
  induction l generalizing a with
  | nil => rfl
  | cons x l ih =>
    simp only [List.foldl_cons]
    rw [← ih]; congr 1
    ext <;> simp <;> ring

theorem foldl_add_start' {α : Type} (f : α → M3 ℝ) (l : List α) (a b : M3 ℝ) : l.foldl (fun r x => r + f x) (a + b) = l.foldl (fun r x => r + f x) a + b := by
  induction l generalizing a with
  | nil => rfl
  | cons x l ih =>
    simp only [List.foldl_cons]
    rw [← ih]; congr 1
    ext <;> simp <;> ring

theorem summary_add {bs : List RigidBody} {s : MechanicalSystem} (h : Summary bs s) (b : RigidBody) :
    Summary (bs ++ [b]) (s.addRigidBody b.motion b.mass b.inertiaTensor) := by
  have hp : particlesOf (bs ++ [b]) = particlesOf bs ++ b.moving := by simp [particlesOf]
  have hM : totalMass (resting b.particles) = b.mass := b.mass_eq.symm
  have hF : firstMoment (resting b.particles) = 0 := b.centred
  have hI := anticommutatorInverse_of_inertia b.inertia
  have hI' : b.motion.orthogonalMap.applyForm (Form.anticommutatorInverse b.inertiaTensor) =
      secondMoment (b.particles.map fun x => (x.1, b.motion.orthogonalMap.apply x.2)) := by rw [hI, applyForm_secondMoment _ b.unit]
  have hF' : firstMoment (resting (b.particles.map fun x => (x.1, b.motion.orthogonalMap.apply x.2))) = 0 := by
    rw [firstMoment_map b.unit, hF, OrthogonalMap.apply_zero b.unit]
  have hM' : totalMass (resting (b.particles.map fun x => (x.1, b.motion.orthogonalMap.apply x.2))) = b.mass := by rw [totalMass_map, hM]
  have hw : (s.addWeight (b.motion.apply ⟨0, 0⟩) b.mass).empty = false ∧
      (s.addWeight (b.motion.apply ⟨0, 0⟩) b.mass).weight = s.weight + b.mass ∧
      (s.addWeight (b.motion.apply ⟨0, 0⟩) b.mass).weightedPosition = s.weightedPosition + b.mass • (b.motion.apply ⟨0, 0⟩).position ∧
      (s.addWeight (b.motion.apply ⟨0, 0⟩) b.mass).weightedVelocity = s.weightedVelocity + b.mass • (b.motion.apply ⟨0, 0⟩).velocity ∧
      (s.addWeight (b.motion.apply ⟨0, 0⟩) b.mass).bodyLinearMotions = s.bodyLinearMotions ∧
      (s.addWeight (b.motion.apply ⟨0, 0⟩) b.mass).sumOfIntrinsicAngularMomenta = s.sumOfIntrinsicAngularMomenta ∧
      (s.addWeight (b.motion.apply ⟨0, 0⟩) b.mass).sumOfInertiaTensors = s.sumOfInertiaTensors := by
    unfold MechanicalSystem.addWeight
    by_cases he : bs = []
    · subst he
      have he' : s.empty = true := by rw [h.empty]; rfl
      have h1 : s.weight = 0 := h.weight
      have h2 : s.weightedPosition = 0 := h.position
      have h3 : s.weightedVelocity = 0 := h.velocity
      rw [if_pos he']
      simp [h1, h2, h3, R3.zero_add']
    · have he' : s.empty = false := by rw [h.empty]; simp [he]
      simp [he']
  obtain ⟨w1, w2, w3, w4, w5, w6, w7⟩ := hw
  refine ⟨?_, ?_, ?_, ?_, fun c => ?_, ?_, fun c ω => ?_⟩
  · show (s.addWeight _ _).empty = _
    rw [w1]; simp
  · show (s.addWeight _ _).weight = _
    rw [w2, hp, totalMass_append, h.weight, moving_eq, totalMass_moving, hM']
  · show (s.addWeight _ _).weightedPosition = _
    rw [w3, hp, firstMoment_append, h.position, moving_eq, firstMoment_moving, hM', hF', R3.add_zero']
  · show (s.addWeight _ _).weightedVelocity = _
    rw [w4, hp, momentum_append, h.velocity, moving_eq, momentum_moving, hM', hF']
    ext <;> simp [R3.cross]
  · show List.foldl _ ((s.addWeight _ _).sumOfIntrinsicAngularMomenta + Form.anticommutatorWith (b.motion.orthogonalMap.applyForm _) _) ((s.addWeight _ _).bodyLinearMotions ++ [_]) = _
    rw [w5, w6, hI', List.foldl_append, foldl_add_start, h.angular c, hp, angularMomentumAbout_append, moving_eq, angularMomentum_moving, hM', hF']
    ext <;> simp [R3.cross] <;> ring
  · show M3.Symmetric ((s.addWeight _ _).sumOfInertiaTensors + b.motion.orthogonalMap.applyForm _)
    rw [w7, hI']
    exact symmetric_add h.symmetric (secondMoment_symmetric _)
  · show M3.mulVec (Form.anticommutator (List.foldl _ ((s.addWeight _ _).sumOfInertiaTensors + b.motion.orthogonalMap.applyForm _) ((s.addWeight _ _).bodyLinearMotions ++ [_]))) ω = _
    rw [w5, w7, hI', List.foldl_append, foldl_add_start', hp, spin_append, ← h.inertia c ω, moving_eq, spin_moving, hM', hF']
    ext <;> simp [R3.cross, Form.anticommutator, M3.mulVec, M3.trace, M3.identity, R3.dot, Form.symmetricSquare, M3.kronecker] <;> ring

theorem summary_systemOf (bs : List RigidBody) : Summary bs (systemOf bs) := by
  induction bs using List.reverseRecOn with
  | nil => exact summary_init
  | append_singleton bs b ih =>
    have : systemOf (bs ++ [b]) = (systemOf bs).addRigidBody b.motion b.mass b.inertiaTensor := by simp [systemOf]
    rw [this]
    exact summary_add ih b

/-! ## The results -/

theorem linearMotion_inverse (c : DegreesOfFreedom) :
    (RigidMotion.ofFromFrame ⟨0, c.position, .identity⟩ 0 c.velocity).inverse = ⟨Geometry.AffineMap.inverse ⟨0, c.position, .identity⟩, 0, c.velocity⟩ := by
  refine RigidMotion.inverse_inverse (m := ⟨Geometry.AffineMap.inverse ⟨0, c.position, .identity⟩, 0, c.velocity⟩) ?_
  simp [RigidMotion.orthogonalMap, Geometry.AffineMap.inverse, OrthogonalMap.IsUnit, OrthogonalMap.inverse, OrthogonalMap.identity, Quat.normSq, Quat.conjugate, Quat.ofReal,
    R3.normSq]

theorem identity_inverse : (OrthogonalMap.identity : OrthogonalMap ℝ).inverse = OrthogonalMap.identity := by
  simp [OrthogonalMap.inverse, OrthogonalMap.identity, Quat.conjugate, Quat.ofReal]
  ext <;> simp

theorem identity_unit : (OrthogonalMap.identity : OrthogonalMap ℝ).IsUnit := by
  simp [OrthogonalMap.IsUnit, OrthogonalMap.identity, Quat.normSq, Quat.ofReal, R3.normSq]

theorem identity_apply (v : R3 ℝ) : OrthogonalMap.identity.apply v = v := ((C37_orthogonal_inverse OrthogonalMap.identity identity_unit).2.2.2.2 v).1

theorem identity_applyBivector (v : R3 ℝ) : OrthogonalMap.identity.applyBivector v = v := ((C37_orthogonal_inverse OrthogonalMap.identity identity_unit).2.2.2.2 v).2

theorem identity_applyForm {m : M3 ℝ} (hm : m.Symmetric) : OrthogonalMap.identity.applyForm m = m := by
  refine form_ext fun v w => ?_
  have := (C37_orthogonal_form OrthogonalMap.identity identity_unit m hm).2 v w
  rwa [identity_apply, identity_apply] at this

/-- The motion to the frame of the system. -/
theorem toSystemFrame_apply (c d : DegreesOfFreedom) :
    (RigidMotion.ofFromFrame ⟨0, c.position, .identity⟩ 0 c.velocity).inverse.apply d = ⟨d.position - c.position, d.velocity - c.velocity⟩ := by
  rw [linearMotion_inverse]
  ext1
  · show OrthogonalMap.identity.inverse.apply (d.position - c.position) + 0 = _
    rw [identity_inverse, identity_apply, R3.add_zero']
  · show OrthogonalMap.identity.inverse.apply (d.velocity - c.velocity - R3.cross 0 _) = _
    rw [identity_inverse, identity_apply]
    ext <;> simp [R3.cross]

/-- C58: if the total mass of a system of rigid bodies is not zero, its mass, centre of mass, angular momentum and inertia tensor are those of all the particles of the bodies,
the last two with respect to the centre of mass, and its linear motion is that of a frame that does not rotate and whose origin is the centre of mass. -/
theorem C58_mechanical_system (bs : List RigidBody) (hM : totalMass (bs.flatMap RigidBody.moving) ≠ 0) :
    (systemOf bs).mass = totalMass (bs.flatMap RigidBody.moving) ∧
    ∃ c, (systemOf bs).centreOfMass = some c ∧
      totalMass (bs.flatMap RigidBody.moving) • c.position = firstMoment (bs.flatMap RigidBody.moving) ∧
      totalMass (bs.flatMap RigidBody.moving) • c.velocity = momentum (bs.flatMap RigidBody.moving) ∧
      (systemOf bs).angularMomentum = some (angularMomentumAbout c (bs.flatMap RigidBody.moving)) ∧
      (∃ J, (systemOf bs).inertiaTensor = some J ∧ J.Symmetric ∧ ∀ ω, J.mulVec ω = spin c.position (bs.flatMap RigidBody.moving) ω) ∧
      ∃ m, (systemOf bs).linearMotion = some m ∧ ∀ d, m.apply d = ⟨d.position + c.position, d.velocity + c.velocity⟩ := by
  have h := summary_systemOf bs
  change totalMass (particlesOf bs) ≠ 0 at hM
  have hne : bs ≠ [] := by rintro rfl; exact hM rfl
  have he : (systemOf bs).empty = false := by rw [h.empty]; simp [hne]
  have hw : (systemOf bs).weight ≠ 0 := by rw [h.weight]; exact hM
  have hc : (systemOf bs).centreOfMass = some ⟨(systemOf bs).weightedPosition.div (systemOf bs).weight, (systemOf bs).weightedVelocity.div (systemOf bs).weight⟩ := by
    simp [MechanicalSystem.centreOfMass, he, hw]
  refine ⟨h.weight, _, hc, ?_, ?_, ?_, ?_, ?_⟩
  · show totalMass (particlesOf bs) • _ = firstMoment (particlesOf bs)
    rw [← h.weight, ← h.position]
    ext <;> simp [R3.div] <;> field_simp
  · show totalMass (particlesOf bs) • _ = momentum (particlesOf bs)
    rw [← h.weight, ← h.velocity]
    ext <;> simp [R3.div] <;> field_simp
  all_goals generalize (⟨(systemOf bs).weightedPosition.div (systemOf bs).weight, (systemOf bs).weightedVelocity.div (systemOf bs).weight⟩ : DegreesOfFreedom) = c at hc ⊢
  · show _ = some (angularMomentumAbout c (particlesOf bs))
    rw [← h.angular c]
    unfold MechanicalSystem.angularMomentum MechanicalSystem.linearMotion
    rw [hc]
    simp only [Option.map_some, toSystemFrame_apply, wedge]
    rw [linearMotion_inverse]
    show some (List.foldl _ (OrthogonalMap.identity.inverse.applyBivector _) _) = _
    rw [identity_inverse, identity_applyBivector]
    congr 2
    funext r x
    congr 2
    ext <;> simp
  · unfold MechanicalSystem.inertiaTensor MechanicalSystem.linearMotion
    rw [hc]
    simp only [Option.map_some, toSystemFrame_apply]
    rw [linearMotion_inverse]
    refine ⟨_, rfl, ?_, fun ω => ?_⟩
    · show (Form.anticommutator (List.foldl _ (OrthogonalMap.identity.inverse.applyForm _) _)).Symmetric
      rw [identity_inverse, identity_applyForm h.symmetric]
      have key : ∀ (l : List (DegreesOfFreedom × ℝ)) (m : M3 ℝ), m.Symmetric →
          (l.foldl (fun r x => r + x.2 • Form.symmetricSquare (x.1.position - c.position - 0)) m).Symmetric := by
        intro l
        induction l with
        | nil => exact fun m hm => hm
        | cons x l ih =>
          intro m hm
          refine ih _ (symmetric_add hm ?_)
          rw [symmetric_iff]
          refine ⟨?_, ?_, ?_⟩ <;>
            simp only [Form.symmetricSquare, M3.kronecker, M3.smul_rowX, M3.smul_rowY, M3.smul_rowZ, R3.smul_x, R3.smul_y, R3.smul_z] <;> ring
      have hk := key (systemOf bs).bodyLinearMotions _ h.symmetric
      rw [symmetric_iff] at hk ⊢
      simp only [Form.anticommutator, M3.identity, M3.sub_rowX, M3.sub_rowY, M3.sub_rowZ, R3.sub_x, R3.sub_y, R3.sub_z, M3.smul_rowX, M3.smul_rowY, M3.smul_rowZ, R3.smul_x,
        R3.smul_y, R3.smul_z]
      rw [hk.1, hk.2.1, hk.2.2]
      exact ⟨rfl, rfl, rfl⟩
    · show (Form.anticommutator (List.foldl _ (OrthogonalMap.identity.inverse.applyForm _) _)).mulVec ω = spin c.position (particlesOf bs) ω
      rw [identity_inverse, identity_applyForm h.symmetric, ← h.inertia c.position ω]
      congr 3
      funext r x
      congr 3
      ext <;> simp
  · refine ⟨RigidMotion.ofFromFrame ⟨0, c.position, .identity⟩ 0 c.velocity, by rw [MechanicalSystem.linearMotion, hc]; rfl, fun d => ?_⟩
    have hu : (RigidMotion.ofFromFrame ⟨0, c.position, .identity⟩ 0 c.velocity).orthogonalMap.IsUnit := by
      show (OrthogonalMap.identity.inverse.inverse : OrthogonalMap ℝ).IsUnit
      rw [identity_inverse, identity_inverse]; exact identity_unit
    have h1 := RigidMotion.apply_inverse hu ⟨d.position + c.position, d.velocity + c.velocity⟩
    rw [toSystemFrame_apply] at h1
    rw [← h1]
    congr 1
    ext <;> simp

/-- C58: a system without bodies, or whose total mass is zero, has no centre of mass, and nothing that depends on it may be obtained. -/
theorem C58_massless (bs : List RigidBody) (hM : totalMass (bs.flatMap RigidBody.moving) = 0) :
    (systemOf bs).mass = 0 ∧ (systemOf bs).centreOfMass = none ∧ (systemOf bs).angularMomentum = none ∧ (systemOf bs).inertiaTensor = none ∧
      (systemOf bs).linearMotion = none := by
  have h := summary_systemOf bs
  have hw : (systemOf bs).weight = 0 := h.weight.trans hM
  have hc : (systemOf bs).centreOfMass = none := by simp [MechanicalSystem.centreOfMass, hw]
  simp [MechanicalSystem.mass, MechanicalSystem.angularMomentum, MechanicalSystem.inertiaTensor, MechanicalSystem.linearMotion, hc, hw]

/-! ## An example -/

/-- A dumbbell, in a frame with the given motion. -/
noncomputable def dumbbell (m : RigidMotion) (hm : m.orthogonalMap.IsUnit) : RigidBody where
  motion := m
  particles := [(1, ⟨1, 0, 0⟩), (1, ⟨-1, 0, 0⟩)]
  mass := 2
  inertiaTensor := ⟨⟨0, 0, 0⟩, ⟨0, 2, 0⟩, ⟨0, 0, 2⟩⟩
  unit := hm
  mass_eq := by simp; norm_num
  centred := by ext <;> simp
  inertia ω := by ext <;> simp [M3.mulVec, R3.dot, R3.cross] <;> ring

/-- The hypothesis of the theorem is met by bodies that move and rotate in different ways, including in frames of opposite handednesses; the system has an angular momentum. -/
example : ∃ bs : List RigidBody, bs.length = 2 ∧ totalMass (bs.flatMap RigidBody.moving) = 4 ∧
    ∃ L, (systemOf bs).angularMomentum = some L ∧ L ≠ 0 := by
  let b₁ := dumbbell ⟨⟨0, ⟨1, 0, 0⟩, .identity⟩, ⟨0, 0, 1⟩, 0⟩ identity_unit
  let b₂ := dumbbell ⟨⟨0, ⟨-1, 0, 0⟩, ⟨false, Quat.ofReal 1⟩⟩, ⟨0, 0, 1⟩, 0⟩ identity_unit
  have hm : totalMass ([b₁, b₂].flatMap RigidBody.moving) = 4 := by
    simp [b₁, b₂, dumbbell, RigidBody.moving]; norm_num
  obtain ⟨-, c, hc, h1, h2, h3, -⟩ := C58_mechanical_system [b₁, b₂] (by rw [hm]; norm_num)
  refine ⟨[b₁, b₂], rfl, hm, _, h3, fun h0 => ?_⟩
  rw [hm] at h1 h2
  have h0' := congrArg R3.z h0
  have e1 := congrArg R3.x h1
  have e2 := congrArg R3.y h1
  have e3 := congrArg R3.x h2
  have e4 := congrArg R3.y h2
  simp [b₁, b₂, dumbbell, RigidBody.moving, RigidMotion.apply, RigidMotion.orthogonalMap, Geometry.AffineMap.apply, Geometry.AffineMap.inverse, OrthogonalMap.apply,
    OrthogonalMap.inverse, OrthogonalMap.identity, OrthogonalMap.makeRotation, OrthogonalMap.makeSignature, Quat.conjugate, Quat.ofReal, Rotation.apply, Signature.apply,
    Signature.identity, Signature.centralInversion, Signature.ofXY, Signature.det, Sign.mul, Sign.act, Sign.Positive, Sign.Negative, bivectorTimesVector, R3.cross] at h0' e1 e2 e3 e4
  norm_num [e1, e2, e3, e4] at h0'

end Principia.Physics.Mechanical
