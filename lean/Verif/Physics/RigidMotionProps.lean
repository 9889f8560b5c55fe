import Verif.Physics.RigidMotionSpec
import Verif.Geometry.MapsAffine
import Mathlib.Analysis.SpecialFunctions.Trigonometric.Deriv
import Mathlib.Tactic.LinearCombination
import Mathlib.Tactic.FieldSimp

/-!
Rigid motions are the derivatives of rigid transformations.
-/

set_option linter.unusedSimpArgs false
set_option linter.unusedVariables false
set_option linter.unusedSectionVars false

namespace Principia.Geometry.OrthogonalMap

variable {L : OrthogonalMap ℝ}

theorem apply_add (hL : L.IsUnit) (v w : R3 ℝ) : L.apply (v + w) = L.apply v + L.apply w := (C37_orthogonal_map L hL).1.add v w

theorem apply_smul (hL : L.IsUnit) (a : ℝ) (v : R3 ℝ) : L.apply (a • v) = a • L.apply v := (C37_orthogonal_map L hL).1.smul a v

theorem apply_neg (hL : L.IsUnit) (v : R3 ℝ) : L.apply (-v) = -L.apply v := by
  have h := apply_smul hL (-1) v
  have e : ∀ w : R3 ℝ, (-1 : ℝ) • w = -w := fun w => by ext <;> simp
  rwa [e, e] at h

theorem apply_sub (hL : L.IsUnit) (v w : R3 ℝ) : L.apply (v - w) = L.apply v - L.apply w := by
  have e : ∀ v w : R3 ℝ, v - w = v + -w := fun v w => by ext <;> simp <;> ring
  rw [e, apply_add hL, apply_neg hL, ← e]

theorem apply_zero (hL : L.IsUnit) : L.apply 0 = 0 := by
  have h := apply_smul hL 0 0
  have e : ∀ w : R3 ℝ, (0 : ℝ) • w = 0 := fun w => by ext <;> simp
  rwa [e, e] at h

theorem apply_cross (hL : L.IsUnit) (b v : R3 ℝ) : L.apply (b.cross v) = (L.applyBivector b).cross (L.apply v) := (C37_orthogonal_map L hL).1.action b v

theorem applyBivector_linear (L : OrthogonalMap ℝ) (v w : R3 ℝ) (a : ℝ) :
    L.applyBivector (v + w) = L.applyBivector v + L.applyBivector w ∧ L.applyBivector (a • v) = a • L.applyBivector v ∧ L.applyBivector (-v) = -L.applyBivector v := by
  simp only [applyBivector_eq]
  obtain ⟨h1, h2⟩ := Rotation.C36_linear ⟨L.quaternion⟩ v w a
  exact ⟨h1, h2, Quat.apply_neg _ _⟩

theorem inverse_apply (hL : L.IsUnit) (v : R3 ℝ) : L.inverse.apply (L.apply v) = v := ((C37_orthogonal_inverse L hL).2.1 v).1

theorem apply_inverse (hL : L.IsUnit) (v : R3 ℝ) : L.apply (L.inverse.apply v) = v := ((C37_orthogonal_inverse L hL).2.1 v).2

theorem inverse_unit (hL : L.IsUnit) : L.inverse.IsUnit := (C37_orthogonal_inverse L hL).1

theorem inverse_applyBivector (hL : L.IsUnit) (v : R3 ℝ) : L.inverse.applyBivector (L.applyBivector v) = v := ((C37_orthogonal_inverse L hL).2.2.1 v).1

theorem applyBivector_inverse (hL : L.IsUnit) (v : R3 ℝ) : L.applyBivector (L.inverse.applyBivector v) = v := ((C37_orthogonal_inverse L hL).2.2.1 v).2

theorem apply_dot (hL : L.IsUnit) (v w : R3 ℝ) : (L.apply v).dot w = v.dot (L.inverse.apply w) := by
  have h := (C37_orthogonal_map L hL).1.inner v (L.inverse.apply w)
  rw [apply_inverse hL] at h
  exact h

theorem inverse_inverse (L : OrthogonalMap ℝ) : L.inverse.inverse = L := by
  obtain ⟨s, q⟩ := L
  simp only [inverse]
  congr 1
  ext <;> simp [Quat.conjugate]

end Principia.Geometry.OrthogonalMap

namespace Principia.Geometry

theorem R3.ext_dot {v w : R3 ℝ} (h : ∀ e : R3 ℝ, v.dot e = w.dot e) : v = w := by
  ext
  · simpa [R3.dot] using h ⟨1, 0, 0⟩
  · simpa [R3.dot] using h ⟨0, 1, 0⟩
  · simpa [R3.dot] using h ⟨0, 0, 1⟩

theorem HasDeriv.of_dot {f : ℝ → R3 ℝ} {f' : R3 ℝ} {t : ℝ} (h : ∀ e : R3 ℝ, HasDerivAt (fun s => (f s).dot e) (f'.dot e) t) : HasDeriv f f' t := by
  refine ⟨?_, ?_, ?_⟩
  · simpa [R3.dot] using h ⟨1, 0, 0⟩
  · simpa [R3.dot] using h ⟨0, 1, 0⟩
  · simpa [R3.dot] using h ⟨0, 0, 1⟩

theorem AffineMap.inverse_inverse (A : Principia.Geometry.AffineMap (OrthogonalMap ℝ)) : A.inverse.inverse = A := by
  obtain ⟨f, t, L⟩ := A
  simp only [AffineMap.inverse, OrthogonalMap.inverse_inverse]

/-- A rigid transformation is its linear map, applied to the displacement from the origin of the target frame. -/
theorem AffineMap.apply_eq (A : Principia.Geometry.AffineMap (OrthogonalMap ℝ)) (hA : A.linearMap.IsUnit) (x : R3 ℝ) :
    A.apply x = A.linearMap.apply (x - A.inverse.apply 0) := by
  simp only [AffineMap.apply, AffineMap.inverse]
  have e : x - (A.linearMap.inverse.apply (0 - A.toOrigin) + A.fromOrigin) = (x - A.fromOrigin) - A.linearMap.inverse.apply (0 - A.toOrigin) := by
    ext <;> simp <;> ring
  rw [e, OrthogonalMap.apply_sub hA (x - A.fromOrigin), OrthogonalMap.apply_inverse hA]
  ext <;> simp

end Principia.Geometry

namespace Principia.Physics.Motion

open Geometry

variable {A B : ℝ → RigidTransformation} {m l r : RigidMotion} {t : ℝ}

/-- The derivative of a vector that is seen in the target frame. -/
theorem IsMotionOf.vector (h : IsMotionOf A m t) {u : ℝ → R3 ℝ} {u' : R3 ℝ} (hu : HasDeriv u u' t) :
    HasDeriv (fun s => (A s).linearMap.apply (u s)) (m.orthogonalMap.apply (u' - m.angularVelocityOfToFrame.cross (u t))) t := by
  refine HasDeriv.of_dot fun e => ?_
  have hd : (fun s => ((A s).linearMap.apply (u s)).dot e) = fun s => (u s).dot ((A s).linearMap.inverse.apply e) :=
    funext fun s => OrthogonalMap.apply_dot (h.unit s) _ _
  have ho : m.orthogonalMap = (A t).linearMap := by rw [RigidMotion.orthogonalMap, h.transformation]
  rw [hd, ho, OrthogonalMap.apply_dot (h.unit t)]
  refine (hu.dot (h.axes e)).congr_deriv ?_
  simp only [R3.dot, R3.cross, R3.sub_x, R3.sub_y, R3.sub_z]
  ring

/-- A motion is determined by the transformation of which it is the derivative. -/
theorem C57_unique {m' : RigidMotion} (h : IsMotionOf A m t) (h' : IsMotionOf A m' t) : m = m' := by
  refine RigidMotion.ext (by rw [h.transformation, h'.transformation]) ?_ (h.origin.unique h'.origin)
  have key : ∀ e : R3 ℝ, m.angularVelocityOfToFrame.cross e = m'.angularVelocityOfToFrame.cross e := by
    intro e
    have h1 := (h.axes ((A t).linearMap.apply e)).unique (h'.axes _)
    rwa [OrthogonalMap.inverse_apply (h.unit t)] at h1
  have hx := key ⟨1, 0, 0⟩
  have hy := key ⟨0, 1, 0⟩
  simp only [R3.cross, R3.mk.injEq, mul_zero, mul_one, sub_zero, zero_sub, neg_inj] at hx hy
  ext
  · exact hy.2.2
  · exact hx.2.2
  · exact hx.2.1

/-- The degrees of freedom obtained by applying a motion are the position and the velocity in the target frame: the velocity is the derivative of the position. -/
theorem C57_velocity (h : IsMotionOf A m t) {q : ℝ → R3 ℝ} {v : R3 ℝ} (hq : HasDeriv q v t) :
    (m.apply ⟨q t, v⟩).position = (A t).apply (q t) ∧ HasDeriv (fun s => (A s).apply (q s)) (m.apply ⟨q t, v⟩).velocity t := by
  refine ⟨by rw [RigidMotion.apply, h.transformation], ?_⟩
  refine ((h.vector (hq.sub h.origin)).congr_fun fun s => (A s).apply_eq (h.unit s) _).congr_deriv ?_
  simp only [RigidMotion.apply, bivectorTimesVector, h.transformation]

/-- The inverse of a motion is the derivative of the inverse transformation. -/
theorem C57_inverse (h : IsMotionOf A m t) : IsMotionOf (fun s => (A s).inverse) m.inverse t := by
  have ho : m.orthogonalMap = (A t).linearMap := by rw [RigidMotion.orthogonalMap, h.transformation]
  refine ⟨fun s => OrthogonalMap.inverse_unit (h.unit s), by rw [RigidMotion.inverse, h.transformation], ?_, fun e => ?_⟩
  · exact ((C57_velocity h (HasDeriv.const 0)).2).congr_fun fun s => by rw [AffineMap.inverse_inverse]
  · refine ((h.vector (HasDeriv.const e)).congr_fun fun s => ?_).congr_deriv ?_
    · show (A s).linearMap.inverse.inverse.apply e = _
      rw [OrthogonalMap.inverse_inverse]
    · show _ = (-m.orthogonalMap.applyBivector m.angularVelocityOfToFrame).cross ((A t).linearMap.inverse.inverse.apply e)
      have e1 : (0 : R3 ℝ) - m.angularVelocityOfToFrame.cross e = -m.angularVelocityOfToFrame.cross e := by ext <;> simp
      rw [OrthogonalMap.inverse_inverse, ho, e1, OrthogonalMap.apply_neg (h.unit t), OrthogonalMap.apply_cross (h.unit t)]
      ext <;> simp [R3.cross] <;> ring

/-- The product of two motions is the derivative of the composition of the transformations. -/
theorem C57_compose (hl : IsMotionOf B l t) (hr : IsMotionOf A r t) : IsMotionOf (fun s => (B s).mul (A s)) (l.mul r) t := by
  have hri := C57_inverse hr
  have hli := C57_inverse hl
  have or : r.orthogonalMap = (A t).linearMap := by rw [RigidMotion.orthogonalMap, hr.transformation]
  have hinv : ∀ s p, ((B s).mul (A s)).inverse.apply p = (A s).inverse.apply ((B s).inverse.apply p) := by
    intro s p
    obtain ⟨-, c2, -⟩ := C37_rigid_compose (B s) (A s) (hl.unit s) (hr.unit s) ((A s).inverse.apply ((B s).inverse.apply p))
    obtain ⟨c1, -⟩ := C37_rigid_compose (B s) (A s) (hl.unit s) (hr.unit s) 0
    obtain ⟨-, -, -, c4, c5⟩ := C37_rigid_compose ((B s).mul (A s)) (A s) c1 (hr.unit s) ((A s).inverse.apply ((B s).inverse.apply p))
    obtain ⟨-, -, -, -, d5⟩ := C37_rigid_compose (A s) (A s) (hr.unit s) (hr.unit s) ((B s).inverse.apply p)
    obtain ⟨-, -, -, -, e5⟩ := C37_rigid_compose (B s) (A s) (hl.unit s) (hr.unit s) p
    rw [d5, e5] at c2
    rw [c2] at c4
    exact c4
  have hlin : ∀ s e, ((B s).mul (A s)).linearMap.inverse.apply e = (A s).linearMap.inverse.apply ((B s).linearMap.inverse.apply e) := by
    intro s e
    obtain ⟨c1, c2, -⟩ := C37_orthogonal_compose (B s).linearMap (A s).linearMap (hl.unit s) (hr.unit s)
    have c3 := c2 ((A s).linearMap.inverse.apply ((B s).linearMap.inverse.apply e))
    rw [OrthogonalMap.apply_inverse (hr.unit s), OrthogonalMap.apply_inverse (hl.unit s)] at c3
    have c4 := OrthogonalMap.inverse_apply c1 ((A s).linearMap.inverse.apply ((B s).linearMap.inverse.apply e))
    rw [c3] at c4
    exact c4
  refine ⟨fun s => (C37_rigid_compose (B s) (A s) (hl.unit s) (hr.unit s) 0).1, by rw [RigidMotion.mul, hl.transformation, hr.transformation], ?_, fun e => ?_⟩
  · refine ((C57_velocity hri hl.origin).2).congr_fun (fun s => hinv s 0) |>.congr_deriv ?_
    have h0 := C57_velocity hli (HasDeriv.const (t := t) (0 : R3 ℝ))
    have h1 : l.inverse.apply ⟨0, 0⟩ = ⟨(B t).inverse.apply 0, l.velocityOfToFrameOrigin⟩ := by
      ext1
      · exact h0.1
      · exact h0.2.unique hl.origin
    show _ = (r.inverse.apply (l.inverse.apply ⟨0, 0⟩)).velocity
    rw [h1]
  · refine ((hri.vector (hl.axes e)).congr_fun fun s => hlin s e).congr_deriv ?_
    have o1 : r.inverse.orthogonalMap = (A t).linearMap.inverse := by rw [← or]; rfl
    have o2 : r.inverse.angularVelocityOfToFrame = -(A t).linearMap.applyBivector r.angularVelocityOfToFrame := by rw [← or]; rfl
    have o3 : (l.mul r).angularVelocityOfToFrame = r.angularVelocityOfToFrame + (A t).linearMap.inverse.applyBivector l.angularVelocityOfToFrame := by rw [← or]; rfl
    have hu := OrthogonalMap.inverse_unit (hr.unit t)
    rw [o1, o2, o3, hlin t e, OrthogonalMap.apply_sub hu, OrthogonalMap.apply_cross hu, OrthogonalMap.apply_cross hu, (OrthogonalMap.applyBivector_linear _ _ 0 0).2.2,
      OrthogonalMap.inverse_applyBivector (hr.unit t)]
    ext <;> simp [R3.cross] <;> ring

/-- The constructor from the velocities of the source frame yields the same motion as the other one. -/
theorem C57_from_frame (T : RigidTransformation) (ω v : R3 ℝ) (hA : T = A t) (h : IsMotionOf (fun s => (A s).inverse) ⟨T.inverse, ω, v⟩ t) :
    IsMotionOf A (.ofFromFrame T ω v) t := by
  have h1 := C57_inverse h
  have e : (fun s => (A s).inverse.inverse) = A := funext fun s => AffineMap.inverse_inverse _
  rw [e] at h1
  exact h1

/-- The difference between the velocities of two points. -/
theorem RigidMotion.velocity_sub (hm : m.orthogonalMap.IsUnit) (d d' : DegreesOfFreedom) :
    (m.apply d).velocity - (m.apply d').velocity =
      m.orthogonalMap.apply (d.velocity - d'.velocity - m.angularVelocityOfToFrame.cross (d.position - d'.position)) := by
  simp only [RigidMotion.apply, bivectorTimesVector]
  rw [← OrthogonalMap.apply_sub hm]
  congr 1
  ext <;> simp [R3.cross] <;> ring

theorem RigidMotion.inverse_unit (hm : m.orthogonalMap.IsUnit) : m.inverse.orthogonalMap.IsUnit := OrthogonalMap.inverse_unit hm

theorem RigidMotion.inverse_inverse (hm : m.orthogonalMap.IsUnit) : m.inverse.inverse = m := by
  refine RigidMotion.ext (AffineMap.inverse_inverse _) ?_ ?_
  · show -m.orthogonalMap.inverse.applyBivector (-m.orthogonalMap.applyBivector m.angularVelocityOfToFrame) = _
    rw [(OrthogonalMap.applyBivector_linear _ _ 0 0).2.2, OrthogonalMap.inverse_applyBivector hm]
    ext <;> simp
  · show m.orthogonalMap.inverse.apply ((0 : R3 ℝ) - m.orthogonalMap.apply (0 - m.velocityOfToFrameOrigin - m.angularVelocityOfToFrame.cross (0 - m.rigidTransformation.inverse.apply 0)) -
      (-m.orthogonalMap.applyBivector m.angularVelocityOfToFrame).cross (0 - m.rigidTransformation.inverse.inverse.apply 0)) = _
    rw [AffineMap.inverse_inverse, AffineMap.apply_eq _ hm]
    have hb : ∀ a b c : R3 ℝ, (-a).cross (0 - b) = a.cross b := fun a b c => by ext <;> simp [R3.cross] <;> ring
    have hu := OrthogonalMap.inverse_unit hm
    rw [hb _ _ 0]
    show m.orthogonalMap.inverse.apply (_ - _ - (m.orthogonalMap.applyBivector m.angularVelocityOfToFrame).cross (m.orthogonalMap.apply _)) = _
    rw [← OrthogonalMap.apply_cross hm, OrthogonalMap.apply_sub hu, OrthogonalMap.apply_sub hu, OrthogonalMap.inverse_apply hm, OrthogonalMap.inverse_apply hm,
      OrthogonalMap.apply_zero hu]
    ext <;> simp <;> ring

theorem RigidMotion.inverse_apply (hm : m.orthogonalMap.IsUnit) (d : DegreesOfFreedom) : m.inverse.apply (m.apply d) = d := by
  have hu := OrthogonalMap.inverse_unit hm
  ext1
  · exact (C37_rigid_compose m.rigidTransformation m.rigidTransformation hm hm _).2.2.2.1
  · show m.orthogonalMap.inverse.apply ((m.apply d).velocity - (m.apply ⟨0, 0⟩).velocity -
      (-m.orthogonalMap.applyBivector m.angularVelocityOfToFrame).cross (m.rigidTransformation.apply d.position - m.rigidTransformation.inverse.inverse.apply 0)) = _
    rw [AffineMap.inverse_inverse, (C37_rigid_transformation m.rigidTransformation hm _ _).2.1, RigidMotion.velocity_sub hm]
    have hb : ∀ a b : R3 ℝ, (-a).cross b = -a.cross b := fun a b => by ext <;> simp [R3.cross] <;> ring
    rw [hb]
    show m.orthogonalMap.inverse.apply (_ - -(m.orthogonalMap.applyBivector m.angularVelocityOfToFrame).cross (m.orthogonalMap.apply _)) = _
    rw [← OrthogonalMap.apply_cross hm, OrthogonalMap.apply_sub hu, OrthogonalMap.inverse_apply hm, OrthogonalMap.apply_neg hu, OrthogonalMap.inverse_apply hm]
    ext <;> simp

theorem RigidMotion.apply_inverse (hm : m.orthogonalMap.IsUnit) (d : DegreesOfFreedom) : m.apply (m.inverse.apply d) = d := by
  have h := RigidMotion.inverse_apply (RigidMotion.inverse_unit hm) d
  rwa [RigidMotion.inverse_inverse hm] at h

/-- Applying the inverse of a motion undoes its application, and applying a product is applying the factors one after the other. -/
theorem C57_group (hl : l.orthogonalMap.IsUnit) (hr : r.orthogonalMap.IsUnit) (d : DegreesOfFreedom) :
    (l.mul r).apply d = l.apply (r.apply d) ∧ r.inverse.apply (r.apply d) = d ∧ r.apply (r.inverse.apply d) = d ∧ RigidMotion.identity.apply d = d ∧
      r.inverse.inverse = r := by
  refine ⟨?_, RigidMotion.inverse_apply hr d, RigidMotion.apply_inverse hr d, ?_, RigidMotion.inverse_inverse hr⟩
  · obtain ⟨c1, c2, -⟩ := C37_orthogonal_compose l.orthogonalMap r.orthogonalMap hl hr
    have hp : ∀ p, (l.rigidTransformation.mul r.rigidTransformation).apply p = l.rigidTransformation.apply (r.rigidTransformation.apply p) :=
      fun p => (C37_rigid_compose _ _ hl hr p).2.1
    ext1
    · exact hp _
    · set d0 := r.inverse.apply (l.inverse.apply ⟨0, 0⟩) with hd0
      have h0 : l.apply (r.apply d0) = ⟨0, 0⟩ := by rw [hd0, RigidMotion.apply_inverse hr, RigidMotion.apply_inverse hl]
      have hp0 : (l.rigidTransformation.mul r.rigidTransformation).inverse.apply 0 = d0.position := by
        have h1 : (l.rigidTransformation.mul r.rigidTransformation).apply d0.position = 0 := by
          rw [hp]
          exact congrArg DegreesOfFreedom.position h0
        rw [← h1]
        exact (C37_rigid_compose (l.rigidTransformation.mul r.rigidTransformation) r.rigidTransformation c1 hr d0.position).2.2.2.1
      have h1 : (l.apply (r.apply d)).velocity = (l.apply (r.apply d)).velocity - (l.apply (r.apply d0)).velocity := by rw [h0]; ext <;> simp
      show (l.orthogonalMap.mul r.orthogonalMap).apply (d.velocity - d0.velocity - (r.angularVelocityOfToFrame + r.orthogonalMap.inverse.applyBivector l.angularVelocityOfToFrame).cross
        (d.position - (l.rigidTransformation.mul r.rigidTransformation).inverse.apply 0)) = _
      rw [hp0, c2, h1, RigidMotion.velocity_sub hl, RigidMotion.velocity_sub hr]
      show _ = l.orthogonalMap.apply (_ - l.angularVelocityOfToFrame.cross (r.rigidTransformation.apply d.position - r.rigidTransformation.apply d0.position))
      rw [(C37_rigid_transformation r.rigidTransformation hr _ _).2.1]
      have h2 : l.angularVelocityOfToFrame.cross (r.rigidTransformation.linearMap.apply (d.position - d0.position)) =
          r.orthogonalMap.apply ((r.orthogonalMap.inverse.applyBivector l.angularVelocityOfToFrame).cross (d.position - d0.position)) := by
        rw [OrthogonalMap.apply_cross hr, OrthogonalMap.applyBivector_inverse hr]; rfl
      rw [h2, ← OrthogonalMap.apply_sub hr]
      congr 2
      ext <;> simp [R3.cross] <;> ring
  · ext1
    · exact (C37_rigid_transformation r.rigidTransformation hr d.position 0).2.2.2
    · show OrthogonalMap.identity.apply (d.velocity - 0 - R3.cross 0 _) = _
      rw [((C37_orthogonal_inverse r.orthogonalMap hr).2.2.2.2 _).1]
      ext <;> simp [R3.cross]

/-- What is obtained about the source frame is what was given for it, and the angular velocities and velocities of the source frame are those of the inverse. -/
theorem C57_getters (T : RigidTransformation) (hT : T.linearMap.IsUnit) (ω v : R3 ℝ) :
    (RigidMotion.ofFromFrame T ω v).rigidTransformation = T ∧ (RigidMotion.ofFromFrame T ω v).angularVelocityOfFromFrame = ω ∧
      (RigidMotion.ofFromFrame T ω v).velocityOfFromFrameOrigin = v := by
  have h := RigidMotion.inverse_inverse (m := ⟨T.inverse, ω, v⟩) (OrthogonalMap.inverse_unit hT)
  refine ⟨AffineMap.inverse_inverse _, ?_, ?_⟩
  · show (RigidMotion.inverse (RigidMotion.inverse ⟨T.inverse, ω, v⟩)).angularVelocityOfToFrame = ω
    rw [h]
  · show (RigidMotion.inverse (RigidMotion.inverse ⟨T.inverse, ω, v⟩)).velocityOfToFrameOrigin = v
    rw [h]

/-- The identity is the motion of the target frame if it is always the same as the source frame. -/
theorem C57_identity : IsMotionOf (fun _ => Geometry.AffineMap.identity) .identity t := by
  have hu : (OrthogonalMap.identity : OrthogonalMap ℝ).IsUnit := by simp [OrthogonalMap.IsUnit, OrthogonalMap.identity, Quat.normSq, Quat.ofReal, R3.normSq]
  refine ⟨fun _ => hu, rfl, HasDeriv.const _, fun e => (HasDeriv.const _).congr_deriv ?_⟩
  ext <;> simp [RigidMotion.identity, R3.cross]

/-- A non-rotating motion with given degrees of freedom of the source frame: its origin has these degrees of freedom, and the axes are fixed: they are those of the target
frame if the handedness is the same, and otherwise the second and third axes are exchanged. -/
theorem C57_non_rotating (same : Bool) (d : DegreesOfFreedom) :
    ∃ m, RigidMotion.makeNonRotatingMotion same d = some m ∧ m.orthogonalMap.IsUnit ∧ m.orthogonalMap.same = same ∧ m.apply ⟨0, 0⟩ = d ∧
      m.angularVelocityOfToFrame = 0 ∧ m.angularVelocityOfFromFrame = 0 ∧
      ∀ x y z : ℝ, m.orthogonalMap.apply ⟨x, y, z⟩ = if same then ⟨x, y, z⟩ else ⟨x, z, y⟩ := by
  have general : ∀ L : OrthogonalMap ℝ, L.IsUnit → (RigidMotion.ofFromFrame ⟨0, d.position, L⟩ 0 d.velocity).apply ⟨0, 0⟩ = d ∧
      (RigidMotion.ofFromFrame ⟨0, d.position, L⟩ 0 d.velocity).angularVelocityOfToFrame = 0 ∧
      (RigidMotion.ofFromFrame ⟨0, d.position, L⟩ 0 d.velocity).angularVelocityOfFromFrame = 0 ∧
      (RigidMotion.ofFromFrame ⟨0, d.position, L⟩ 0 d.velocity).orthogonalMap = L := by
    intro L hL
    obtain ⟨g1, g2, g3⟩ := C57_getters ⟨0, d.position, L⟩ hL 0 d.velocity
    have hb : L.inverse.applyBivector 0 = 0 := by
      have h := (OrthogonalMap.applyBivector_linear L.inverse 0 0 0).2.1
      have e : ∀ w : R3 ℝ, (0 : ℝ) • w = 0 := fun w => by ext <;> simp
      rwa [e, e] at h
    refine ⟨?_, ?_, g2, ?_⟩
    · ext1
      · rw [RigidMotion.apply, g1]
        show L.apply (0 - 0) + d.position = d.position
        have : (0 : R3 ℝ) - 0 = 0 := by ext <;> simp
        rw [this, OrthogonalMap.apply_zero hL]
        ext <;> simp
      · exact g3
    · show -L.inverse.applyBivector 0 = 0
      rw [hb]; ext <;> simp
    · rw [RigidMotion.orthogonalMap, g1]
  have finish : ∀ L : OrthogonalMap ℝ, L.IsUnit → L.same = same → RigidMotion.makeNonRotatingMotion same d = some (.ofFromFrame ⟨0, d.position, L⟩ 0 d.velocity) →
      (∀ x y z : ℝ, L.apply ⟨x, y, z⟩ = if same then ⟨x, y, z⟩ else ⟨x, z, y⟩) →
      ∃ m, RigidMotion.makeNonRotatingMotion same d = some m ∧ m.orthogonalMap.IsUnit ∧ m.orthogonalMap.same = same ∧ m.apply ⟨0, 0⟩ = d ∧
        m.angularVelocityOfToFrame = 0 ∧ m.angularVelocityOfFromFrame = 0 ∧
        ∀ x y z : ℝ, m.orthogonalMap.apply ⟨x, y, z⟩ = if same then ⟨x, y, z⟩ else ⟨x, z, y⟩ := by
    intro L hL hs hm ha
    obtain ⟨g1, g2, g3, g4⟩ := general L hL
    exact ⟨_, hm, by rwa [g4], by rwa [g4], g1, g2, g3, by rwa [g4]⟩
  cases same
  · obtain ⟨L, h1, h2, h3, h4⟩ := Permutation.C37_permutation_forget ⟨false, Permutation.XZY⟩ (by decide +kernel)
    refine finish L h2 h3 (by simp [RigidMotion.makeNonRotatingMotion, h1]) fun x y z => ?_
    exact (Option.some.inj ((h4 ⟨x, y, z⟩).1)).symm
  · have hu : (OrthogonalMap.identity : OrthogonalMap ℝ).IsUnit := by simp [OrthogonalMap.IsUnit, OrthogonalMap.identity, Quat.normSq, Quat.ofReal, R3.normSq]
    exact finish .identity hu rfl rfl fun x y z => ((C37_orthogonal_inverse _ hu).2.2.2.2 _).1

/-- The transformation to a frame whose origin moves along the first axis and which turns about the third one, for the example below. -/
noncomputable def turntable (s : ℝ) : RigidTransformation := ⟨⟨s, 2, 3⟩, 0, ⟨true, ⟨Real.cos (s / 2), ⟨0, 0, -Real.sin (s / 2)⟩⟩⟩⟩

theorem turntable_axes (s : ℝ) (e : R3 ℝ) :
    (turntable s).linearMap.inverse.apply e = ⟨Real.cos s * e.x - Real.sin s * e.y, Real.sin s * e.x + Real.cos s * e.y, e.z⟩ := by
  have hs : Real.sin s = 2 * Real.sin (s / 2) * Real.cos (s / 2) := by rw [← Real.sin_two_mul]; congr 1; ring
  have hc : Real.cos s = 1 - 2 * Real.sin (s / 2) ^ 2 := by
    have h := Real.cos_two_mul (s / 2)
    rw [mul_div_cancel₀ s two_ne_zero] at h
    rw [h, Real.cos_sq']; ring
  rw [OrthogonalMap.apply_eq, hs, hc]
  simp only [turntable, OrthogonalMap.inverse, Quat.conjugate, Rotation.apply]
  ext <;> simp [R3.cross] <;> ring

theorem turntable_unit (s : ℝ) : (turntable s).linearMap.IsUnit := by
  have h := Real.sin_sq_add_cos_sq (s / 2)
  simp only [OrthogonalMap.IsUnit, turntable, Quat.normSq, R3.normSq]
  linear_combination h

theorem turntable_motion (t : ℝ) : IsMotionOf turntable ⟨turntable t, ⟨0, 0, 1⟩, ⟨1, 0, 0⟩⟩ t := by
  refine ⟨turntable_unit, rfl, ?_, fun e => ?_⟩
  · have h : ∀ s, (turntable s).inverse.apply 0 = ⟨s, 2, 3⟩ := by
      intro s
      show (turntable s).linearMap.inverse.apply (0 - 0) + ⟨s, 2, 3⟩ = _
      rw [turntable_axes]
      ext <;> simp
    exact HasDeriv.congr_fun (f := fun s => ⟨s, 2, 3⟩) ⟨hasDerivAt_id t, hasDerivAt_const _ _, hasDerivAt_const _ _⟩ h
  · refine HasDeriv.congr_fun (f := fun s => ⟨Real.cos s * e.x - Real.sin s * e.y, Real.sin s * e.x + Real.cos s * e.y, e.z⟩) ?_ fun s => turntable_axes s e
    rw [turntable_axes]
    refine ⟨?_, ?_, ?_⟩
    · refine (((Real.hasDerivAt_cos t).mul_const e.x).sub ((Real.hasDerivAt_sin t).mul_const e.y)).congr_deriv ?_
      simp [R3.cross]; ring
    · refine (((Real.hasDerivAt_sin t).mul_const e.x).add ((Real.hasDerivAt_cos t).mul_const e.y)).congr_deriv ?_
      simp [R3.cross]; ring
    · refine (hasDerivAt_const _ _).congr_deriv ?_
      simp [R3.cross]

/-- The hypotheses of the theorems are met by frames that translate and rotate, and by their inverses and compositions. -/
example (t : ℝ) : IsMotionOf (fun s => (turntable s).mul (turntable s).inverse)
    (RigidMotion.mul ⟨turntable t, ⟨0, 0, 1⟩, ⟨1, 0, 0⟩⟩ (RigidMotion.inverse ⟨turntable t, ⟨0, 0, 1⟩, ⟨1, 0, 0⟩⟩)) t :=
  C57_compose (turntable_motion t) (C57_inverse (turntable_motion t))

end Principia.Physics.Motion
