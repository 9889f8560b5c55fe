import Verif.Physics.FrameSpec
import Verif.Physics.RigidMotionProps
import Verif.Geometry.RotationAngles

/-!
Free fall in a rigid reference frame.
-/

set_option linter.unusedSimpArgs false
set_option linter.unusedVariables false
set_option linter.unusedSectionVars false

namespace Principia.Physics.Frames

open Geometry Motion

variable {F : RigidReferenceFrame} {m : ℝ → RigidMotion} {t : ℝ}

/-- Applying a motion to a position, when its rigid transformation is seen as a linear map. -/
theorem apply_position {m : RigidMotion} (hm : m.orthogonalMap.IsUnit) (d : DegreesOfFreedom) :
    (m.apply d).position = m.orthogonalMap.apply (d.position - m.rigidTransformation.inverse.apply 0) := AffineMap.apply_eq _ hm _

theorem inverse_position {m : RigidMotion} (hm : m.orthogonalMap.IsUnit) (x : R3 ℝ) :
    m.inverse.rigidTransformation.apply x = m.orthogonalMap.inverse.apply x + m.rigidTransformation.inverse.apply 0 := by
  show m.rigidTransformation.inverse.apply x = _
  have hi : m.rigidTransformation.linearMap.inverse.IsUnit := OrthogonalMap.inverse_unit hm
  rw [RigidMotion.orthogonalMap]
  simp only [AffineMap.apply, AffineMap.inverse]
  rw [OrthogonalMap.apply_sub hi x, OrthogonalMap.apply_sub hi 0, OrthogonalMap.apply_zero hi]
  ext <;> simp <;> ring

/-- In a reference frame, the velocity of a particle is the derivative of its position, and the geometric acceleration of a particle in free fall, that is, one subject only to gravity,
is the derivative of its velocity. -/
theorem C59_free_fall (h : IsFrame F m) {q v : ℝ → R3 ℝ} (hq : ∀ s, HasDeriv q (v s) s) (hv : HasDeriv v (F.gravitationalAcceleration t (q t)) t) :
    (∀ s, HasDeriv (fun s => ((m s).apply ⟨q s, v s⟩).position) ((m s).apply ⟨q s, v s⟩).velocity s) ∧
      ∃ a, F.geometricAcceleration t ((m t).apply ⟨q t, v t⟩) = some a ∧ HasDeriv (fun s => ((m s).apply ⟨q s, v s⟩).velocity) a t := by
  obtain ⟨a, ha, hm⟩ := h.accelerated t
  refine ⟨fun s => (C57_velocity (hm.motion s) (hq s)).2, ?_⟩
  have hu : (m t).orthogonalMap.IsUnit := (hm.motion t).unit t
  have hd := ((hv.sub hm.linear).sub (hm.angular.cross ((hq t).sub (hm.motion t).origin)))
  refine ⟨_, by rw [RigidReferenceFrame.geometricAcceleration, RigidReferenceFrame.computeGeometricAccelerations, ha, Option.map_some, Option.map_some], ?_⟩
  refine ((hm.motion t).vector hd).congr_deriv ?_
  dsimp only
  rw [hm.rigidMotion]
  set L := (m t).orthogonalMap
  have hinv : (m t).inverse.rigidTransformation.apply ((m t).apply ⟨q t, v t⟩).position = q t := congrArg DegreesOfFreedom.position (RigidMotion.inverse_apply hu ⟨q t, v t⟩)
  rw [hinv]
  have hp := apply_position hu ⟨q t, v t⟩
  have hp0 : ((m t).apply ⟨q t, v t⟩).position - 0 = L.apply (q t - (m t).rigidTransformation.inverse.apply 0) := by
    rw [hp]; ext <;> simp [L]
  have hvel : ((m t).apply ⟨q t, v t⟩).velocity = L.apply (v t - (m t).velocityOfToFrameOrigin -
      (m t).angularVelocityOfToFrame.cross (q t - (m t).rigidTransformation.inverse.apply 0)) := rfl
  rw [hp0, hvel]
  simp only [bivectorTimesVector]
  generalize q t - (m t).rigidTransformation.inverse.apply 0 = ρ
  generalize v t - (m t).velocityOfToFrameOrigin = w
  generalize (m t).angularVelocityOfToFrame = ω
  generalize a.angularAccelerationOfToFrame = α
  generalize F.gravitationalAcceleration t (q t) = g
  generalize a.accelerationOfToFrameOrigin = b
  have hn : ∀ x y : R3 ℝ, (-x).cross y = -(x.cross y) := by intro x y; ext <;> simp [R3.cross] <;> ring
  have hs : ∀ (k : ℝ) (x y : R3 ℝ), (k • x).cross y = k • x.cross y := by intro k x y; ext <;> simp [R3.cross] <;> ring
  rw [hn, hn, hs, ← OrthogonalMap.apply_cross hu, ← OrthogonalMap.apply_cross hu, ← OrthogonalMap.apply_cross hu, ← OrthogonalMap.apply_cross hu,
    ← OrthogonalMap.apply_smul hu, ← OrthogonalMap.apply_neg hu, ← OrthogonalMap.apply_neg hu, ← OrthogonalMap.apply_neg hu,
    ← OrthogonalMap.apply_add hu, ← OrthogonalMap.apply_add hu, ← OrthogonalMap.apply_add hu, ← OrthogonalMap.apply_add hu]
  congr 1
  ext <;> simp [R3.cross] <;> ring

/-- The acceleration at rest without rotation is minus the gradient of the geometric potential. -/
theorem C59_potential (h : IsFrame F m) (x : R3 ℝ)
    (hg : IsGradient (F.gravitationalPotential t) (-F.gravitationalAcceleration t ((m t).inverse.apply ⟨x, 0⟩).position) ((m t).inverse.apply ⟨x, 0⟩).position) :
    ∃ V a, (∀ y, F.geometricPotential t y = some (V y)) ∧ F.rotationFreeGeometricAccelerationAtRest t x = some a ∧ IsGradient V (-a) x := by
  obtain ⟨a, ha, hm⟩ := h.accelerated t
  have hu : (m t).orthogonalMap.IsUnit := (hm.motion t).unit t
  refine ⟨_, _, fun y => by rw [RigidReferenceFrame.geometricPotential, ha, Option.map_some],
    by rw [RigidReferenceFrame.rotationFreeGeometricAccelerationAtRest, RigidReferenceFrame.computeGeometricAccelerations, ha, Option.map_some, Option.map_some], ?_⟩
  intro c c' s hc hx
  dsimp only
  rw [hm.rigidMotion]
  have hc0 : HasDeriv (fun s => c s - 0) c' s := hc.congr_fun fun s => by ext <;> simp
  have hL : HasDeriv (fun s => (m t).inverse.rigidTransformation.apply (c s)) ((m t).orthogonalMap.inverse.apply c') s := by
    refine HasDeriv.congr_fun (f := fun s => (m t).orthogonalMap.inverse.apply (c s) + (m t).rigidTransformation.inverse.apply 0) ?_ fun s => inverse_position hu _
    have hi := OrthogonalMap.inverse_unit hu
    refine ((HasDeriv.of_dot fun e => ?_ : HasDeriv (fun s => (m t).orthogonalMap.inverse.apply (c s)) ((m t).orthogonalMap.inverse.apply c') s).add
      (HasDeriv.const ((m t).rigidTransformation.inverse.apply 0))).congr_deriv (by ext <;> simp)
    have hd : (fun s => ((m t).orthogonalMap.inverse.apply (c s)).dot e) = fun s => (c s).dot ((m t).orthogonalMap.inverse.inverse.apply e) :=
      funext fun s => OrthogonalMap.apply_dot hi _ _
    rw [hd, OrthogonalMap.apply_dot hi]
    refine (hc.dot (HasDeriv.const _)).congr_deriv ?_
    simp [R3.dot]
  have hpos : (m t).inverse.rigidTransformation.apply (c s) = ((m t).inverse.apply ⟨x, 0⟩).position := by rw [hx]; rfl
  have h1 := hg _ _ s hL hpos
  have h2 := hc0.dot (HasDeriv.const ((m t).orthogonalMap.apply a.accelerationOfToFrameOrigin))
  have h3 := (((HasDeriv.const ((m t).orthogonalMap.applyBivector (m t).angularVelocityOfToFrame)).cross hc0).normSq).const_mul (-(1 / 2))
  refine (h1.add (h2.add h3)).congr_deriv ?_
  rw [hx]
  have hgdot : ∀ g : R3 ℝ, (-g).dot ((m t).orthogonalMap.inverse.apply c') = -((m t).orthogonalMap.apply g).dot c' := by
    intro g
    rw [OrthogonalMap.apply_dot hu]
    simp [R3.dot]; ring
  rw [hgdot]
  have hp2 : ((m t).inverse.apply ⟨x, 0⟩).position = (m t).inverse.rigidTransformation.apply x := rfl
  rw [hp2]
  generalize (m t).orthogonalMap.apply (F.gravitationalAcceleration t _) = g
  generalize (m t).orthogonalMap.apply a.accelerationOfToFrameOrigin = b
  generalize (m t).orthogonalMap.applyBivector _ = Ω
  simp [R3.dot, R3.cross, bivectorTimesVector]
  ring

/-- The acceleration at rest without rotation is the acceleration, except for a part due to the change of the rotation, which is proportional to the distance to an axis, and for a part that is
proportional to the velocity. -/
theorem C59_rotation (h : IsFrame F m) :
    ∃ B C : R3 ℝ, ∀ x, ∃ a, F.rotationFreeGeometricAccelerationAtRest t x = some a ∧ ∀ v, F.geometricAcceleration t ⟨x, v⟩ = some (a + B.cross x + C.cross v) := by
  obtain ⟨a, ha, hm⟩ := h.accelerated t
  refine ⟨-(m t).orthogonalMap.applyBivector a.angularAccelerationOfToFrame, (-2 : ℝ) • (m t).orthogonalMap.applyBivector (m t).angularVelocityOfToFrame, fun x => ⟨_, by
    rw [RigidReferenceFrame.rotationFreeGeometricAccelerationAtRest, RigidReferenceFrame.computeGeometricAccelerations, ha, Option.map_some, Option.map_some], fun v => ?_⟩⟩
  rw [RigidReferenceFrame.geometricAcceleration, RigidReferenceFrame.computeGeometricAccelerations, ha, Option.map_some, Option.map_some, Option.some_inj, hm.rigidMotion]
  dsimp only
  ext <;> simp [bivectorTimesVector, R3.cross] <;> ring

/-- The Frenet trihedron: its first axis is along the velocity, its second one is in the plane of the velocity and of the acceleration, on the side of the acceleration.  It exists unless
the velocity and the acceleration are parallel. -/
theorem C59_frenet (a v : R3 ℝ) :
    (a.cross v = 0 ∧ frenetFrame a v = none) ∨
      ∃ (R : Rotation ℝ) (T N B : R3 ℝ) (k l : ℝ), frenetFrame a v = some R ∧ R.IsUnit ∧ DirectOrthonormal T N B ∧ R.apply ⟨1, 0, 0⟩ = T ∧ R.apply ⟨0, 1, 0⟩ = N ∧
        R.apply ⟨0, 0, 1⟩ = B ∧ v = v.norm • T ∧ 0 < v.norm ∧ a = l • T + k • N ∧ 0 < k := by
  rcases Rotation.C36_normalize v with ⟨h, h'⟩ | ⟨h, T, hT, hTT, hvT, hv⟩
  · left
    refine ⟨by rw [h]; ext <;> simp [R3.cross], by rw [frenetFrame, R3.orthogonalizationAgainst, h']; rfl⟩
  · have horth : a.orthogonalizationAgainst v = some (a - a.dot T • T) := by rw [R3.orthogonalizationAgainst, hT]; rfl
    have hTT' : T.x * T.x + T.y * T.y + T.z * T.z = 1 := hTT
    rcases Rotation.C36_normalize (a - a.dot T • T) with ⟨h0, h0'⟩ | ⟨h0, N, hN, hNN, haN, hk⟩
    · left
      refine ⟨?_, by rw [frenetFrame, horth]; simp [h0', hT]⟩
      have hx := congrArg R3.x h0
      have hy := congrArg R3.y h0
      have hz := congrArg R3.z h0
      simp only [R3.sub_x, R3.sub_y, R3.sub_z, R3.smul_x, R3.smul_y, R3.smul_z, R3.zero_x, R3.zero_y, R3.zero_z] at hx hy hz
      rw [hvT]
      ext <;> simp only [R3.cross, R3.smul_x, R3.smul_y, R3.smul_z, R3.zero_x, R3.zero_y, R3.zero_z]
      · linear_combination v.norm * T.z * hy - v.norm * T.y * hz
      · linear_combination v.norm * T.x * hz - v.norm * T.z * hx
      · linear_combination v.norm * T.y * hx - v.norm * T.x * hy
    · right
      have hTN : T.dot N = 0 := by
        have h1 : T.dot (a - a.dot T • T) = 0 := by
          simp only [R3.dot, R3.sub_x, R3.sub_y, R3.sub_z, R3.smul_x, R3.smul_y, R3.smul_z]
          linear_combination -(a.x * T.x + a.y * T.y + a.z * T.z) * hTT'
        rw [haN] at h1
        have h2 : T.dot ((a - a.dot T • T).norm • N) = (a - a.dot T • T).norm * T.dot N := by simp [R3.dot]; ring
        rw [h2] at h1
        exact (mul_eq_zero.1 h1).resolve_left hk.ne'
      have hD : DirectOrthonormal T N (wedge T N) := by
        have hNN' : N.x * N.x + N.y * N.y + N.z * N.z = 1 := hNN
        have hTN' : T.x * N.x + T.y * N.y + T.z * N.z = 0 := hTN
        have hB : (T.cross N).dot (T.cross N) = 1 := by
          simp only [R3.dot, R3.cross]
          linear_combination (N.x * N.x + N.y * N.y + N.z * N.z) * hTT' + hNN' - (T.x * N.x + T.y * N.y + T.z * N.z) * hTN'
        refine ⟨hTT, hNN, hB, hTN, ?_, ?_, hB⟩ <;> simp only [wedge, R3.dot, R3.cross] <;> ring
      refine ⟨Rotation.ofFromFrameAxes T N (wedge T N), T, N, wedge T N, (a - a.dot T • T).norm, a.dot T, by rw [frenetFrame, horth]; simp [hN, hT],
        (Rotation.C36_from_frame_axes hD 0).1, hD, ?_, ?_, ?_, hvT, hv, ?_, hk⟩
      · rw [(Rotation.C36_from_frame_axes hD _).2]; ext <;> simp
      · rw [(Rotation.C36_from_frame_axes hD _).2]; ext <;> simp
      · rw [(Rotation.C36_from_frame_axes hD _).2]; ext <;> simp
      · rw [← haN]; ext <;> simp

end Principia.Physics.Frames
