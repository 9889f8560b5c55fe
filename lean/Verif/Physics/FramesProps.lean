import Verif.Physics.FrameTrihedron

/-!
The rigid reference frames defined by the bodies of an ephemeris.
-/

set_option linter.unusedSimpArgs false
set_option linter.unusedVariables false
set_option linter.unusedSectionVars false

namespace Principia.Physics.Frames

open Geometry Motion

/-- A rigid motion whose target frame has the given origin. -/
def motionAt (P : R3 ℝ) (L : OrthogonalMap ℝ) (ω V : R3 ℝ) : RigidMotion := ⟨⟨P, 0, L⟩, ω, V⟩

theorem motionAt_origin {L : OrthogonalMap ℝ} (hL : L.IsUnit) (P : R3 ℝ) : (Geometry.AffineMap.inverse ⟨P, 0, L⟩).apply 0 = P := by
  show L.inverse.apply (0 - 0) + P = P
  have h0 : (0 : R3 ℝ) - 0 = 0 := by ext <;> simp
  rw [h0, OrthogonalMap.apply_zero (OrthogonalMap.inverse_unit hL)]
  ext <;> simp

theorem motionAt_apply {L : OrthogonalMap ℝ} (hL : L.IsUnit) (P ω V q v : R3 ℝ) : (motionAt P L ω V).apply ⟨q, v⟩ = ⟨L.apply (q - P), L.apply (v - V - ω.cross (q - P))⟩ := by
  have h1 := apply_position (m := motionAt P L ω V) hL ⟨q, v⟩
  have h2 : (motionAt P L ω V).rigidTransformation.inverse.apply 0 = P := motionAt_origin hL P
  rw [h2] at h1
  ext1
  · exact h1
  · show L.apply (v - V - bivectorTimesVector ω (q - (motionAt P L ω V).rigidTransformation.inverse.apply 0)) = _
    rw [h2]; rfl

theorem isFrame_of {F : RigidReferenceFrame} {P V Γ ω α : ℝ → R3 ℝ} {L : ℝ → OrthogonalMap ℝ} (hL : ∀ s, (L s).IsUnit) (hP : ∀ t, HasDeriv P (V t) t)
    (hV : ∀ t, HasDeriv V (Γ t) t) (hax : ∀ t e, HasDeriv (fun s => (L s).inverse.apply e) ((ω t).cross ((L t).inverse.apply e)) t) (hω : ∀ t, HasDeriv ω (α t) t)
    (h1 : ∀ t, F.toThisFrameAtTime t = some (motionAt (P t) (L t) (ω t) (V t)))
    (h2 : ∀ t, F.motionOfThisFrame t = some ⟨motionAt (P t) (L t) (ω t) (V t), α t, Γ t⟩) : IsFrame F fun t => motionAt (P t) (L t) (ω t) (V t) :=
  ⟨h1, fun t => ⟨_, h2 t, fun s => ⟨hL, rfl, (hP s).congr_fun fun u => motionAt_origin (hL u) _, fun e => hax s e⟩, rfl, hω t, hV t⟩⟩

theorem zero_sub_cross {L : OrthogonalMap ℝ} (hL : L.IsUnit) (P ω V : R3 ℝ) : (motionAt P L ω V).apply ⟨P, V⟩ = ⟨0, 0⟩ := by
  rw [motionAt_apply hL]
  have e1 : P - P = 0 := by ext <;> simp
  have e2 : V - V - ω.cross 0 = 0 := by ext <;> simp [R3.cross]
  rw [e1, e2, OrthogonalMap.apply_zero hL]

variable {Body : Type} {E : Ephemeris Body}

/-! ## The body-centred non-rotating frame -/

theorem biequatorial_eq (b : RotatingBody) : b.biequatorial = ⟨-Real.sin b.rightAscensionOfPole, Real.cos b.rightAscensionOfPole, 0⟩ := by
  simp [RotatingBody.biequatorial, RotatingBody.toCartesian, add_comm (Real.pi / 2), Real.cos_add_pi_div_two, Real.sin_add_pi_div_two]

theorem polarAxis_eq (b : RotatingBody) : b.polarAxis =
    ⟨Real.cos b.rightAscensionOfPole * Real.cos b.declinationOfPole, Real.sin b.rightAscensionOfPole * Real.cos b.declinationOfPole, Real.sin b.declinationOfPole⟩ := rfl

theorem equatorial_eq (b : RotatingBody) : b.equatorial =
    ⟨Real.cos b.rightAscensionOfPole * Real.sin b.declinationOfPole, Real.sin b.rightAscensionOfPole * Real.sin b.declinationOfPole, -Real.cos b.declinationOfPole⟩ := by
  rw [RotatingBody.equatorial, biequatorial_eq, polarAxis_eq]
  have ha := Real.sin_sq_add_cos_sq b.rightAscensionOfPole
  ext <;> simp only [wedge, R3.cross]
  · ring
  · ring
  · linear_combination -Real.cos b.declinationOfPole * ha

theorem binormal_eq (b : RotatingBody) : wedge b.equatorial b.biequatorial = b.polarAxis := by
  rw [equatorial_eq, biequatorial_eq, polarAxis_eq]
  have ha := Real.sin_sq_add_cos_sq b.rightAscensionOfPole
  ext <;> simp only [wedge, R3.cross]
  · ring
  · ring
  · linear_combination Real.sin b.declinationOfPole * ha

/-- The axes of the celestial frame of a body. -/
theorem celestial_orthonormal (b : RotatingBody) : DirectOrthonormal b.equatorial b.biequatorial b.polarAxis := by
  have h0 := binormal_eq b
  have ha := Real.sin_sq_add_cos_sq b.rightAscensionOfPole
  have hd := Real.sin_sq_add_cos_sq b.declinationOfPole
  have hp : b.polarAxis.dot b.polarAxis = 1 := by
    rw [polarAxis_eq]
    simp only [R3.dot]
    linear_combination hd + Real.cos b.declinationOfPole ^ 2 * ha
  refine ⟨?_, ?_, hp, ?_, ?_, ?_, ?_⟩
  · rw [equatorial_eq]
    simp only [R3.dot]
    linear_combination hd + Real.sin b.declinationOfPole ^ 2 * ha
  · rw [biequatorial_eq]
    simp only [R3.dot]
    linear_combination ha
  · rw [equatorial_eq, biequatorial_eq]
    simp only [R3.dot]
    ring
  · rw [polarAxis_eq, biequatorial_eq]
    simp only [R3.dot]
    ring
  · rw [equatorial_eq, polarAxis_eq]
    simp only [R3.dot]
    linear_combination Real.sin b.declinationOfPole * Real.cos b.declinationOfPole * ha
  · rw [wedge] at h0
    rw [h0, hp]

/-- The body-centred non-rotating frame: the centre is at rest at the origin, and the axes are fixed.  They are those of the ephemeris, unless the centre is a rotating body; in that case the
third axis is along the pole, and the second one is along the ascending node of the equator. -/
theorem C59_body_centred_non_rotating (hE : E.Consistent) (centre : Body) (orientation : Option RotatingBody) :
    ∃ m, IsFrame (bodyCentredNonRotating E centre orientation) m ∧
      (∀ t, (m t).apply (E.degreesOfFreedom centre t) = ⟨0, 0⟩) ∧
      (∀ t, (m t).angularVelocityOfToFrame = 0) ∧
      (orientation = none → ∀ t v, (m t).orthogonalMap.apply v = v) ∧
      ∀ b, orientation = some b → ∀ t,
          (m t).orthogonalMap.apply ⟨-Real.sin b.rightAscensionOfPole, Real.cos b.rightAscensionOfPole, 0⟩ = ⟨0, 1, 0⟩ ∧
          (m t).orthogonalMap.apply ⟨Real.cos b.rightAscensionOfPole * Real.cos b.declinationOfPole, Real.sin b.rightAscensionOfPole * Real.cos b.declinationOfPole,
            Real.sin b.declinationOfPole⟩ = ⟨0, 0, 1⟩ := by
  obtain ⟨L, hL, hu, h0, h1⟩ : ∃ L : OrthogonalMap ℝ, (L = match orientation with | none => .identity | some b => b.toCelestialFrame.forgetOrthogonal) ∧ L.IsUnit ∧
      (orientation = none → ∀ v, L.apply v = v) ∧ ∀ b, orientation = some b → L.apply b.biequatorial = ⟨0, 1, 0⟩ ∧ L.apply b.polarAxis = ⟨0, 0, 1⟩ := by
    refine ⟨_, rfl, ?_⟩
    cases orientation with
    | none =>
      have hu : (OrthogonalMap.identity : OrthogonalMap ℝ).IsUnit := by simp [OrthogonalMap.IsUnit, OrthogonalMap.identity, Quat.normSq, Quat.ofReal, R3.normSq]
      exact ⟨hu, fun _ v => ((C37_orthogonal_inverse _ hu).2.2.2.2 v).1, by simp⟩
    | some b =>
      have hD := celestial_orthonormal b
      have hT : b.toCelestialFrame = computeRotation ⟨b.equatorial, b.biequatorial, b.polarAxis⟩ := by
        rw [RotatingBody.toCelestialFrame, binormal_eq]; rfl
      have hR := computeRotation_eq (T := ⟨b.equatorial, b.biequatorial, b.polarAxis⟩) hD
      obtain ⟨h1, h2, h3, h4, h5, h6, h7⟩ := hD
      have c : ∀ x y : R3 ℝ, x.dot y = y.dot x := by intro x y; simp [R3.dot]; ring
      simp only [hT]
      refine ⟨hR.1, by simp, fun b' hb => ?_⟩
      obtain rfl := Option.some.inj hb
      rw [hR.2.1, hR.2.1]
      refine ⟨?_, ?_⟩
      · ext
        · exact h4
        · exact h2
        · exact (c _ _).trans h5
      · ext
        · exact (c _ _).trans h6
        · exact h5
        · exact h3
  refine ⟨_, isFrame_of (P := E.position centre) (V := E.velocity centre) (Γ := E.accelerationOnMassiveBody centre) (ω := fun _ => 0) (α := fun _ => 0) (L := fun _ => L)
    (fun _ => hu) (hE.velocity centre) (hE.acceleration centre) (fun t e => ?_) (fun t => HasDeriv.const 0) (fun t => ?_) (fun t => ?_), fun t => ?_, fun t => rfl, ?_, ?_⟩
  · refine (HasDeriv.const _).congr_deriv ?_
    ext <;> simp [R3.cross]
  · rw [hL]; rfl
  · rw [hL]; rfl
  · exact zero_sub_cross hu _ _ _
  · exact fun h t v => h0 h v
  · intro b hb t
    obtain ⟨h2, h3⟩ := h1 b hb
    rw [biequatorial_eq] at h2
    rw [polarAxis_eq] at h3
    exact ⟨h2, h3⟩

/-! ## The surface frame of a body -/

/-- The surface frame of a body. -/
theorem fromSurfaceFrame_eq (b : RotatingBody) (t : ℝ) (e : R3 ℝ) : (b.fromSurfaceFrame t).IsUnit ∧ (b.fromSurfaceFrame t).apply e =
    (e.x * Real.cos (b.angleAt t) - e.y * Real.sin (b.angleAt t)) • b.biequatorial - (e.x * Real.sin (b.angleAt t) + e.y * Real.cos (b.angleAt t)) • b.equatorial + e.z • b.polarAxis := by
  have h := Rotation.C36_euler (Real.pi / 2 + b.rightAscensionOfPole) (Real.pi / 2 - b.declinationOfPole) (b.angleAt t) 2 0 2 e
  refine ⟨h.1, h.2.1.trans ?_⟩
  rw [equatorial_eq, biequatorial_eq, polarAxis_eq]
  simp only [rodrigues, R3.basisVector, add_comm (Real.pi / 2), Real.cos_add_pi_div_two, Real.sin_add_pi_div_two, Real.cos_pi_div_two_sub, Real.sin_pi_div_two_sub]
  ext <;> simp [R3.cross, R3.dot] <;> ring

/-- The surface frame of a body: the centre is at rest at the origin, the third axis is along the pole, and the angle from the ascending node of the equator to the first axis, the prime
meridian, has the given value at the given time and increases at the given rate. -/
theorem C59_body_surface (hE : E.Consistent) (centre : Body) (b : RotatingBody) :
    ∃ m, IsFrame (bodySurface E centre b) m ∧
      (∀ t, (m t).apply (E.degreesOfFreedom centre t) = ⟨0, 0⟩) ∧
      ∀ t, ∃ W, W = b.referenceAngle + b.angularFrequency * (t - b.referenceInstant) ∧
        (m t).orthogonalMap.apply ⟨-Real.sin b.rightAscensionOfPole, Real.cos b.rightAscensionOfPole, 0⟩ = ⟨Real.cos W, -Real.sin W, 0⟩ ∧
        (m t).orthogonalMap.apply ⟨Real.cos b.rightAscensionOfPole * Real.cos b.declinationOfPole, Real.sin b.rightAscensionOfPole * Real.cos b.declinationOfPole,
          Real.sin b.declinationOfPole⟩ = ⟨0, 0, 1⟩ ∧ (m t).orthogonalMap.same = true := by
  have hu : ∀ t, (b.toSurfaceFrame t).forgetOrthogonal.IsUnit := fun t => (Rotation.C36_inverse _ (fromSurfaceFrame_eq b t 0).1 0).1
  have hi : ∀ t e, (b.toSurfaceFrame t).forgetOrthogonal.inverse.apply e = (b.fromSurfaceFrame t).apply e := by
    intro t e
    have : (b.toSurfaceFrame t).forgetOrthogonal.inverse = (b.fromSurfaceFrame t).forgetOrthogonal := OrthogonalMap.inverse_inverse (b.fromSurfaceFrame t).forgetOrthogonal
    rw [this, forgetOrthogonal_apply]
  have hto : ∀ t u v, (b.fromSurfaceFrame t).apply u = v → (b.toSurfaceFrame t).forgetOrthogonal.apply v = u := by
    intro t u v h
    rw [← h, ← hi, OrthogonalMap.apply_inverse (hu t)]
  have hD := (celestial_orthonormal b).cross
  refine ⟨_, isFrame_of (P := E.position centre) (V := E.velocity centre) (Γ := E.accelerationOnMassiveBody centre) (ω := fun _ => b.angularVelocity) (α := fun _ => 0)
    (L := fun t => (b.toSurfaceFrame t).forgetOrthogonal) hu (hE.velocity centre) (hE.acceleration centre) (fun t e => ?_) (fun t => HasDeriv.const _) (fun t => rfl)
    (fun t => rfl), fun t => zero_sub_cross (hu t) _ _ _, fun t => ⟨b.angleAt t, by rw [RotatingBody.angleAt]; ring, ?_, ?_, rfl⟩⟩
  · have hW : HasDerivAt b.angleAt b.angularFrequency t := by
      refine ((((hasDerivAt_id t).sub_const b.referenceInstant).mul_const b.angularFrequency).const_add b.referenceAngle).congr_deriv ?_
      ring
    have hc := hW.cos
    have hs := hW.sin
    have hd := ((HasDeriv.smul ((hc.const_mul e.x).sub (hs.const_mul e.y)) (HasDeriv.const b.biequatorial)).sub
      (HasDeriv.smul ((hs.const_mul e.x).add (hc.const_mul e.y)) (HasDeriv.const b.equatorial))).add (HasDeriv.const (e.z • b.polarAxis))
    refine (hd.congr_fun fun s => by rw [hi, (fromSurfaceFrame_eq b s e).2]; rfl).congr_deriv ?_
    rw [hi, (fromSurfaceFrame_eq b t e).2, RotatingBody.angularVelocity]
    have hx : ∀ (k l m n : ℝ), (k • b.polarAxis).cross (l • b.biequatorial - m • b.equatorial + n • b.polarAxis) = (k * l) • b.polarAxis.cross b.biequatorial -
        (k * m) • b.polarAxis.cross b.equatorial := by
      intro k l m n; ext <;> simp [R3.cross] <;> ring
    have hx2 : b.polarAxis.cross b.biequatorial = -b.equatorial := by
      rw [← hD.2.1]; ext <;> simp [R3.cross] <;> ring
    rw [hx, hx2, hD.2.2]
    ext <;> simp <;> ring
  · rw [← biequatorial_eq]
    apply hto
    rw [(fromSurfaceFrame_eq b t _).2]
    have := Real.sin_sq_add_cos_sq (b.angleAt t)
    ext <;> simp only [R3.add_x, R3.add_y, R3.add_z, R3.sub_x, R3.sub_y, R3.sub_z, R3.smul_x, R3.smul_y, R3.smul_z]
    · linear_combination b.biequatorial.x * this
    · linear_combination b.biequatorial.y * this
    · linear_combination b.biequatorial.z * this
  · rw [← polarAxis_eq]
    apply hto
    rw [(fromSurfaceFrame_eq b t _).2]
    ext <;> simp

/-! ## The frames defined by two points -/

section TwoPoints

variable {r r' r'' r''' : ℝ → R3 ℝ} {t : ℝ}

/-- The coordinates of the relative position and velocity of two points in the trihedron attached to them. -/
theorem tri_apply {r r' : R3 ℝ} (h : r.cross r' ≠ 0) :
    (computeRotation (tri r r')).forgetOrthogonal.apply r = ⟨r.norm, 0, 0⟩ ∧ ∃ a b, 0 < b ∧ (computeRotation (tri r r')).forgetOrthogonal.apply r' = ⟨a, b, 0⟩ := by
  have hr := (computeRotation_eq (tri_orthonormal h)).2.1
  have hF := left_ne_zero h
  refine ⟨?_, (unit r).dot r', (unit ((r.cross r').cross r)).dot r', ?_, ?_⟩
  · rw [hr]
    ext
    · show (unit r).dot r = r.norm
      have : (unit r).dot r = r.norm * r.norm / r.norm := by
        rw [Rotation.norm_mul_self]; simp only [unit, R3.div, R3.dot, R3.normSq]; ring
      rw [this, mul_div_assoc, div_self (norm_pos hF).ne', mul_one]
    · show (unit _).dot r = 0
      simp only [unit, R3.div, R3.dot, R3.cross]; ring
    · show (unit _).dot r = 0
      simp only [unit, R3.div, R3.dot, R3.cross]; ring
  · have : (unit ((r.cross r').cross r)).dot r' = (r.cross r').normSq / ((r.cross r').cross r).norm := by
      simp only [unit, R3.div, R3.dot, R3.normSq, R3.cross]; ring
    rw [this]
    exact div_pos (normSq_pos h) (norm_pos (normal_ne_zero h))
  · rw [hr]
    ext
    · rfl
    · rfl
    · show (unit _).dot r' = 0
      simp only [unit, R3.div, R3.dot, R3.cross]; ring

/-- The motion of a frame whose axes are those of the trihedron. -/
noncomputable def twoPointMotion (P V r r' r'' : R3 ℝ) : RigidMotion := motionAt P (computeRotation (tri r r')).forgetOrthogonal (triVelocity r r' r'') V

theorem twoPoint_isFrame {F : RigidReferenceFrame} {P V Γ : ℝ → R3 ℝ} (hP : ∀ t, HasDeriv P (V t) t) (hV : ∀ t, HasDeriv V (Γ t) t) (h1 : ∀ t, HasDeriv r (r' t) t)
    (h2 : ∀ t, HasDeriv r' (r'' t) t) (h3 : ∀ t, HasDeriv r'' (r''' t) t) (h : ∀ t, (r t).cross (r' t) ≠ 0)
    (hF1 : ∀ t, F.toThisFrameAtTime t = some (twoPointMotion (P t) (V t) (r t) (r' t) (r'' t)))
    (hF2 : ∀ t α, angularAccelerationOf (r t) (r' t) (r'' t) (r''' t) = some α →
      F.motionOfThisFrame t = some ⟨twoPointMotion (P t) (V t) (r t) (r' t) (r'' t), α, Γ t⟩) :
    IsFrame F fun t => twoPointMotion (P t) (V t) (r t) (r' t) (r'' t) := by
  choose α hα1 hα2 using fun t => tri_acceleration (h1 t) (h2 t) (h3 t) (h t)
  exact isFrame_of (fun s => (computeRotation_eq (tri_orthonormal (h s))).1) hP hV (fun t e => tri_axes (h1 t) (h2 t) h e) hα2 hF1 fun t => hF2 t _ (hα1 t)

/-- The points of the line that goes through the two points stay on the first axis. -/
theorem twoPoint_apply {P V : ℝ → R3 ℝ} (hP : ∀ t, HasDeriv P (V t) t) (h1 : ∀ t, HasDeriv r (r' t) t) (h2 : ∀ t, HasDeriv r' (r'' t) t) (h : ∀ t, (r t).cross (r' t) ≠ 0)
    (k t : ℝ) : (twoPointMotion (P t) (V t) (r t) (r' t) (r'' t)).apply ⟨P t + k • r t, V t + k • r' t⟩ =
      ⟨⟨k * (r t).norm, 0, 0⟩, ⟨k * ((r t).dot (r' t) / (r t).norm), 0, 0⟩⟩ := by
  have hL := fun s => (computeRotation_eq (tri_orthonormal (h s))).1
  have hm : IsMotionOf (fun s => (twoPointMotion (P s) (V s) (r s) (r' s) (r'' s)).rigidTransformation) (twoPointMotion (P t) (V t) (r t) (r' t) (r'' t)) t :=
    ⟨hL, rfl, (hP t).congr_fun fun u => motionAt_origin (hL u) _, fun e => tri_axes (h1 t) (h2 t) h e⟩
  have hpos : ∀ s, (twoPointMotion (P s) (V s) (r s) (r' s) (r'' s)).rigidTransformation.apply (P s + k • r s) = ⟨k * (r s).norm, 0, 0⟩ := by
    intro s
    have := congrArg DegreesOfFreedom.position (motionAt_apply (hL s) (P s) (triVelocity (r s) (r' s) (r'' s)) (V s) (P s + k • r s) 0)
    refine this.trans ?_
    have e : P s + k • r s - P s = k • r s := by ext <;> simp
    show OrthogonalMap.apply _ _ = _
    rw [e, OrthogonalMap.apply_smul (hL s), (tri_apply (h s)).1]
    ext <;> simp
  have hv := (C57_velocity hm ((hP t).add ((h1 t).const_smul k))).2
  have hv' : HasDeriv (fun s => (⟨k * (r s).norm, 0, 0⟩ : R3 ℝ)) ⟨k * ((r t).dot (r' t) / (r t).norm), 0, 0⟩ t :=
    ⟨((h1 t).norm (left_ne_zero (h t))).const_mul k, hasDerivAt_const _ _, hasDerivAt_const _ _⟩
  ext1
  · exact hpos t
  · exact hv.unique (hv'.congr_fun hpos)

end TwoPoints

/-! ## The body-centred frame oriented by another body -/

/-- The primary may be a massive body. -/
theorem massive_consistent (hE : E.Consistent) (primary : Body) : (Primary.massive E primary).Consistent :=
  ⟨hE.velocity primary, hE.acceleration primary, hE.jerk primary⟩

/-- The body-centred frame oriented by another body: the primary is at rest at the origin, the secondary is on the first axis at its distance, and moves along that axis only; the relative
velocity is in the plane of the first two axes, on the side of the second one. -/
theorem C59_body_direction {p : Primary} (hE : E.Consistent) (hp : p.Consistent) (secondary : Body)
    (h : ∀ t, (E.position secondary t - (p.trajectory t).position).cross (E.velocity secondary t - (p.trajectory t).velocity) ≠ 0) :
    ∃ m, IsFrame (bodyCentredBodyDirection E p secondary) m ∧
      (∀ t, (m t).apply (p.trajectory t) = ⟨0, 0⟩) ∧
      (∀ t, ∃ ρ', HasDerivAt (fun s => (E.position secondary s - (p.trajectory s).position).norm) ρ' t ∧
        (m t).apply (E.degreesOfFreedom secondary t) = ⟨⟨(E.position secondary t - (p.trajectory t).position).norm, 0, 0⟩, ⟨ρ', 0, 0⟩⟩) ∧
      (∀ t, ∃ a b, 0 < b ∧ (m t).orthogonalMap.apply (E.velocity secondary t - (p.trajectory t).velocity) = ⟨a, b, 0⟩) ∧ ∀ t, (m t).orthogonalMap.same = true := by
  have h1 := fun t => (hE.velocity secondary t).sub (hp.velocity t)
  have h2 := fun t => (hE.acceleration secondary t).sub (hp.acceleration t)
  have h3 := fun t => (hE.jerk secondary t).sub (hp.jerk t)
  have hto : ∀ t, (bodyCentredBodyDirection E p secondary).toThisFrameAtTime t = some (twoPointMotion (p.trajectory t).position (p.trajectory t).velocity
      (E.position secondary t - (p.trajectory t).position) (E.velocity secondary t - (p.trajectory t).velocity)
      (E.accelerationOnMassiveBody secondary t - p.acceleration (p.trajectory t).position t)) := by
    intro t
    simp only [bodyCentredBodyDirection, bodyDirectionToThisFrame]
    rw [computeAngularDegreesOfFreedom_eq (h t)]
    rfl
  have happ := twoPoint_apply hp.velocity h1 h2 h
  refine ⟨_, twoPoint_isFrame hp.velocity hp.acceleration h1 h2 h3 h hto fun t α hα => ?_, fun t => ?_, fun t => ?_, fun t => (tri_apply (h t)).2, fun t => rfl⟩
  · have h4 : bodyDirectionToThisFrame (p.trajectory t) (E.degreesOfFreedom secondary t) (p.acceleration (p.trajectory t).position t) (E.accelerationOnMassiveBody secondary t) = _ := hto t
    have h5 : angularAccelerationOf ((E.degreesOfFreedom secondary t).position - (p.trajectory t).position) ((E.degreesOfFreedom secondary t).velocity - (p.trajectory t).velocity) _ _ = _ := hα
    simp only [bodyCentredBodyDirection]
    rw [h4, h5]
    rfl
  · refine Eq.trans ?_ ((happ 0 t).trans ?_)
    · congr 1
      ext <;> simp
    · ext <;> simp
  · refine ⟨_, (h1 t).norm (left_ne_zero (h t)), Eq.trans ?_ ((happ 1 t).trans ?_)⟩
    · congr 1
      ext <;> simp [Ephemeris.degreesOfFreedom]
    · ext <;> simp

/-! ## The barycentric rotating frame -/

theorem foldl_weight (l : List (R3 ℝ × ℝ)) (w : ℝ) : l.foldl (fun w x => w + x.2) w = w + (l.map Prod.snd).sum := by
  induction l generalizing w with
  | nil => simp
  | cons x l ih => rw [List.foldl_cons, ih, List.map_cons, List.sum_cons]; ring

theorem foldl_vector (l : List (R3 ℝ × ℝ)) (v : R3 ℝ) : l.foldl (fun s x => s + x.2 • x.1) v = v + (l.map fun x => x.2 • x.1).sum := by
  induction l generalizing v with
  | nil => ext <;> simp
  | cons x l ih => rw [List.foldl_cons, ih, List.map_cons, List.sum_cons]; ext <;> simp <;> ring

theorem barycentre_eq {l : List (R3 ℝ × ℝ)} (h : (l.map Prod.snd).sum ≠ 0) :
    barycentre l = some ((1 / (l.map Prod.snd).sum) • (l.map fun x => x.2 • x.1).sum) := by
  have h0 : l ≠ [] := by rintro rfl; exact h rfl
  have hw : l.foldl (fun w x => w + x.2) 0 = (l.map Prod.snd).sum := by rw [foldl_weight, zero_add]
  rw [barycentre, if_neg h0]
  simp only [hw]
  rw [if_neg h, foldl_vector]
  congr 1
  ext <;> simp [R3.div] <;> ring

variable {F : BarycentricRotating Body}

theorem barycentreDerivative_eq (bodies : List Body) (h : F.ephemeris.parameter bodies ≠ 0) (degree : Fin 4) (t : ℝ) :
    F.barycentreDerivative bodies degree t = some (F.ephemeris.mean bodies fun b => F.bodyDerivative degree b t) := by
  have e : ((bodies.map fun b => (F.bodyDerivative degree b t, F.ephemeris.gravitationalParameter b)).map Prod.snd).sum = F.ephemeris.parameter bodies := by
    rw [List.map_map]; rfl
  rw [BarycentricRotating.barycentreDerivative, barycentre_eq (by rw [e]; exact h), e, List.map_map]
  rfl

theorem gravitationalParameter_eq (bodies : List Body) : F.gravitationalParameter bodies = F.ephemeris.parameter bodies := by
  have : ∀ (l : List Body) (w : ℝ), l.foldl (fun sum b => sum + F.ephemeris.gravitationalParameter b) w = w + (l.map F.ephemeris.gravitationalParameter).sum := by
    intro l
    induction l with
    | nil => simp
    | cons b l ih => intro w; rw [List.foldl_cons, ih, List.map_cons, List.sum_cons]; ring
  rw [BarycentricRotating.gravitationalParameter, this, zero_add]; rfl

theorem parameter_pos (hμ : ∀ b, 0 < E.gravitationalParameter b) {bodies : List Body} (h : 1 ≤ bodies.length) : 0 < E.parameter bodies := by
  have h0 : ∀ l : List Body, 0 ≤ (l.map E.gravitationalParameter).sum := by
    intro l
    induction l with
    | nil => simp
    | cons b l ih => rw [List.map_cons, List.sum_cons]; exact add_nonneg (hμ b).le ih
  cases bodies with
  | nil => simp at h
  | cons b l => rw [Ephemeris.parameter, List.map_cons, List.sum_cons]; exact add_pos_of_pos_of_nonneg (hμ b) (h0 l)

theorem mean_deriv (bodies : List Body) {x : Body → ℝ → R3 ℝ} {x' : Body → R3 ℝ} {t : ℝ} (h : ∀ b, HasDeriv (x b) (x' b) t) :
    HasDeriv (fun s => E.mean bodies fun b => x b s) (E.mean bodies x') t := by
  have : HasDeriv (fun s => (bodies.map fun b => E.gravitationalParameter b • x b s).sum) (bodies.map fun b => E.gravitationalParameter b • x' b).sum t := by
    induction bodies with
    | nil => exact HasDeriv.const 0
    | cons b l ih => simp only [List.map_cons, List.sum_cons]; exact ((h b).const_smul _).add ih
  exact this.const_smul _

theorem sum_append (l l' : List (R3 ℝ)) : (l ++ l').sum = l.sum + l'.sum := by
  induction l with
  | nil => rw [List.nil_append, List.sum_nil]; ext <;> simp
  | cons x l ih => rw [List.cons_append, List.sum_cons, List.sum_cons, ih]; ext <;> simp <;> ring

theorem parameter_append (l l' : List Body) : E.parameter (l ++ l') = E.parameter l + E.parameter l' := by simp [Ephemeris.parameter]

/-- The barycentre of two groups of bodies. -/
theorem mean_append {l l' : List Body} (h : E.parameter l ≠ 0) (h' : E.parameter l' ≠ 0) (x : Body → R3 ℝ) :
    E.mean (l ++ l') x = (1 / (E.parameter l + E.parameter l')) • (E.parameter l • E.mean l x + E.parameter l' • E.mean l' x) := by
  rw [Ephemeris.mean, parameter_append, List.map_append, sum_append, Ephemeris.mean, Ephemeris.mean]
  congr 1
  ext <;> simp <;> field_simp

theorem barycentre_two {l l' : List Body} (h : 0 < E.parameter l) (h' : 0 < E.parameter l') (x : Body → R3 ℝ) :
    barycentre [(E.mean l x, E.parameter l), (E.mean l' x, E.parameter l')] = some (E.mean (l ++ l') x) := by
  have e : (([(E.mean l x, E.parameter l), (E.mean l' x, E.parameter l')] : List (R3 ℝ × ℝ)).map Prod.snd).sum = E.parameter l + E.parameter l' := by simp
  rw [barycentre_eq (by rw [e]; exact (add_pos h h').ne'), e, mean_append h.ne' h'.ne']
  congr 2
  ext <;> simp

/-- The relative position of the barycentres of the secondaries and of the primaries, and its derivatives. -/
noncomputable def separation (F : BarycentricRotating Body) (degree : Fin 4) (t : ℝ) : R3 ℝ :=
  F.ephemeris.mean F.secondaries (F.bodyDerivative degree · t) - F.ephemeris.mean F.primaries (F.bodyDerivative degree · t)

/-- The position of the barycentre of all the bodies, and its derivatives. -/
noncomputable def centre (F : BarycentricRotating Body) (degree : Fin 4) (t : ℝ) : R3 ℝ := F.ephemeris.mean (F.primaries ++ F.secondaries) (F.bodyDerivative degree · t)

/-- The motion of the barycentric rotating frame. -/
noncomputable def barycentricMotion (F : BarycentricRotating Body) (t : ℝ) : RigidMotion :=
  twoPointMotion (centre F 0 t) (centre F 1 t) (separation F 0 t) (separation F 1 t) (separation F 2 t)

section Barycentric

variable (hE : F.ephemeris.Consistent) (h₁ : 0 < F.ephemeris.parameter F.primaries) (h₂ : 0 < F.ephemeris.parameter F.secondaries)
  (h : ∀ t, (separation F 0 t).cross (separation F 1 t) ≠ 0)

include hE in
theorem separation_deriv (t : ℝ) : HasDeriv (separation F 0) (separation F 1 t) t ∧ HasDeriv (separation F 1) (separation F 2 t) t ∧ HasDeriv (separation F 2) (separation F 3 t) t :=
  ⟨(mean_deriv F.secondaries fun b => hE.velocity b t).sub (mean_deriv F.primaries fun b => hE.velocity b t),
   (mean_deriv F.secondaries fun b => hE.acceleration b t).sub (mean_deriv F.primaries fun b => hE.acceleration b t),
   (mean_deriv F.secondaries fun b => hE.jerk b t).sub (mean_deriv F.primaries fun b => hE.jerk b t)⟩

include hE in
theorem centre_deriv (t : ℝ) : HasDeriv (centre F 0) (centre F 1 t) t ∧ HasDeriv (centre F 1) (centre F 2 t) t :=
  ⟨mean_deriv _ fun b => hE.velocity b t, mean_deriv _ fun b => hE.acceleration b t⟩

include h₁ h₂ h in
theorem barycentric_toThisFrame (t : ℝ) : F.toThisFrame (F.ephemeris.mean F.primaries (F.bodyDerivative 0 · t)) (F.ephemeris.mean F.primaries (F.bodyDerivative 1 · t))
    (F.ephemeris.mean F.primaries (F.bodyDerivative 2 · t)) (F.ephemeris.mean F.secondaries (F.bodyDerivative 0 · t)) (F.ephemeris.mean F.secondaries (F.bodyDerivative 1 · t))
    (F.ephemeris.mean F.secondaries (F.bodyDerivative 2 · t)) = some (barycentricMotion F t) := by
  rw [BarycentricRotating.toThisFrame, computeAngularDegreesOfFreedom_eq (by exact h t), gravitationalParameter_eq, gravitationalParameter_eq, barycentre_two h₁ h₂, barycentre_two h₁ h₂]
  rfl

include h₁ h₂ h in
theorem barycentric_toThisFrameAtTime (t : ℝ) : F.toThisFrameAtTime t = some (barycentricMotion F t) := by
  have := barycentric_toThisFrame h₁ h₂ h t
  simp only [BarycentricRotating.toThisFrameAtTime, barycentreDerivative_eq _ h₁.ne', barycentreDerivative_eq _ h₂.ne', Option.bind_eq_bind, Option.bind_some]
  exact this

include hE h₁ h₂ h in
theorem barycentric_isFrame : IsFrame F.frame (barycentricMotion F) := by
  refine twoPoint_isFrame (fun t => (centre_deriv hE t).1) (fun t => (centre_deriv hE t).2) (fun t => (separation_deriv hE t).1) (fun t => (separation_deriv hE t).2.1)
    (fun t => (separation_deriv hE t).2.2) h (barycentric_toThisFrameAtTime h₁ h₂ h) fun t α hα => ?_
  have h4 := barycentric_toThisFrame h₁ h₂ h t
  have h5 := barycentre_two h₁ h₂ (F.bodyDerivative 2 · t)
  show F.motionOfThisFrame t = _
  simp only [BarycentricRotating.motionOfThisFrame, barycentreDerivative_eq _ h₁.ne', barycentreDerivative_eq _ h₂.ne', Option.bind_eq_bind, Option.bind_some, Option.pure_def]
  rw [h4, Option.bind_some]
  simp only [separation] at hα
  rw [hα, Option.bind_some, gravitationalParameter_eq, gravitationalParameter_eq, h5]
  rfl

include hE h in
theorem barycentric_apply (k t : ℝ) : (barycentricMotion F t).apply ⟨centre F 0 t + k • separation F 0 t, centre F 1 t + k • separation F 1 t⟩ =
    ⟨⟨k * (separation F 0 t).norm, 0, 0⟩, ⟨k * ((separation F 0 t).dot (separation F 1 t) / (separation F 0 t).norm), 0, 0⟩⟩ :=
  twoPoint_apply (fun t => (centre_deriv hE t).1) (fun t => (separation_deriv hE t).1) (fun t => (separation_deriv hE t).2.1) h k t

include h₁ h₂ in
theorem mean_primaries (degree : Fin 4) (t : ℝ) : F.ephemeris.mean F.primaries (F.bodyDerivative degree · t) =
    centre F degree t + (-(F.ephemeris.parameter F.secondaries / (F.ephemeris.parameter F.primaries + F.ephemeris.parameter F.secondaries))) • separation F degree t := by
  have := (add_pos h₁ h₂).ne'
  rw [centre, separation, mean_append h₁.ne' h₂.ne']
  ext <;> simp <;> field_simp <;> ring

include h₁ h₂ in
theorem mean_secondaries (degree : Fin 4) (t : ℝ) : F.ephemeris.mean F.secondaries (F.bodyDerivative degree · t) =
    centre F degree t + (F.ephemeris.parameter F.primaries / (F.ephemeris.parameter F.primaries + F.ephemeris.parameter F.secondaries)) • separation F degree t := by
  have := (add_pos h₁ h₂).ne'
  rw [centre, separation, mean_append h₁.ne' h₂.ne']
  ext <;> simp <;> field_simp <;> ring

end Barycentric

/-- The barycentric rotating frame: the barycentre of all the bodies is at rest at the origin, and the barycentre of the primaries and that of the secondaries are on the first axis, on
either side of the origin, at the distances given by the law of the lever; they move along that axis only; the relative velocity is in the plane of the first two axes, on the side of the
second one. -/
theorem C59_barycentric_rotating (hE : F.ephemeris.Consistent) (hF : F.Valid) (hμ : ∀ b, 0 < F.ephemeris.gravitationalParameter b) {g₁ v₁ g₂ v₂ : ℝ → R3 ℝ}
    (hg₁ : ∀ t, g₁ t = F.ephemeris.mean F.primaries (F.ephemeris.position · t)) (hv₁ : ∀ t, v₁ t = F.ephemeris.mean F.primaries (F.ephemeris.velocity · t))
    (hg₂ : ∀ t, g₂ t = F.ephemeris.mean F.secondaries (F.ephemeris.position · t)) (hv₂ : ∀ t, v₂ t = F.ephemeris.mean F.secondaries (F.ephemeris.velocity · t))
    (h : ∀ t, (g₂ t - g₁ t).cross (v₂ t - v₁ t) ≠ 0) {μ₁ μ₂ : ℝ} (hμ₁ : μ₁ = F.ephemeris.parameter F.primaries) (hμ₂ : μ₂ = F.ephemeris.parameter F.secondaries) :
    ∃ m, IsFrame F.frame m ∧
      (∀ t, (m t).apply ⟨F.ephemeris.mean (F.primaries ++ F.secondaries) (F.ephemeris.position · t), F.ephemeris.mean (F.primaries ++ F.secondaries) (F.ephemeris.velocity · t)⟩ = ⟨0, 0⟩) ∧
      (∀ t, ∃ ρ', HasDerivAt (fun s => (g₂ s - g₁ s).norm) ρ' t ∧
        (m t).apply ⟨g₁ t, v₁ t⟩ = ⟨⟨-(μ₂ / (μ₁ + μ₂)) * (g₂ t - g₁ t).norm, 0, 0⟩, ⟨-(μ₂ / (μ₁ + μ₂)) * ρ', 0, 0⟩⟩ ∧
        (m t).apply ⟨g₂ t, v₂ t⟩ = ⟨⟨μ₁ / (μ₁ + μ₂) * (g₂ t - g₁ t).norm, 0, 0⟩, ⟨μ₁ / (μ₁ + μ₂) * ρ', 0, 0⟩⟩) ∧
      (∀ t, ∃ a b, 0 < b ∧ (m t).orthogonalMap.apply (v₂ t - v₁ t) = ⟨a, b, 0⟩) ∧ ∀ t, (m t).orthogonalMap.same = true := by
  have h₁ := parameter_pos hμ hF.1
  have h₂ := parameter_pos hμ hF.2.2.1
  obtain rfl : g₁ = _ := funext hg₁
  obtain rfl : v₁ = _ := funext hv₁
  obtain rfl : g₂ = _ := funext hg₂
  obtain rfl : v₂ = _ := funext hv₂
  have hs : ∀ t, (separation F 0 t).cross (separation F 1 t) ≠ 0 := h
  subst hμ₁ hμ₂
  have happ := barycentric_apply hE hs
  refine ⟨_, barycentric_isFrame hE h₁ h₂ hs, fun t => ?_, fun t => ?_, fun t => (tri_apply (hs t)).2, fun t => rfl⟩
  · refine Eq.trans ?_ ((happ 0 t).trans ?_)
    · congr 1
      ext <;> simp [centre, BarycentricRotating.bodyDerivative]
    · ext <;> simp
  · refine ⟨_, (separation_deriv hE t).1.norm (left_ne_zero (hs t)), ?_, ?_⟩
    · refine Eq.trans (congrArg _ ?_) (happ _ t)
      ext1
      · exact mean_primaries h₁ h₂ 0 t
      · exact mean_primaries h₁ h₂ 1 t
    · refine Eq.trans (congrArg _ ?_) (happ _ t)
      ext1
      · exact mean_secondaries h₁ h₂ 0 t
      · exact mean_secondaries h₁ h₂ 1 t

end Principia.Physics.Frames
