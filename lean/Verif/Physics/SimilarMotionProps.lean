import Verif.Physics.SimilarMotionModel
import Verif.Physics.RigidMotionProps

/-!
Similar motions are the derivatives of similarities.
-/

set_option linter.unusedSimpArgs false
set_option linter.unusedVariables false
set_option linter.unusedSectionVars false

namespace Principia.Physics.Motion

open Geometry

/-! ### Specification -/

/-- The similarity at the time `s` is `S s`, and `m` is the motion at the time `t`: it has the similarity at that time, the angular velocity is the one at which the axes of
the target frame rotate, the velocity is that of the origin of the target frame (the point that is sent to the origin), and the dilatation rate is the
logarithmic derivative of the ratio. -/
structure IsSimilarMotionOf (S : ℝ → Similarity) (m : SimilarMotion) (t : ℝ) : Prop where
  unit : ∀ s, (S s).linearMap.IsUnit
  similarity : m.similarity = S t
  origin : ∃ o : ℝ → R3 ℝ, (∀ s, (S s).applySimilarity (o s) = some 0) ∧ HasDeriv o m.velocityOfToFrameOrigin t
  axes : ∀ e, HasDeriv (fun s => (S s).linearMap.orthogonalMap.inverse.apply e) (m.angularVelocityOfToFrame.cross ((S t).linearMap.orthogonalMap.inverse.apply e)) t
  ratio : HasDerivAt (fun s => (S s).linearMap.scale) (m.dilatationRateOfToFrame * (S t).linearMap.scale) t

/-! ### Values -/

variable {S T : ℝ → Similarity} {m l r : SimilarMotion} {t : ℝ}

/-- The value of a similarity. -/
noncomputable def value (S : Similarity) (p : R3 ℝ) : R3 ℝ := S.linearMap.scale • S.linearMap.orthogonalMap.apply (p - S.fromOrigin) + S.toOrigin

theorem applySimilarity_eq {S : Similarity} (hS : S.linearMap.IsUnit) (p : R3 ℝ) : S.applySimilarity p = some (value S p) := by
  rw [AffineMap.applySimilarity, ConformalMap.apply_eq hS]; rfl

/-- The inverse of a similarity. -/
noncomputable def inverseOf (S : Similarity) : Similarity := ⟨S.toOrigin, S.fromOrigin, ⟨S.linearMap.same, 1 / S.linearMap.scale, S.linearMap.quaternion.conjugate⟩⟩

theorem inverseConformal_eq {L : ConformalMap} (hL : L.IsUnit) : L.inverse = some ⟨L.same, 1 / L.scale, L.quaternion.conjugate⟩ := by
  have hq : L.quaternion.inverse = L.quaternion.conjugate := by
    have h := hL.1
    have h' : L.quaternion.re * L.quaternion.re + L.quaternion.im.dot L.quaternion.im = 1 := by rw [← h]; simp only [Quat.normSq, R3.normSq, R3.dot] <;> ring
    simp only [Quat.inverse]
    rw [h']
    simp only [Quat.divScalar]
    ext <;> simp [R3.div]
  rw [ConformalMap.inverse, hq, ConformalMap.make, if_pos (one_div_pos.2 hL.2)]

theorem inverseSimilarity_eq {S : Similarity} (hS : S.linearMap.IsUnit) : S.inverseSimilarity = some (inverseOf S) := by
  rw [AffineMap.inverseSimilarity, inverseConformal_eq hS]; rfl

theorem inverseOf_unit {S : Similarity} (hS : S.linearMap.IsUnit) : (inverseOf S).linearMap.IsUnit :=
  ⟨OrthogonalMap.inverse_unit (L := S.linearMap.orthogonalMap) hS.1, one_div_pos.2 hS.2⟩

theorem orth_unit {S : Similarity} (hS : S.linearMap.IsUnit) : S.linearMap.orthogonalMap.IsUnit := hS.1

/-- The point that is sent to the origin. -/
noncomputable def originOf (S : Similarity) : R3 ℝ := value (inverseOf S) 0

theorem value_eq {S : Similarity} (hS : S.linearMap.IsUnit) (p : R3 ℝ) : value S p = S.linearMap.scale • S.linearMap.orthogonalMap.apply (p - originOf S) := by
  have hu := orth_unit hS
  have hk : S.linearMap.scale ≠ 0 := hS.2.ne'
  have e : p - originOf S = (p - S.fromOrigin) - (1 / S.linearMap.scale) • S.linearMap.orthogonalMap.inverse.apply (0 - S.toOrigin) := by
    simp only [originOf, value, inverseOf]
    ext <;> simp [OrthogonalMap.inverse, ConformalMap.orthogonalMap] <;> ring
  rw [e, OrthogonalMap.apply_sub hu (p - S.fromOrigin), OrthogonalMap.apply_smul hu, OrthogonalMap.apply_inverse hu]
  simp only [value]
  ext <;> simp <;> field_simp <;> ring

theorem value_injective {S : Similarity} (hS : S.linearMap.IsUnit) {p q : R3 ℝ} (h : value S p = value S q) : p = q := by
  have h1 := (C37_similarity_compose S S hS hS).2
  obtain ⟨i, -, -, hi⟩ := h1
  have hp := (hi p).1
  have hq := (hi q).1
  rw [applySimilarity_eq hS, h, ← applySimilarity_eq hS, hq] at hp
  exact (Option.some.inj hp).symm

theorem value_origin {S : Similarity} (hS : S.linearMap.IsUnit) : value S (originOf S) = 0 := by
  rw [value_eq hS]
  have e : originOf S - originOf S = 0 := by ext <;> simp
  rw [e, OrthogonalMap.apply_zero (orth_unit hS)]
  ext <;> simp

theorem IsSimilarMotionOf.origin' (h : IsSimilarMotionOf S m t) : HasDeriv (fun s => originOf (S s)) m.velocityOfToFrameOrigin t := by
  obtain ⟨o, h1, h2⟩ := h.origin
  refine h2.congr_fun fun s => ?_
  apply value_injective (h.unit s)
  have := h1 s
  rw [applySimilarity_eq (h.unit s)] at this
  rw [value_origin (h.unit s)]
  exact (Option.some.inj this).symm

/-- The result of the application of a motion. -/
noncomputable def applied (m : SimilarMotion) (d : DegreesOfFreedom) : DegreesOfFreedom :=
  ⟨value m.similarity d.position,
   m.dilatationRateOfToFrame • value m.similarity d.position +
     (-m.conformalMap.orthogonalMap.applyBivector m.angularVelocityOfToFrame).cross (value m.similarity d.position) +
     m.conformalMap.scale • m.conformalMap.orthogonalMap.apply (d.velocity - m.velocityOfToFrameOrigin)⟩

theorem angularVelocity_eq (hm : m.conformalMap.IsUnit) :
    m.angularVelocityOfFromFrame = some (-m.conformalMap.orthogonalMap.applyBivector m.angularVelocityOfToFrame) := by
  show (m.conformalMap.applyAngularVelocity m.angularVelocityOfToFrame).map (-·) = _
  rw [ConformalMap.applyAngularVelocity_eq hm]; rfl

theorem apply_eq (hm : m.conformalMap.IsUnit) (d : DegreesOfFreedom) : m.apply d = some (applied m d) := by
  have e : ∀ v : R3 ℝ, v - 0 = v := fun v => by ext <;> simp
  rw [SimilarMotion.apply, applySimilarity_eq hm, angularVelocity_eq hm, ConformalMap.apply_eq hm]
  simp only [Option.bind_eq_bind, Option.bind_some, Option.pure_def, e, bivectorTimesVector, applied]

/-- The inverse of a motion. -/
noncomputable def inverted (m : SimilarMotion) : SimilarMotion :=
  ⟨inverseOf m.similarity, -m.conformalMap.orthogonalMap.applyBivector m.angularVelocityOfToFrame, (applied m ⟨0, 0⟩).velocity, -m.dilatationRateOfToFrame⟩

theorem inverse_eq (hm : m.conformalMap.IsUnit) : m.inverse = some (inverted m) := by
  rw [SimilarMotion.inverse, inverseSimilarity_eq hm, angularVelocity_eq hm, SimilarMotion.velocityOfFromFrameOrigin, apply_eq hm]; rfl

theorem inverted_unit (hm : m.conformalMap.IsUnit) : (inverted m).conformalMap.IsUnit := inverseOf_unit hm

/-- The product of two similarities. -/
noncomputable def mulOf (S T : Similarity) : Similarity :=
  ⟨T.fromOrigin, S.toOrigin + S.linearMap.scale • S.linearMap.orthogonalMap.apply (T.toOrigin - S.fromOrigin),
   ⟨S.linearMap.same == T.linearMap.same, S.linearMap.scale * T.linearMap.scale, S.linearMap.quaternion * T.linearMap.quaternion⟩⟩

theorem mulSimilarity_eq {S T : Similarity} (hS : S.linearMap.IsUnit) (hT : T.linearMap.IsUnit) : S.mulSimilarity T = some (mulOf S T) := by
  rw [AffineMap.mulSimilarity, ConformalMap.apply_eq hS, Option.bind_some, ConformalMap.mul, ConformalMap.make, if_pos (mul_pos hS.2 hT.2)]; rfl

theorem mulOf_unit {S T : Similarity} (hS : S.linearMap.IsUnit) (hT : T.linearMap.IsUnit) : (mulOf S T).linearMap.IsUnit :=
  ⟨(C37_orthogonal_compose S.linearMap.orthogonalMap T.linearMap.orthogonalMap hS.1 hT.1).1, mul_pos hS.2 hT.2⟩

theorem value_mulOf {S T : Similarity} (hS : S.linearMap.IsUnit) (hT : T.linearMap.IsUnit) (p : R3 ℝ) : value (mulOf S T) p = value S (value T p) := by
  obtain ⟨⟨M, h1, h2, h3⟩, -⟩ := C37_similarity_compose S T hS hT
  have h4 := h3 p
  rw [mulSimilarity_eq hS hT] at h1
  cases h1
  rw [applySimilarity_eq hT, Option.bind_some, applySimilarity_eq hS, applySimilarity_eq h2] at h4
  exact Option.some.inj h4

theorem value_inverseOf {S : Similarity} (hS : S.linearMap.IsUnit) (p : R3 ℝ) : value (inverseOf S) (value S p) = p ∧ value S (value (inverseOf S) p) = p := by
  obtain ⟨-, i, h1, h2, h3⟩ := C37_similarity_compose S S hS hS
  rw [inverseSimilarity_eq hS] at h1
  cases h1
  obtain ⟨h4, h5⟩ := h3 p
  rw [applySimilarity_eq hS, Option.bind_some, applySimilarity_eq h2] at h4
  rw [applySimilarity_eq h2, Option.bind_some, applySimilarity_eq hS] at h5
  exact ⟨Option.some.inj h4, Option.some.inj h5⟩

/-- The product of two motions. -/
noncomputable def multiplied (l r : SimilarMotion) : SimilarMotion :=
  ⟨mulOf l.similarity r.similarity, r.angularVelocityOfToFrame + r.conformalMap.orthogonalMap.inverse.applyBivector l.angularVelocityOfToFrame,
   (applied (inverted r) (applied (inverted l) ⟨0, 0⟩)).velocity, l.dilatationRateOfToFrame + r.dilatationRateOfToFrame⟩

theorem mul_eq (hl : l.conformalMap.IsUnit) (hr : r.conformalMap.IsUnit) : l.mul r = some (multiplied l r) := by
  rw [SimilarMotion.mul, mulSimilarity_eq hl hr, inverseConformal_eq hr, inverse_eq hl, inverse_eq hr]
  simp only [Option.bind_eq_bind, Option.bind_some, Option.pure_def]
  rw [apply_eq (inverted_unit hl), Option.bind_some, apply_eq (inverted_unit hr)]
  have hi : (ConformalMap.mk r.conformalMap.same (1 / r.conformalMap.scale) r.conformalMap.quaternion.conjugate).IsUnit := inverted_unit hr
  rw [ConformalMap.applyAngularVelocity_eq hi]
  rfl

/-! ### Derivatives -/

/-- The derivative of a vector that is seen in the target frame, without its scale. -/
theorem IsSimilarMotionOf.vector (h : IsSimilarMotionOf S m t) {u : ℝ → R3 ℝ} {u' : R3 ℝ} (hu : HasDeriv u u' t) :
    HasDeriv (fun s => (S s).linearMap.orthogonalMap.apply (u s)) ((S t).linearMap.orthogonalMap.apply (u' - m.angularVelocityOfToFrame.cross (u t))) t := by
  refine HasDeriv.of_dot fun e => ?_
  have hd : (fun s => ((S s).linearMap.orthogonalMap.apply (u s)).dot e) = fun s => (u s).dot ((S s).linearMap.orthogonalMap.inverse.apply e) :=
    funext fun s => OrthogonalMap.apply_dot (orth_unit (h.unit s)) _ _
  rw [hd, OrthogonalMap.apply_dot (orth_unit (h.unit t))]
  refine (hu.dot (h.axes e)).congr_deriv ?_
  simp only [R3.dot, R3.cross, R3.sub_x, R3.sub_y, R3.sub_z]
  ring

theorem IsSimilarMotionOf.unit' (h : IsSimilarMotionOf S m t) : m.conformalMap.IsUnit := by rw [SimilarMotion.conformalMap, h.similarity]; exact h.unit t

theorem IsSimilarMotionOf.velocity (h : IsSimilarMotionOf S m t) {q : ℝ → R3 ℝ} {v : R3 ℝ} (hq : HasDeriv q v t) :
    HasDeriv (fun s => value (S s) (q s)) (applied m ⟨q t, v⟩).velocity t := by
  refine ((HasDeriv.smul h.ratio (h.vector (hq.sub h.origin'))).congr_fun fun s => value_eq (h.unit s) _).congr_deriv ?_
  simp only [applied, SimilarMotion.conformalMap, h.similarity, value_eq (h.unit t)]
  have hu := orth_unit (h.unit t)
  set L := (S t).linearMap.orthogonalMap
  rw [OrthogonalMap.apply_sub hu (v - m.velocityOfToFrameOrigin), OrthogonalMap.apply_cross hu]
  ext <;> simp [R3.cross] <;> ring

/-- The degrees of freedom obtained by applying a motion are the position and the velocity in the target frame: the velocity is the derivative of the position. -/
theorem C57_similar_velocity (h : IsSimilarMotionOf S m t) {q : ℝ → R3 ℝ} {v : R3 ℝ} (hq : HasDeriv q v t) :
    ∃ d, m.apply ⟨q t, v⟩ = some d ∧ (S t).applySimilarity (q t) = some d.position ∧
      ∃ x : ℝ → R3 ℝ, (∀ s, (S s).applySimilarity (q s) = some (x s)) ∧ HasDeriv x d.velocity t := by
  refine ⟨_, apply_eq h.unit' _, ?_, fun s => value (S s) (q s), fun s => applySimilarity_eq (h.unit s) _, h.velocity hq⟩
  rw [applySimilarity_eq (h.unit t), applied, h.similarity]

theorem IsSimilarMotionOf.inverted (h : IsSimilarMotionOf S m t) : IsSimilarMotionOf (fun s => inverseOf (S s)) (inverted m) t := by
  have hk : (S t).linearMap.scale ≠ 0 := (h.unit t).2.ne'
  refine ⟨fun s => inverseOf_unit (h.unit s), by rw [Motion.inverted, h.similarity], ⟨fun s => value (S s) 0, fun s => ?_, ?_⟩, fun e => ?_, ?_⟩
  · rw [applySimilarity_eq (inverseOf_unit (h.unit s)), (value_inverseOf (h.unit s) 0).1]
  · exact h.velocity (HasDeriv.const 0)
  · have hi : ∀ s, (inverseOf (S s)).linearMap.orthogonalMap.inverse = (S s).linearMap.orthogonalMap := fun s => OrthogonalMap.inverse_inverse (S s).linearMap.orthogonalMap
    refine ((h.vector (HasDeriv.const e)).congr_fun fun s => by rw [hi s]).congr_deriv ?_
    rw [hi t]
    show _ = (-m.conformalMap.orthogonalMap.applyBivector m.angularVelocityOfToFrame).cross _
    have e1 : (0 : R3 ℝ) - m.angularVelocityOfToFrame.cross e = -m.angularVelocityOfToFrame.cross e := by ext <;> simp
    rw [SimilarMotion.conformalMap, h.similarity, e1, OrthogonalMap.apply_neg (orth_unit (h.unit t)), OrthogonalMap.apply_cross (orth_unit (h.unit t))]
    ext <;> simp [R3.cross] <;> ring
  · show HasDerivAt (fun s => 1 / (S s).linearMap.scale) (-m.dilatationRateOfToFrame * (1 / (S t).linearMap.scale)) t
    simp only [one_div]
    refine (h.ratio.inv hk).congr_deriv ?_
    field_simp

/-- The inverse of a motion is the derivative of the inverse similarity. -/
theorem C57_similar_inverse (h : IsSimilarMotionOf S m t) :
    ∃ i S', m.inverse = some i ∧ (∀ s, (S s).inverseSimilarity = some (S' s)) ∧ IsSimilarMotionOf S' i t :=
  ⟨_, _, inverse_eq h.unit', fun s => inverseSimilarity_eq (h.unit s), h.inverted⟩

/-- The product of two motions is the derivative of the composition of the similarities. -/
theorem C57_similar_compose (hl : IsSimilarMotionOf T l t) (hr : IsSimilarMotionOf S r t) :
    ∃ n U, l.mul r = some n ∧ (∀ s, (T s).mulSimilarity (S s) = some (U s)) ∧ IsSimilarMotionOf U n t := by
  refine ⟨_, fun s => mulOf (T s) (S s), mul_eq hl.unit' hr.unit', fun s => mulSimilarity_eq (hl.unit s) (hr.unit s), ?_⟩
  have hli := hl.inverted
  have hri := hr.inverted
  have hlin : ∀ s e, (mulOf (T s) (S s)).linearMap.orthogonalMap.inverse.apply e =
      (S s).linearMap.orthogonalMap.inverse.apply ((T s).linearMap.orthogonalMap.inverse.apply e) := by
    intro s e
    obtain ⟨c1, c2, -⟩ := C37_orthogonal_compose (T s).linearMap.orthogonalMap (S s).linearMap.orthogonalMap (orth_unit (hl.unit s)) (orth_unit (hr.unit s))
    have c3 := c2 ((S s).linearMap.orthogonalMap.inverse.apply ((T s).linearMap.orthogonalMap.inverse.apply e))
    rw [OrthogonalMap.apply_inverse (orth_unit (hr.unit s)), OrthogonalMap.apply_inverse (orth_unit (hl.unit s))] at c3
    have c4 := OrthogonalMap.inverse_apply c1 ((S s).linearMap.orthogonalMap.inverse.apply ((T s).linearMap.orthogonalMap.inverse.apply e))
    rw [c3] at c4
    exact c4
  refine ⟨fun s => mulOf_unit (hl.unit s) (hr.unit s), by rw [multiplied, hl.similarity, hr.similarity],
    ⟨fun s => value (inverseOf (S s)) (value (inverseOf (T s)) 0), fun s => ?_, ?_⟩, fun e => ?_, ?_⟩
  · rw [applySimilarity_eq (mulOf_unit (hl.unit s) (hr.unit s)), value_mulOf (hl.unit s) (hr.unit s), (value_inverseOf (hr.unit s) _).2, (value_inverseOf (hl.unit s) _).2]
  · refine (hri.velocity (hli.velocity (HasDeriv.const 0))).congr_deriv ?_
    have : applied (inverted l) ⟨0, 0⟩ = ⟨value (inverseOf (T t)) 0, (applied (inverted l) ⟨0, 0⟩).velocity⟩ := by
      ext1
      · show value (inverseOf l.similarity) 0 = _
        rw [hl.similarity]
      · rfl
    show _ = (applied (inverted r) (applied (inverted l) ⟨0, 0⟩)).velocity
    rw [this]
  · refine ((hri.vector (hl.axes e)).congr_fun fun s => hlin s e).congr_deriv ?_
    have o1 : (inverseOf (S t)).linearMap.orthogonalMap = (S t).linearMap.orthogonalMap.inverse := rfl
    have o2 : (inverted r).angularVelocityOfToFrame = -(S t).linearMap.orthogonalMap.applyBivector r.angularVelocityOfToFrame := by rw [← hr.similarity]; rfl
    have o3 : (multiplied l r).angularVelocityOfToFrame =
        r.angularVelocityOfToFrame + (S t).linearMap.orthogonalMap.inverse.applyBivector l.angularVelocityOfToFrame := by rw [← hr.similarity]; rfl
    have hu := OrthogonalMap.inverse_unit (orth_unit (hr.unit t))
    rw [o1, o2, o3, hlin t e]
    erw [OrthogonalMap.apply_sub hu, OrthogonalMap.apply_cross hu, OrthogonalMap.apply_cross hu, (OrthogonalMap.applyBivector_linear _ _ 0 0).2.2,
      OrthogonalMap.inverse_applyBivector (orth_unit (hr.unit t))]
    ext <;> simp [R3.cross] <;> ring
  · refine (hl.ratio.mul hr.ratio).congr_deriv ?_
    show _ = (l.dilatationRateOfToFrame + r.dilatationRateOfToFrame) * ((T t).linearMap.scale * (S t).linearMap.scale)
    ring

/-- A rigid transformation, seen as a similarity. -/
def forgotten (B : RigidTransformation) : Similarity := ⟨B.fromOrigin, B.toOrigin, ⟨B.linearMap.same, 1, B.linearMap.quaternion⟩⟩

/-- A rigid motion, seen as a similar motion. -/
def forgottenMotion (m : RigidMotion) : SimilarMotion := ⟨forgotten m.rigidTransformation, m.angularVelocityOfToFrame, m.velocityOfToFrameOrigin, 0⟩

theorem forget_eq (B : RigidTransformation) : B.forget = some (forgotten B) := by
  rw [AffineMap.forget, OrthogonalMap.forgetConformal, ConformalMap.make, if_pos one_pos]; rfl

theorem forgetMotion_eq (m : RigidMotion) : m.forget = some (forgottenMotion m) := by rw [RigidMotion.forget, forget_eq]; rfl

theorem forgotten_unit {B : RigidTransformation} (h : B.linearMap.IsUnit) : (forgotten B).linearMap.IsUnit := ⟨h, one_pos⟩

theorem value_forgotten (B : RigidTransformation) (p : R3 ℝ) : value (forgotten B) p = B.apply p := by
  show (1 : ℝ) • B.linearMap.apply (p - B.fromOrigin) + B.toOrigin = _
  rw [AffineMap.apply]
  ext <;> simp

theorem applied_forgotten {m : RigidMotion} (hm : m.orthogonalMap.IsUnit) (d : DegreesOfFreedom) : applied (forgottenMotion m) d = m.apply d := by
  ext1
  · exact value_forgotten _ _
  · show (0 : ℝ) • value (forgotten m.rigidTransformation) d.position +
      (-m.orthogonalMap.applyBivector m.angularVelocityOfToFrame).cross (value (forgotten m.rigidTransformation) d.position) +
      (1 : ℝ) • m.orthogonalMap.apply (d.velocity - m.velocityOfToFrameOrigin) = (m.apply d).velocity
    rw [value_forgotten, AffineMap.apply_eq _ hm]
    show _ + (-m.orthogonalMap.applyBivector m.angularVelocityOfToFrame).cross (m.orthogonalMap.apply _) + _ =
      m.orthogonalMap.apply (d.velocity - m.velocityOfToFrameOrigin - m.angularVelocityOfToFrame.cross (d.position - m.rigidTransformation.inverse.apply 0))
    rw [OrthogonalMap.apply_sub hm (d.velocity - m.velocityOfToFrameOrigin), OrthogonalMap.apply_cross hm]
    ext <;> simp [R3.cross] <;> ring

theorem IsMotionOf.forgotten {A : ℝ → RigidTransformation} {m : RigidMotion} (h : IsMotionOf A m t) :
    IsSimilarMotionOf (fun s => Motion.forgotten (A s)) (forgottenMotion m) t := by
  refine ⟨fun s => forgotten_unit (h.unit s), by rw [forgottenMotion, h.transformation], ⟨fun s => (A s).inverse.apply 0, fun s => ?_, h.origin⟩, h.axes, ?_⟩
  · rw [applySimilarity_eq (forgotten_unit (h.unit s)), value_forgotten]
    exact congrArg some (C37_rigid_compose (A s) (A s) (h.unit s) (h.unit s) 0).2.2.2.2
  · exact (hasDerivAt_const _ _).congr_deriv (by simp [forgottenMotion])

/-- A rigid motion is a similar motion with the same effects. -/
theorem C57_forget {A : ℝ → RigidTransformation} {m : RigidMotion} (h : IsMotionOf A m t) :
    ∃ n S, m.forget = some n ∧ (∀ s, (A s).forget = some (S s)) ∧ IsSimilarMotionOf S n t ∧ ∀ d, n.apply d = some (m.apply d) := by
  have hm : m.orthogonalMap.IsUnit := by rw [RigidMotion.orthogonalMap, h.transformation]; exact h.unit t
  refine ⟨_, _, forgetMotion_eq m, fun s => forget_eq _, h.forgotten, fun d => ?_⟩
  rw [apply_eq h.forgotten.unit', applied_forgotten hm]

/-- A dilatation about the origin, as a similarity. -/
noncomputable def dilatation (k : ℝ) : Similarity := ⟨0, 0, ⟨true, k, Quat.ofReal 1⟩⟩

theorem dilatation_unit {k : ℝ} (h : 0 < k) : (dilatation k).linearMap.IsUnit := ⟨by simp [dilatation, Quat.normSq, Quat.ofReal, R3.normSq], h⟩

theorem value_dilatation {k : ℝ} (h : 0 < k) (p : R3 ℝ) : value (dilatation k) p = k • p := by
  show k • (OrthogonalMap.identity : OrthogonalMap ℝ).apply (p - 0) + 0 = k • p
  rw [((C37_orthogonal_inverse OrthogonalMap.identity (dilatation_unit h).1).2.2.2.2 _).1]
  ext <;> simp

theorem dilatationAboutOrigin_eq {h : Homothecy} (hpos : 0 < h.scale) (rate : ℝ) :
    SimilarMotion.dilatationAboutOrigin h rate = some ⟨dilatation h.scale, 0, 0, rate⟩ := by
  rw [SimilarMotion.dilatationAboutOrigin, Homothecy.forgetConformal, ConformalMap.make, if_pos hpos]; rfl

theorem dilatation_motion {k : ℝ → ℝ} {rate : ℝ} (hpos : ∀ s, 0 < k s) (hr : HasDerivAt k (rate * k t) t) :
    IsSimilarMotionOf (fun s => dilatation (k s)) ⟨dilatation (k t), 0, 0, rate⟩ t := by
  refine ⟨fun s => dilatation_unit (hpos s), rfl, ⟨fun _ => 0, fun s => ?_, HasDeriv.const 0⟩, fun e => ?_, hr⟩
  · rw [applySimilarity_eq (dilatation_unit (hpos s)), value_dilatation (hpos s)]
    congr 1
    ext <;> simp
  · show HasDeriv (fun s => (⟨true, (Quat.ofReal 1).conjugate⟩ : OrthogonalMap ℝ).apply e) _ t
    refine (HasDeriv.const _).congr_deriv ?_
    ext <;> simp [R3.cross]

/-- A dilatation about the origin whose ratio depends on the time. -/
theorem C57_dilatation (h : ℝ → Homothecy) (rate : ℝ) (hpos : ∀ s, 0 < (h s).scale) (hr : HasDerivAt (fun s => (h s).scale) (rate * (h t).scale) t) :
    ∃ n S, SimilarMotion.dilatationAboutOrigin (h t) rate = some n ∧ (∀ s p, (S s).applySimilarity p = some ((h s).apply p)) ∧ IsSimilarMotionOf S n t := by
  refine ⟨_, _, dilatationAboutOrigin_eq (hpos t) rate, fun s p => ?_, dilatation_motion hpos hr⟩
  rw [applySimilarity_eq (dilatation_unit (hpos s)), value_dilatation (hpos s)]; rfl

theorem value_sub {S : Similarity} (hS : S.linearMap.IsUnit) (p q : R3 ℝ) : value S p - value S q = S.linearMap.scale • S.linearMap.orthogonalMap.apply (p - q) := by
  have e : p - q = (p - S.fromOrigin) - (q - S.fromOrigin) := by ext <;> simp
  rw [e, OrthogonalMap.apply_sub (orth_unit hS) (p - S.fromOrigin) (q - S.fromOrigin), value, value]
  ext <;> simp <;> ring

/-- The difference between the velocities of two points. -/
theorem applied_sub (hm : m.conformalMap.IsUnit) (d d' : DegreesOfFreedom) :
    (applied m d).velocity - (applied m d').velocity =
      m.conformalMap.scale • m.conformalMap.orthogonalMap.apply (m.dilatationRateOfToFrame • (d.position - d'.position) -
        m.angularVelocityOfToFrame.cross (d.position - d'.position) + (d.velocity - d'.velocity)) := by
  have hu : m.conformalMap.orthogonalMap.IsUnit := hm.1
  rw [OrthogonalMap.apply_add hu, OrthogonalMap.apply_sub hu (_ • _), OrthogonalMap.apply_smul hu, OrthogonalMap.apply_cross hu]
  have hv : value m.similarity d.position = value m.similarity d'.position + m.conformalMap.scale • m.conformalMap.orthogonalMap.apply (d.position - d'.position) := by
    have h := value_sub (S := m.similarity) hm d.position d'.position
    have e : ∀ a b c : R3 ℝ, a - b = c → a = b + c := fun a b c h => by rw [← h]; ext <;> simp
    exact e _ _ _ h
  simp only [applied, hv]
  have hw : m.conformalMap.orthogonalMap.apply (d.velocity - m.velocityOfToFrameOrigin) =
      m.conformalMap.orthogonalMap.apply (d'.velocity - m.velocityOfToFrameOrigin) + m.conformalMap.orthogonalMap.apply (d.velocity - d'.velocity) := by
    rw [← OrthogonalMap.apply_add hu]
    congr 1
    ext <;> simp
  rw [hw]
  ext <;> simp [R3.cross] <;> ring

theorem inverted_applied (hm : m.conformalMap.IsUnit) (d : DegreesOfFreedom) : applied (inverted m) (applied m d) = d := by
  have hu : m.conformalMap.orthogonalMap.IsUnit := hm.1
  have hk : m.conformalMap.scale ≠ 0 := hm.2.ne'
  have hp : value (inverseOf m.similarity) (value m.similarity d.position) = d.position := (value_inverseOf hm _).1
  ext1
  · exact hp
  · show -m.dilatationRateOfToFrame • value (inverseOf m.similarity) (value m.similarity d.position) +
      (-m.conformalMap.orthogonalMap.inverse.applyBivector (-m.conformalMap.orthogonalMap.applyBivector m.angularVelocityOfToFrame)).cross
        (value (inverseOf m.similarity) (value m.similarity d.position)) +
      (1 / m.conformalMap.scale) • m.conformalMap.orthogonalMap.inverse.apply ((applied m d).velocity - (applied m ⟨0, 0⟩).velocity) = d.velocity
    rw [applied_sub hm, hp, OrthogonalMap.apply_smul (OrthogonalMap.inverse_unit hu), OrthogonalMap.inverse_apply hu, (OrthogonalMap.applyBivector_linear _ _ 0 0).2.2,
      OrthogonalMap.inverse_applyBivector hu]
    ext <;> simp [R3.cross] <;> field_simp <;> ring

theorem inverted_inverted (hm : m.conformalMap.IsUnit) : inverted (inverted m) = m := by
  have hu : m.conformalMap.orthogonalMap.IsUnit := hm.1
  have hk : m.conformalMap.scale ≠ 0 := hm.2.ne'
  have hs : inverseOf (inverseOf m.similarity) = m.similarity := by
    obtain ⟨⟨f, o, ⟨b, k, q⟩⟩, ω, v, a⟩ := m
    simp only [inverseOf, one_div_one_div]
    congr 2
    ext <;> simp [Quat.conjugate]
  refine SimilarMotion.ext hs ?_ ?_ (neg_neg _)
  · show -m.conformalMap.orthogonalMap.inverse.applyBivector (-m.conformalMap.orthogonalMap.applyBivector m.angularVelocityOfToFrame) = _
    rw [(OrthogonalMap.applyBivector_linear _ _ 0 0).2.2, OrthogonalMap.inverse_applyBivector hu]
    ext <;> simp
  · -- The origin of the target frame and its velocity are sent to zero.
    have h0 : applied m ⟨originOf m.similarity, m.velocityOfToFrameOrigin⟩ = ⟨0, 0⟩ := by
      have e : m.velocityOfToFrameOrigin - m.velocityOfToFrameOrigin = 0 := by ext <;> simp
      simp only [applied, value_origin (S := m.similarity) hm, e, OrthogonalMap.apply_zero hu]
      congr 1
      ext <;> simp [R3.cross]
    show (applied (inverted m) ⟨0, 0⟩).velocity = _
    rw [← h0, inverted_applied hm]

theorem applied_inverted (hm : m.conformalMap.IsUnit) (d : DegreesOfFreedom) : applied m (applied (inverted m) d) = d := by
  have h := inverted_applied (inverted_unit hm) d
  rwa [inverted_inverted hm] at h

/-- Applying the inverse of a motion undoes its application, and applying a product is applying the factors one after the other. -/
theorem C57_similar_group (hl : l.conformalMap.IsUnit) (hr : r.conformalMap.IsUnit) (d : DegreesOfFreedom) :
    (∃ n, l.mul r = some n ∧ n.apply d = (r.apply d).bind l.apply) ∧
      (∃ i, r.inverse = some i ∧ (r.apply d).bind i.apply = some d ∧ (i.apply d).bind r.apply = some d ∧ i.inverse = some r) ∧
      ∃ n, SimilarMotion.identity = some n ∧ n.apply d = some d := by
  refine ⟨⟨_, mul_eq hl hr, ?_⟩, ⟨_, inverse_eq hr, ?_, ?_, ?_⟩, ?_⟩
  · rw [apply_eq hr, Option.bind_some, apply_eq hl]
    have hn : (multiplied l r).conformalMap.IsUnit := mulOf_unit hl hr
    rw [apply_eq hn]
    congr 1
    obtain ⟨c1, c2, -⟩ := C37_orthogonal_compose l.conformalMap.orthogonalMap r.conformalMap.orthogonalMap hl.1 hr.1
    have c1' : (multiplied l r).conformalMap.orthogonalMap.IsUnit := c1
    have hul : l.conformalMap.orthogonalMap.IsUnit := hl.1
    have hur : r.conformalMap.orthogonalMap.IsUnit := hr.1
    have hv : ∀ p, value (mulOf l.similarity r.similarity) p = value l.similarity (value r.similarity p) := fun p => value_mulOf hl hr p
    ext1
    · exact hv _
    · set d0 := applied (inverted r) (applied (inverted l) ⟨0, 0⟩) with hd0
      have h0 : applied l (applied r d0) = ⟨0, 0⟩ := by rw [hd0, applied_inverted hr, applied_inverted hl]
      have h0' : applied (multiplied l r) d0 = ⟨0, 0⟩ := by
        have hp : value (mulOf l.similarity r.similarity) d0.position = 0 := by
          rw [hv]
          exact congrArg DegreesOfFreedom.position h0
        ext1
        · exact hp
        · show _ • value (mulOf l.similarity r.similarity) d0.position + R3.cross _ (value (mulOf l.similarity r.similarity) d0.position) +
            _ • (multiplied l r).conformalMap.orthogonalMap.apply (d0.velocity - d0.velocity) = 0
          have e : d0.velocity - d0.velocity = 0 := by ext <;> simp
          rw [hp, e, OrthogonalMap.apply_zero c1']
          ext <;> simp [R3.cross]
      have h1 : ∀ v : R3 ℝ, v = v - (DegreesOfFreedom.mk 0 0).velocity := fun v => by ext <;> simp
      rw [h1 (applied (multiplied l r) d).velocity, h1 (applied l (applied r d)).velocity]
      nth_rewrite 1 [← h0']
      rw [← h0, applied_sub hn, applied_sub hl, applied_sub hr]
      show _ • (l.conformalMap.orthogonalMap.mul r.conformalMap.orthogonalMap).apply _ =
        _ • l.conformalMap.orthogonalMap.apply (_ • (value r.similarity d.position - value r.similarity d0.position) -
          l.angularVelocityOfToFrame.cross (value r.similarity d.position - value r.similarity d0.position) + _)
      rw [value_sub (S := r.similarity) hr, c2]
      show _ = l.conformalMap.scale • l.conformalMap.orthogonalMap.apply (_ • (r.conformalMap.scale • r.conformalMap.orthogonalMap.apply _) -
          l.angularVelocityOfToFrame.cross (r.conformalMap.scale • r.conformalMap.orthogonalMap.apply _) + _)
      show (l.conformalMap.scale * r.conformalMap.scale) • _ = _
      set P := d.position - d0.position
      set V := d.velocity - d0.velocity
      have h2 : l.angularVelocityOfToFrame.cross (r.conformalMap.scale • r.conformalMap.orthogonalMap.apply P) =
          r.conformalMap.scale • r.conformalMap.orthogonalMap.apply ((r.conformalMap.orthogonalMap.inverse.applyBivector l.angularVelocityOfToFrame).cross P) := by
        rw [OrthogonalMap.apply_cross hur, OrthogonalMap.applyBivector_inverse hur]
        ext <;> simp [R3.cross] <;> ring
      have h3 : l.dilatationRateOfToFrame • (r.conformalMap.scale • r.conformalMap.orthogonalMap.apply P) =
          r.conformalMap.scale • r.conformalMap.orthogonalMap.apply (l.dilatationRateOfToFrame • P) := by
        rw [OrthogonalMap.apply_smul hur]
        ext <;> simp <;> ring
      have hs : ∀ a b : R3 ℝ, r.conformalMap.scale • a - r.conformalMap.scale • b = r.conformalMap.scale • (a - b) := fun a b => by ext <;> simp <;> ring
      have ha : ∀ a b : R3 ℝ, r.conformalMap.scale • a + r.conformalMap.scale • b = r.conformalMap.scale • (a + b) := fun a b => by ext <;> simp <;> ring
      have hm : ∀ (a b : ℝ) (v : R3 ℝ), a • (b • v) = (a * b) • v := fun a b v => by ext <;> simp <;> ring
      rw [h2, h3, hs, ← OrthogonalMap.apply_sub hur, ha, ← OrthogonalMap.apply_add hur, OrthogonalMap.apply_smul hul, hm]
      congr 3
      show (l.dilatationRateOfToFrame + r.dilatationRateOfToFrame) • P -
        (r.angularVelocityOfToFrame + r.conformalMap.orthogonalMap.inverse.applyBivector l.angularVelocityOfToFrame).cross P + V = _
      ext <;> simp [R3.cross] <;> ring
  · rw [apply_eq hr, Option.bind_some, apply_eq (inverted_unit hr), inverted_applied hr]
  · rw [apply_eq (inverted_unit hr), Option.bind_some, apply_eq hr, applied_inverted hr]
  · rw [inverse_eq (inverted_unit hr), inverted_inverted hr]
  · have hu : (ConformalMap.mk true 1 (Quat.ofReal 1)).IsUnit := ⟨by simp [Quat.normSq, Quat.ofReal, R3.normSq], one_pos⟩
    refine ⟨⟨⟨0, 0, ConformalMap.mk true 1 (Quat.ofReal 1)⟩, 0, 0, 0⟩, ?_, ?_⟩
    · rw [SimilarMotion.identity, ConformalMap.identity, ConformalMap.make, if_pos one_pos]; rfl
    · have ho : ∀ v, (OrthogonalMap.identity : OrthogonalMap ℝ).apply v = v := fun v => ((C37_orthogonal_inverse OrthogonalMap.identity hu.1).2.2.2.2 v).1
      refine (apply_eq (m := ⟨⟨0, 0, ConformalMap.mk true 1 (Quat.ofReal 1)⟩, 0, 0, 0⟩) hu d).trans ?_
      congr 1
      have hv : value ⟨0, 0, ConformalMap.mk true 1 (Quat.ofReal 1)⟩ d.position = d.position := by
        show (1 : ℝ) • (OrthogonalMap.identity : OrthogonalMap ℝ).apply (d.position - 0) + 0 = _
        rw [ho]
        ext <;> simp
      ext1
      · exact hv
      · show (0 : ℝ) • value _ d.position + (-(OrthogonalMap.identity : OrthogonalMap ℝ).applyBivector 0).cross (value _ d.position) +
          (1 : ℝ) • (OrthogonalMap.identity : OrthogonalMap ℝ).apply (d.velocity - 0) = _
        rw [ho, ((C37_orthogonal_inverse OrthogonalMap.identity hu.1).2.2.2.2 0).2]
        ext <;> simp [R3.cross]

/-- A similarity that is not rigid and depends on the time meets the hypotheses: a frame that dilates exponentially, seen from a frame that turns and moves. -/
example (t : ℝ) : ∃ n S, IsSimilarMotionOf S n t ∧ n.dilatationRateOfToFrame = 2 := by
  obtain ⟨n, S, h1, -, h⟩ := C57_dilatation (t := t) (fun s => ⟨Real.exp (2 * s)⟩) 2 (fun s => Real.exp_pos _)
    (by
      refine (((hasDerivAt_id t).const_mul 2).exp).congr_deriv ?_
      simp [mul_comm])
  obtain ⟨n', S', k1, -, k, -⟩ := C57_forget (turntable_motion t)
  obtain ⟨p, U, e, -, h3⟩ := C57_similar_compose h k
  refine ⟨p, U, h3, ?_⟩
  rw [mul_eq h.unit' k.unit'] at e
  cases e
  have a1 : n.dilatationRateOfToFrame = 2 := by
    rw [SimilarMotion.dilatationAboutOrigin, Homothecy.forgetConformal, ConformalMap.make, if_pos (Real.exp_pos _)] at h1
    cases h1; rfl
  have a2 : n'.dilatationRateOfToFrame = 0 := by
    rw [RigidMotion.forget, AffineMap.forget, OrthogonalMap.forgetConformal, ConformalMap.make, if_pos one_pos] at k1
    cases k1; rfl
  show n.dilatationRateOfToFrame + n'.dilatationRateOfToFrame = 2
  rw [a1, a2, add_zero]

end Principia.Physics.Motion
