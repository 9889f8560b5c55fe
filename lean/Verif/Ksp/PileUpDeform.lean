import Verif.Ksp.PileUpSystem

/-!
Lemmas about the deformation and the rotation of a pile-up.
-/

set_option linter.unusedSimpArgs false
set_option linter.unusedVariables false
set_option linter.unusedSectionVars false

namespace Principia.Ksp.PileUp

open Geometry Physics.Motion Physics.Mechanical Physics.Euler

variable {ι : Type} {w : World} {matter : Matter} {u : PileUp ι}

/-! ## Rotations of forms -/

theorem inverse_apply_congr {R r : Rotation ℝ} (hR : R.IsUnit) (hr : r.IsUnit) (h : ∀ v, R.apply v = r.apply v) (v : R3 ℝ) : R.inverse.apply v = r.inverse.apply v := by
  conv_lhs => rw [← Rotation.apply_inverse' hr v, ← h, Rotation.inverse_apply' hR]

theorem symmetric_sub {m n : M3 ℝ} (hm : m.Symmetric) (hn : n.Symmetric) : (m - n).Symmetric := by
  rw [symmetric_iff] at hm hn ⊢
  simp only [M3.sub_rowX, M3.sub_rowY, M3.sub_rowZ, R3.sub_x, R3.sub_y, R3.sub_z]
  rw [hm.1, hm.2.1, hm.2.2, hn.1, hn.2.1, hn.2.2]
  exact ⟨rfl, rfl, rfl⟩

theorem mulVec_sub' (m n : M3 ℝ) (v : R3 ℝ) : (m - n).mulVec v = m.mulVec v - n.mulVec v := by
  ext <;> simp [M3.mulVec, R3.dot] <;> ring

/-- If `R` is `r` followed by `Q`, the distance between images is preserved. -/
theorem balanced_turn {R Q r : Rotation ℝ} {D J : M3 ℝ} (hR : R.IsUnit) (hQ : Q.IsUnit) (hr : r.IsUnit) (h : ∀ v, R.apply v = Q.apply (r.apply v)) (hD : D.Symmetric)
    (hJ : J.Symmetric) (hb : Form.frobeniusNorm (r.applyForm D - J) ≤ 2 ^ (-57 : ℤ) * Form.frobeniusNorm J) :
    Form.frobeniusNorm (R.applyForm D - Q.applyForm J) ≤ 2 ^ (-57 : ℤ) * Form.frobeniusNorm (Q.applyForm J) := by
  have hs := (Rotation.C36_form r hr D hD).1
  have e : R.applyForm D - Q.applyForm J = Q.applyForm (r.applyForm D - J) := by
    refine mulVec_ext fun v => ?_
    rw [mulVec_sub', Rotation.applyForm_mulVec' hR hD, Rotation.applyForm_mulVec' hQ hJ, Rotation.applyForm_mulVec' hQ (symmetric_sub hs hJ), mulVec_sub', Rotation.apply_sub',
      Rotation.applyForm_mulVec' hr hD, h]
    have hi : R.inverse.apply v = r.inverse.apply (Q.inverse.apply v) := by
      have : R.apply (r.inverse.apply (Q.inverse.apply v)) = v := by rw [h, Rotation.apply_inverse' hr, Rotation.apply_inverse' hQ]
      conv_lhs => rw [← this, Rotation.inverse_apply' hR]
    rw [hi]
  rw [e, Rotation.applyForm_frobenius hQ (symmetric_sub hs hJ), Rotation.applyForm_frobenius hQ hJ]
  exact hb

theorem diagonal_symmetric (d : R3 ℝ) : (M3.diagonal d).Symmetric := by simp [M3.Symmetric, M3.diagonal, M3.transpose]

theorem diagonal_angularVelocity {d : R3 ℝ} (hd : 0 < d.x ∧ d.x ≤ d.y ∧ d.y ≤ d.z) (m : R3 ℝ) : (M3.diagonal d).mulVec (angularVelocity d m) = m := by
  have h1 := hd.1.ne'
  have h2 := (hd.1.trans_le hd.2.1).ne'
  have h3 := (hd.1.trans_le (hd.2.1.trans hd.2.2)).ne'
  ext <;> simp [M3.mulVec, M3.diagonal, angularVelocity, R3.dot] <;> field_simp

theorem frobenius_neg (M N : M3 ℝ) : Form.frobeniusNorm (M - N) = Form.frobeniusNorm (N - M) := by
  simp only [Form.frobeniusNorm, R3.normSq, M3.sub_rowX, M3.sub_rowY, M3.sub_rowZ, R3.sub_x, R3.sub_y, R3.sub_z]
  congr 1; ring

/-- Particles whose inertia tensor is close to the one that the Euler solver uses have the angular momentum that it uses. -/
theorem hasAngularMomentum {ps : List Particle} {L d m ω : R3 ℝ} {R : Rotation ℝ} {J : M3 ℝ} (hd : 0 < d.x ∧ d.x ≤ d.y ∧ d.y ≤ d.z) (hR : R.IsUnit) (hJ : ∀ v, J.mulVec v = spin 0 ps v)
    (ha : angularMomentumAbout ⟨0, 0⟩ ps = J.mulVec ω) (hb : Form.frobeniusNorm (R.applyForm (M3.diagonal d) - J) ≤ 2 ^ (-57 : ℤ) * Form.frobeniusNorm J)
    (hL : R.apply m = L) (hω : ω = R.apply (angularVelocity d m)) : HasAngularMomentum ps L := by
  refine ⟨J, ω, hJ, ha, ?_⟩
  have e : L = (R.applyForm (M3.diagonal d)).mulVec ω := by
    rw [hω, Rotation.applyForm_mulVec hR (diagonal_symmetric d), diagonal_angularVelocity hd, hL]
  rw [ha, e, ← mulVec_sub']
  refine (Form.mulVec_norm_le _ _).trans ?_
  rw [frobenius_neg]
  exact mul_le_mul_of_nonneg_right hb (Real.sqrt_nonneg _)

/-! ## The Euler solver of a pile-up -/

/-- The Euler solver of a pile-up computes the free rotation `R`, and at time `s` the positions of the parts are given by the rotation and by the rigid pile-up. -/
structure Solved (u : PileUp ι) (s : ℝ) (d : R3 ℝ) (A : Rotation ℝ) (t₀ : ℝ) (m : ℝ → R3 ℝ) (R : ℝ → Rotation ℝ) : Prop where
  moments : 0 < d.x ∧ d.x ≤ d.y ∧ d.y ≤ d.z
  attitude : A.IsUnit
  free : FreeRotation d u.angularMomentum A t₀ m R
  solver : ∃ solver, u.eulerSolver = some solver ∧ Physics.Euler.make (M3.diagonal d) u.angularMomentum A t₀ = some solver ∧
    ∀ t, solver.motionAt t ⟨0, 0⟩ = some (rotating (R t) ((R t).apply (angularVelocity d (m t))))
  rigid : ∀ x ∈ u.actual, x.2.orthogonalMap.IsUnit ∧ ∃ T, u.rigidPileUp.find x.1 = some T ∧ T.linearMap.IsUnit ∧
    ∀ p, (x.2.apply ⟨p, 0⟩).position = (R s).apply (T.apply p)

/-- The particles of the parts are balanced around the origin, and their inertia tensor is, within the accuracy of its diagonalization, the one that the Euler solver uses. -/
structure Balanced (matter : Matter) (u : PileUp ι) (s : ℝ) (d : R3 ℝ) (R : ℝ → Rotation ℝ) : Prop where
  centre : firstMoment (moving matter u.actual) = 0
  inertia : ∃ J : M3 ℝ, J.Symmetric ∧ (∀ v, J.mulVec v = spin 0 (moving matter u.actual) v) ∧
    Form.frobeniusNorm ((R s).applyForm (M3.diagonal d) - J) ≤ 2 ^ (-57 : ℤ) * Form.frobeniusNorm J

/-- The rotation between two times. -/
noncomputable def between (R : ℝ → Rotation ℝ) (r : Rotation ℝ) (t : ℝ) : Rotation ℝ := (R t).mul r.inverse

theorem between_unit {R : ℝ → Rotation ℝ} (hR : ∀ t, (R t).IsUnit) {r : Rotation ℝ} (hr : r.IsUnit) (t : ℝ) : (between R r t).IsUnit :=
  (Rotation.C36_compose _ _ (hR t) (Rotation.inverse_unit' hr) 0).1

theorem between_apply {R : ℝ → Rotation ℝ} (hR : ∀ t, (R t).IsUnit) {r : Rotation ℝ} (hr : r.IsUnit) (t : ℝ) (v : R3 ℝ) :
    (between R r t).apply v = (R t).apply (r.inverse.apply v) := (Rotation.C36_compose _ _ (hR t) (Rotation.inverse_unit' hr) v).2

theorem between_turning {d L : R3 ℝ} {A : Rotation ℝ} {t₀ : ℝ} {m : ℝ → R3 ℝ} {R : ℝ → Rotation ℝ} (h : FreeRotation d L A t₀ m R) {r : Rotation ℝ} (hr : r.IsUnit) :
    Turning (between R r) fun t => (R t).apply (angularVelocity d (m t)) := by
  refine ⟨between_unit h.unit hr, fun t v => ?_⟩
  have := h.attitude t (r.inverse.apply v)
  simp only [between_apply h.unit hr]
  exact this

theorem linear_inverse_transformation (c : DegreesOfFreedom) : (fromCentre c).inverse.orthogonalMap.IsUnit := by
  rw [linearMotion_inverse]
  show (OrthogonalMap.identity.inverse : OrthogonalMap ℝ).IsUnit
  rw [identity_inverse]; exact identity_unit

theorem mul_unit {l r : RigidMotion} (hl : l.orthogonalMap.IsUnit) (hr : r.orthogonalMap.IsUnit) : (l.mul r).orthogonalMap.IsUnit :=
  (C37_orthogonal_compose l.orthogonalMap r.orthogonalMap hl hr).1

theorem mul_apply {l r : RigidMotion} (hl : l.orthogonalMap.IsUnit) (hr : r.orthogonalMap.IsUnit) (d : DegreesOfFreedom) : (l.mul r).apply d = l.apply (r.apply d) :=
  (C57_group hl hr d).1

/-- The correction that is applied to the motions of the parts. -/
theorem correction_apply {R r : Rotation ℝ} (hR : R.IsUnit) (hr : r.IsUnit) (ω ωₐ : R3 ℝ) (c d : DegreesOfFreedom) {Q : Rotation ℝ} (hQ : ∀ v, Q.apply v = R.apply (r.inverse.apply v)) :
    (((rotating R ω).mul (rotating r ωₐ).inverse).mul (fromCentre c).inverse).apply d = turned c ωₐ Q ω d := by
  have h1 := rotating_unit hR ω
  have h2 := RigidMotion.inverse_unit (rotating_unit hr ωₐ)
  have h3 := linear_inverse_transformation c
  rw [mul_apply (mul_unit h1 h2) h3, mul_apply h1 h2, toSystemFrame_apply, rotating_inverse_apply hr, rotating_apply hR]
  simp only [turned, hQ]

theorem correction_unit {R r : Rotation ℝ} (hR : R.IsUnit) (hr : r.IsUnit) (ω ωₐ : R3 ℝ) (c : DegreesOfFreedom) :
    (((rotating R ω).mul (rotating r ωₐ).inverse).mul (fromCentre c).inverse).orthogonalMap.IsUnit :=
  mul_unit (mul_unit (rotating_unit hR ω) (RigidMotion.inverse_unit (rotating_unit hr ωₐ))) (linear_inverse_transformation c)

/-- The particles after a correction. -/
theorem moving_turn {l : PartTo RigidMotion} {f : ℕ × RigidMotion → RigidMotion} {c : DegreesOfFreedom} {ωₐ ω : R3 ℝ} {Q : Rotation ℝ}
    (h : ∀ x ∈ l, ∀ d, (f x).apply d = turned c ωₐ Q ω (x.2.apply d)) : moving matter (l.map fun x => (x.1, f x)) = turn c ωₐ Q ω (moving matter l) := by
  induction l with
  | nil => rfl
  | cons x l ih =>
    rw [List.map_cons, moving_cons, moving_cons, ih fun y hy => h y (List.mem_cons_of_mem _ hy)]
    simp only [turn, List.map_append, List.map_map]
    congr 1
    refine List.map_congr_left fun y _ => ?_
    simp only [Function.comp_apply, h x List.mem_cons_self]

theorem directions_eq (parts : List ℕ) (motions : PartTo RigidMotion) (f : ℕ → RigidMotion) (h : ∀ p ∈ parts, motions.find p = some (f p)) :
    PileUp.directions parts motions = some (axes parts f) := by
  have key : ∀ (parts : List ℕ) (acc : List (R3 ℝ)), (∀ p ∈ parts, motions.find p = some (f p)) →
      parts.foldlM (fun result part => (motions.find part).map fun m =>
        result ++ [m.orthogonalMap.apply ⟨1, 0, 0⟩, m.orthogonalMap.apply ⟨0, 1, 0⟩, m.orthogonalMap.apply ⟨0, 0, 1⟩]) acc = some (acc ++ axes parts f) := by
    intro parts
    induction parts with
    | nil => intro acc _; simp [axes]
    | cons p parts ih =>
      intro acc hp
      rw [List.foldlM_cons, hp p List.mem_cons_self]
      simp only [Option.map_some]
      refine (ih _ fun q hq => hp q (List.mem_cons_of_mem _ hq)).trans ?_
      simp [axes]
  exact (key parts [] h).trans (by simp)

theorem normalize_unit {q : Quat ℝ} (h : q.normSq = 1) : q.normalize = some q := by
  have hn : q.norm = 1 := by rw [Quat.norm, h, Real.sqrt_one]
  rw [Quat.normalize, hn, if_neg one_ne_zero]
  congr 1
  ext <;> simp [Quat.divScalar, R3.div]

theorem fromCentre_rotation (c : DegreesOfFreedom) : (fromCentre c).orthogonalMap.makeRotation = ⟨Quat.ofReal 1⟩ := by
  show (OrthogonalMap.identity.inverse.inverse : OrthogonalMap ℝ).makeRotation = _
  rw [identity_inverse, identity_inverse]
  rfl

/-! ## Deformation -/

set_option maxHeartbeats 1000000 in
theorem deform_spec {env : Env ι} {position : ι → Point} (henv : env.Correct position) {back : Point} {t : ℝ} {f g : ℕ → RigidMotion} (hne : u.apparent ≠ [])
    (hk : Known w matter u.apparent) (hn : (PartTo.keys u.apparent).Nodup) (hl : u.parts.length = u.apparent.length) (hf : ∀ p ∈ u.parts, u.actual.find p = some (f p))
    (hg : ∀ p ∈ u.parts, u.apparent.find p = some (g p)) (hb : u.back = some back) :
    ∃ (u' : PileUp ι) (c : DegreesOfFreedom) (ωₐ d : R3 ℝ) (A : Rotation ℝ) (m : ℝ → R3 ℝ) (R : ℝ → Rotation ℝ) (Q : ℝ → Rotation ℝ) (ω : ℝ → R3 ℝ),
      u.deform env w t = some u' ∧
      u' = { u with angularMomentum := u'.angularMomentum, eulerSolver := u'.eulerSolver, actual := u'.actual, rigidPileUp := u'.rigidPileUp, apparent := [] } ∧
      u'.angularMomentum = u.angularMomentum + ((t - back.time) • u.intrinsicTorque + u.angularMomentumChange) ∧
      (totalMass (moving matter u.apparent) • c.position = firstMoment (moving matter u.apparent) ∧
        totalMass (moving matter u.apparent) • c.velocity = momentum (moving matter u.apparent)) ∧
      spin c.position (moving matter u.apparent) ωₐ = angularMomentumAbout c (moving matter u.apparent) ∧
      Turning Q ω ∧ (∀ v, (Q back.time).apply v = (env.davenport (axes u.parts f) (axes u.parts g) (u.parts.flatMap fun p => [(w p).mass, (w p).mass, (w p).mass])).inverse.apply v) ∧
      (∃ h : ℕ × RigidMotion → RigidMotion, u'.actual = u.apparent.map (fun x => (x.1, h x)) ∧
        ∀ x ∈ u.apparent, (h x).orthogonalMap.IsUnit ∧ ∀ d, (h x).apply d = turned c ωₐ (Q t) (ω t) (x.2.apply d)) ∧
      moving matter u'.actual = turn c ωₐ (Q t) (ω t) (moving matter u.apparent) ∧
      (∀ s, Centred (turn c ωₐ (Q s) (ω s) (moving matter u.apparent)) ∧ HasAngularMomentum (turn c ωₐ (Q s) (ω s) (moving matter u.apparent)) u'.angularMomentum) ∧
      PartTo.keys u'.rigidPileUp = PartTo.keys u'.actual ∧ Solved u' t d A back.time m R ∧ Balanced matter u' t d R := by
  obtain ⟨c, J, hs⟩ := system_spec u.apparent hne hk
  obtain ⟨d, r, e1, hr, hd, hbal⟩ := hs.diagonalize
  obtain ⟨ωₐ, e2, e3⟩ := hs.divide (masses_pos hk) env.L env.U (angularMomentumAbout c (moving matter u.apparent))
  set D := env.davenport (axes u.parts f) (axes u.parts g) (PileUp.weights w u.parts) with hD
  have hDu : D.IsUnit := henv.davenport _ _ _
  have hI : (⟨Quat.ofReal 1⟩ : Rotation ℝ).IsUnit := (Rotation.C36_inverse D hDu 0).2.2.2.1
  have hIa : ∀ v, (⟨Quat.ofReal 1⟩ : Rotation ℝ).apply v = v := fun v => (Rotation.C36_inverse D hDu v).2.2.2.2
  have hi := Rotation.inverse_unit' hDu
  set A : Rotation ℝ := (D.inverse.mul ⟨Quat.ofReal 1⟩).mul r with hA
  have hA1 := fun v => Rotation.C36_compose _ _ hi hI v
  have hAu : A.IsUnit := (Rotation.C36_compose _ _ (hA1 0).1 hr 0).1
  have hAa : ∀ v, A.apply v = D.inverse.apply (r.apply v) := fun v => by
    rw [hA, (Rotation.C36_compose _ _ (hA1 0).1 hr v).2, (hA1 _).2, hIa]
  set L := u.angularMomentum + ((t - back.time) • u.intrinsicTorque + u.angularMomentumChange) with hL
  obtain ⟨solver, m, R, k1, k2, -, k3⟩ := solver_motion (L := L) (t₀ := back.time) hd hAu
  have hR := k2.unit
  set ω : ℝ → R3 ℝ := fun t => (R t).apply (angularVelocity d (m t)) with hω
  set correction := ((rotating (R t) (ω t)).mul (rotating r ωₐ).inverse).mul (fromCentre c).inverse with hcor
  have hcu : correction.orthogonalMap.IsUnit := correction_unit (hR t) hr _ _ _
  have hca : ∀ d, correction.apply d = turned c ωₐ (between R r t) (ω t) d := fun d =>
    correction_apply (hR t) hr _ _ _ _ (between_apply hR hr t)
  have hQu := between_unit hR hr
  have hdef : u.deform env w t = some { u with
      angularMomentum := L, eulerSolver := some solver, actual := u.apparent.map fun x => (x.1, correction.mul x.2)
      rigidPileUp := u.apparent.map fun x => (x.1, (rotating (R t) (ω t)).rigidTransformation.inverse.mul (correction.mul x.2).rigidTransformation), apparent := [] } := by
    rw [PileUp.deform, if_pos ⟨hl, fun p hp => by rw [hg p hp]; rfl⟩, hb]
    simp only [Option.bind_some, hs.angular, hs.inertia, e1, hs.linear, directions_eq _ _ _ hf, directions_eq _ _ _ hg, fromCentre_rotation]
    rw [← hD, ← hA, normalize_unit hAu]
    simp only [Option.bind_some]
    rw [← hL, k1]
    simp only [Option.bind_some]
    rw [k3 t]
    simp only [Option.bind_some]
    rw [e2]
    simp only
    rw [show RigidMotion.ofFromFrame ⟨0, 0, r.forgetOrthogonal⟩ ωₐ 0 = rotating r ωₐ from rfl]
    rw [← hcor, PartTo.foldl_emplace (fun x => correction.mul x.2) _ hn,
      PartTo.foldl_emplace (fun x => (rotating (R t) (ω t)).rigidTransformation.inverse.mul (correction.mul x.2).rigidTransformation) _ hn]
  have hact : ∀ x ∈ u.apparent, (correction.mul x.2).orthogonalMap.IsUnit ∧ ∀ d, (correction.mul x.2).apply d = turned c ωₐ (between R r t) (ω t) (x.2.apply d) :=
    fun x hx => ⟨mul_unit hcu (hk x hx).2, fun d => by rw [mul_apply hcu (hk x hx).2, hca]⟩
  have hmov : moving matter (u.apparent.map fun x => (x.1, correction.mul x.2)) = turn c ωₐ (between R r t) (ω t) (moving matter u.apparent) :=
    moving_turn fun x hx => (hact x hx).2
  have hz : firstMoment (moving matter u.apparent) - totalMass (moving matter u.apparent) • c.position = 0 := by rw [hs.position]; ext <;> simp
  have hzv : momentum (moving matter u.apparent) - totalMass (moving matter u.apparent) • c.velocity - ωₐ.cross 0 = 0 := by rw [hs.velocity]; ext <;> simp [R3.cross]
  have hspin : ∀ s v, ((between R r s).applyForm J).mulVec v = spin 0 (turn c ωₐ (between R r s) (ω s) (moving matter u.apparent)) v := fun s v => by
    rw [spin_turn _ _ _ (hQu s), Rotation.applyForm_mulVec' (hQu s) hs.symmetric, hs.spin]
  have hbal' : ∀ s, Form.frobeniusNorm ((R s).applyForm (M3.diagonal d) - (between R r s).applyForm J) ≤ 2 ^ (-57 : ℤ) * Form.frobeniusNorm ((between R r s).applyForm J) :=
    fun s => balanced_turn (hR s) (hQu s) hr (fun v => by rw [between_apply hR hr, Rotation.inverse_apply' hr]) (diagonal_symmetric d) hs.symmetric hbal
  refine ⟨_, c, ωₐ, d, A, m, R, between R r, ω, hdef, rfl, rfl, ⟨hs.position, hs.velocity⟩, ?_, between_turning k2 hr, fun v => ?_, ⟨fun x => correction.mul x.2, rfl, hact⟩, hmov,
    fun s => ⟨⟨?_, ?_⟩, ?_⟩, ?_, ?_, ?_⟩
  · rw [← hs.spin, e3]
  · rw [between_apply hR hr, k2.initial, hAa, Rotation.apply_inverse' hr]
    rfl
  · rw [firstMoment_turn, hz, Rotation.apply_zero']
  · rw [momentum_turn, hz, hzv, Rotation.apply_zero']
    ext <;> simp [R3.cross]
  · refine hasAngularMomentum hd (hR s) (hspin s) ?_ (hbal' s) (k2.conserved s) rfl
    rw [angularMomentum_turn _ _ _ (hQu s), ← hs.spin, ← hs.spin, e3, Rotation.applyForm_mulVec' (hQu s) hs.symmetric]
    congr 1
    ext <;> simp [hω]
  · rw [PartTo.keys_map, PartTo.keys_map]
  · refine ⟨hd, hAu, k2, ⟨solver, rfl, k1, k3⟩, fun y hy => ?_⟩
    obtain ⟨x, hx, rfl⟩ := List.mem_map.1 hy
    have hcx := (hact x hx).1
    have hiu : (rotating (R t) (ω t)).rigidTransformation.inverse.linearMap.IsUnit := OrthogonalMap.inverse_unit (rotating_unit (hR t) (ω t))
    have hfind := PartTo.find_map (fun x => (rotating (R t) (ω t)).rigidTransformation.inverse.mul (correction.mul x.2).rigidTransformation) hn hx
    refine ⟨hcx, (rotating (R t) (ω t)).rigidTransformation.inverse.mul (correction.mul x.2).rigidTransformation, hfind, ?_, fun p => ?_⟩
    · exact (C37_rigid_compose _ _ hiu hcx 0).1
    · have h1 := (C37_rigid_compose _ _ hiu hcx p).2.1
      rw [h1]
      have h2 : ∀ q, (R t).apply q = (rotating (R t) (ω t)).rigidTransformation.apply q := fun q =>
        (congrArg DegreesOfFreedom.position (rotating_apply (hR t) (ω t) ⟨q, 0⟩)).symm
      rw [h2]
      exact ((C37_rigid_compose (rotating (R t) (ω t)).rigidTransformation _ (rotating_unit (hR t) (ω t)) hcx _).2.2.2.2).symm
  · refine ⟨?_, (between R r t).applyForm J, (Rotation.C36_form _ (hQu t) J hs.symmetric).1, fun v => ?_, hbal' t⟩
    · show firstMoment (moving matter (u.apparent.map fun x => (x.1, correction.mul x.2))) = 0
      rw [hmov, firstMoment_turn, hz, Rotation.apply_zero']
    · show _ = spin 0 (moving matter (u.apparent.map fun x => (x.1, correction.mul x.2))) v
      rw [hmov, hspin]

/-! ## Rotation without deformation -/

theorem mapM_some {α β : Type} {f : α → Option β} {g : α → β} {l : List α} (h : ∀ x ∈ l, f x = some (g x)) : l.mapM f = some (l.map g) := by
  induction l with
  | nil => rfl
  | cons x l ih => rw [List.mapM_cons, h x List.mem_cons_self, ih fun y hy => h y (List.mem_cons_of_mem _ hy)]; rfl

theorem spin_still (c v : R3 ℝ) (ps : List Particle) : spin c (still ps) v = spin c ps v := by
  simp only [spin, still, List.map_map]; rfl

theorem firstMoment_still (ps : List Particle) : firstMoment (still ps) = firstMoment ps := by
  simp only [firstMoment, still, List.map_map]; rfl

theorem momentum_still (ps : List Particle) : momentum (still ps) = 0 := by
  induction ps with
  | nil => rfl
  | cons p ps ih => rw [show still (p :: ps) = ⟨p.mass, ⟨p.state.position, 0⟩⟩ :: still ps from rfl, momentum_cons, ih]; ext <;> simp

theorem angularMomentum_still (c : R3 ℝ) (ps : List Particle) : angularMomentumAbout ⟨c, 0⟩ (still ps) = 0 := by
  induction ps with
  | nil => rfl
  | cons p ps ih => rw [show still (p :: ps) = ⟨p.mass, ⟨p.state.position, 0⟩⟩ :: still ps from rfl, angularMomentumAbout_cons, ih]; ext <;> simp [R3.cross]

theorem spin_zero (c : R3 ℝ) (ps : List Particle) : spin c ps 0 = 0 := by
  induction ps with
  | nil => rfl
  | cons p ps ih => rw [spin_cons, ih]; ext <;> simp [R3.cross]

theorem still_moving (l : PartTo RigidMotion) : still (moving matter l) = l.flatMap fun x => (matter x.1).map fun y => ⟨y.1, ⟨(x.2.apply ⟨y.2, 0⟩).position, 0⟩⟩ := by
  simp only [still, moving, List.map_flatMap, List.map_map]; rfl

theorem moving_still {l : PartTo RigidMotion} {f : ℕ × RigidMotion → RigidMotion} {ω : R3 ℝ} {Q : Rotation ℝ}
    (h : ∀ x ∈ l, ∀ p, (f x).apply ⟨p, 0⟩ = ⟨Q.apply (x.2.apply ⟨p, 0⟩).position, ω.cross (Q.apply (x.2.apply ⟨p, 0⟩).position)⟩) :
    moving matter (l.map fun x => (x.1, f x)) = turn ⟨0, 0⟩ 0 Q ω (still (moving matter l)) := by
  induction l with
  | nil => rfl
  | cons x l ih =>
    rw [List.map_cons, moving_cons, moving_cons, ih fun y hy => h y (List.mem_cons_of_mem _ hy)]
    simp only [turn, still, List.map_append, List.map_map]
    congr 1
    refine List.map_congr_left fun y _ => ?_
    simp only [Function.comp_apply, h x List.mem_cons_self, turned]
    have e1 : ∀ a : R3 ℝ, a - 0 = a := fun a => by ext <;> simp
    have e2 : ∀ a : R3 ℝ, R3.cross 0 a = 0 := fun a => by ext <;> simp [R3.cross]
    have e3 : ∀ a : R3 ℝ, 0 + a = a := fun a => by ext <;> simp
    simp only [e1, e2, e3, Rotation.apply_zero']

set_option maxHeartbeats 1000000 in
theorem warp_spec {s d : _} {A : Rotation ℝ} {t₀ : ℝ} {m : ℝ → R3 ℝ} {R : ℝ → Rotation ℝ} (h : Solved u s d A t₀ m R) (hn : (PartTo.keys u.actual).Nodup) (t : ℝ) :
    ∃ (u' : PileUp ι) (Q : ℝ → Rotation ℝ) (ω : ℝ → R3 ℝ), u.warp t = some u' ∧ u' = { u with actual := u'.actual } ∧
      Turning Q ω ∧ (∀ v, (Q s).apply v = v) ∧
      (∃ h : ℕ × RigidMotion → RigidMotion, u'.actual = u.actual.map (fun x => (x.1, h x)) ∧
        ∀ x ∈ u.actual, (h x).orthogonalMap.IsUnit ∧
          ∀ p, (h x).apply ⟨p, 0⟩ = ⟨(Q t).apply (x.2.apply ⟨p, 0⟩).position, (ω t).cross ((Q t).apply (x.2.apply ⟨p, 0⟩).position)⟩) ∧
      (∀ matter, moving matter u'.actual = turn ⟨0, 0⟩ 0 (Q t) (ω t) (still (moving matter u.actual))) ∧
      Solved u' t d A t₀ m R ∧
      ∀ matter, Balanced matter u s d R → Balanced matter u' t d R ∧
        ∀ t', Centred (turn ⟨0, 0⟩ 0 (Q t') (ω t') (still (moving matter u.actual))) ∧
          HasAngularMomentum (turn ⟨0, 0⟩ 0 (Q t') (ω t') (still (moving matter u.actual))) u.angularMomentum := by
  have hR := h.free.unit
  obtain ⟨solver, k1, k2, k3⟩ := h.solver
  set ω : ℝ → R3 ℝ := fun t => (R t).apply (angularVelocity d (m t)) with hω
  have hQu := between_unit hR (hR s)
  let rigid : ℕ → RigidTransformation := fun p => (u.rigidPileUp.find p).getD ⟨0, 0, .identity⟩
  have hrigid : ∀ x ∈ u.actual, u.rigidPileUp.find x.1 = some (rigid x.1) ∧ (rigid x.1).linearMap.IsUnit ∧
      ∀ p, (x.2.apply ⟨p, 0⟩).position = (R s).apply ((rigid x.1).apply p) := by
    intro x hx
    obtain ⟨-, T, e1, e2, e3⟩ := h.rigid x hx
    have : rigid x.1 = T := by simp only [rigid, e1]; rfl
    rw [this]
    exact ⟨e1, e2, e3⟩
  let f : ℕ × RigidMotion → RigidMotion := fun x => (rotating (R t) (ω t)).mul ⟨rigid x.1, 0, 0⟩
  have hwarp : u.warp t = some { u with actual := u.actual.map fun x => (x.1, f x) } := by
    rw [PileUp.warp, k1]
    simp only [Option.bind_some]
    rw [k3 t]
    simp only [Option.bind_some]
    rw [mapM_some (g := fun x => (x.1, f x)) fun x hx => by rw [(hrigid x hx).1]; rfl]
    rfl
  have hun : ∀ x ∈ u.actual, (f x).orthogonalMap.IsUnit := fun x hx => mul_unit (rotating_unit (hR t) _) (hrigid x hx).2.1
  have hcr : ∀ v : R3 ℝ, R3.cross 0 v = 0 := fun v => by ext <;> simp [R3.cross]
  have hap : ∀ x ∈ u.actual, ∀ p, (f x).apply ⟨p, 0⟩ =
      ⟨(between R (R s) t).apply (x.2.apply ⟨p, 0⟩).position, (ω t).cross ((between R (R s) t).apply (x.2.apply ⟨p, 0⟩).position)⟩ := by
    intro x hx p
    obtain ⟨-, e2, e3⟩ := hrigid x hx
    have hu : (⟨rigid x.1, 0, 0⟩ : RigidMotion).orthogonalMap.IsUnit := e2
    rw [mul_apply (rotating_unit (hR t) _) hu, rotating_apply (hR t)]
    have e4 : (⟨rigid x.1, 0, 0⟩ : RigidMotion).apply ⟨p, 0⟩ = ⟨(rigid x.1).apply p, 0⟩ := by
      simp only [RigidMotion.apply, bivectorTimesVector, hcr]
      congr 1
      rw [show (0 : R3 ℝ) - 0 - 0 = 0 by ext <;> simp]
      exact OrthogonalMap.apply_zero e2
    have e5 : (between R (R s) t).apply (x.2.apply ⟨p, 0⟩).position = (R t).apply ((rigid x.1).apply p) := by
      rw [between_apply hR (hR s), e3, Rotation.inverse_apply' (hR s)]
    rw [e4, e5]
    simp only [Rotation.apply_zero']
    congr 1
    ext <;> simp
  have hmov : ∀ matter, moving matter (u.actual.map fun x => (x.1, f x)) = turn ⟨0, 0⟩ 0 (between R (R s) t) (ω t) (still (moving matter u.actual)) :=
    fun matter => moving_still hap
  refine ⟨_, between R (R s), ω, hwarp, rfl, between_turning h.free (hR s), fun v => ?_, ⟨f, rfl, fun x hx => ⟨hun x hx, hap x hx⟩⟩, hmov,
    ⟨h.moments, h.attitude, h.free, ⟨solver, k1, k2, k3⟩, fun y hy => ?_⟩, fun matter hb => ?_⟩
  · rw [between_apply hR (hR s), Rotation.apply_inverse' (hR s)]
  · obtain ⟨x, hx, rfl⟩ := List.mem_map.1 hy
    obtain ⟨e1, e2, e3⟩ := hrigid x hx
    refine ⟨hun x hx, rigid x.1, e1, e2, fun p => ?_⟩
    show ((f x).apply ⟨p, 0⟩).position = _
    rw [hap x hx, e3]
    simp only
    rw [between_apply hR (hR s), Rotation.inverse_apply' (hR s)]
  · obtain ⟨J, j1, j2, j3⟩ := hb.inertia
    have hspin : ∀ t' v, ((between R (R s) t').applyForm J).mulVec v = spin 0 (turn ⟨0, 0⟩ 0 (between R (R s) t') (ω t') (still (moving matter u.actual))) v := fun t' v => by
      rw [spin_turn _ _ _ (hQu t'), Rotation.applyForm_mulVec' (hQu t') j1, spin_still, j2]
    have hbal : ∀ t', Form.frobeniusNorm ((R t').applyForm (M3.diagonal d) - (between R (R s) t').applyForm J) ≤
        2 ^ (-57 : ℤ) * Form.frobeniusNorm ((between R (R s) t').applyForm J) := fun t' =>
      balanced_turn (hR t') (hQu t') (hR s) (fun v => by rw [between_apply hR (hR s), Rotation.inverse_apply' (hR s)]) (diagonal_symmetric d) j1 j3
    have hz : firstMoment (still (moving matter u.actual)) - totalMass (still (moving matter u.actual)) • (0 : R3 ℝ) = 0 := by
      rw [firstMoment_still, hb.centre]; ext <;> simp
    refine ⟨⟨?_, (between R (R s) t).applyForm J, (Rotation.C36_form _ (hQu t) J j1).1, fun v => ?_, hbal t⟩, fun t' => ⟨⟨?_, ?_⟩, ?_⟩⟩
    · show firstMoment (moving matter (u.actual.map fun x => (x.1, f x))) = 0
      rw [hmov, firstMoment_turn, hz, Rotation.apply_zero']
    · show _ = spin 0 (moving matter (u.actual.map fun x => (x.1, f x))) v
      rw [hmov, hspin]
    · rw [firstMoment_turn, hz, Rotation.apply_zero']
    · rw [momentum_turn, hz, momentum_still, hcr, Rotation.apply_zero']
      rw [show (0 : R3 ℝ) - totalMass (still (moving matter u.actual)) • (0 : R3 ℝ) - 0 = 0 by ext <;> simp, Rotation.apply_zero']
      ext <;> simp [R3.cross]
    · refine hasAngularMomentum h.moments (hR t') (hspin t') ?_ (hbal t') (h.free.conserved t') rfl
      rw [angularMomentum_turn _ _ _ (hQu t'), angularMomentum_still, spin_zero, spin_still, ← j2, Rotation.applyForm_mulVec' (hQu t') j1]
      congr 1
      ext <;> simp [hω]

end Principia.Ksp.PileUp
