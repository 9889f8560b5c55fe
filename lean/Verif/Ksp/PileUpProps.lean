import Verif.Ksp.PileUpReach

/-!
C72: a pile-up conserves the momentum and the angular momentum of its parts, and its trajectory is that of their centre of mass.
-/

set_option linter.unusedSimpArgs false
set_option linter.unusedVariables false
set_option linter.unusedSectionVars false

namespace Principia.Ksp.PileUp

open Geometry Physics.Motion Physics.Mechanical Physics.Euler

variable {ι : Type} {w : World} {matter : Matter} {u : PileUp ι} {env : Env ι} {position : ι → Point} {s : ℝ}

/-- A pile-up may be constructed from any distinct parts.  Its trajectory starts at the centre of mass of their particles, its angular momentum is theirs with respect to the centre
of mass, and the parts have the motions that they had, relative to the centre of mass. -/
theorem C72_construct {parts : List ℕ} (hne : parts ≠ []) (hn : parts.Nodup) (hk : ∀ p ∈ parts, Describes (w p) (matter p) ∧ (w p).rigidMotion.orthogonalMap.IsUnit) (t : ℝ) :
    ∃ (u : PileUp ι) (c : DegreesOfFreedom), PileUp.make w parts t = some u ∧ u.parts = parts ∧ u.history = [⟨t, c⟩] ∧ u.psychohistory = [] ∧ u.apparent = [] ∧
      u.fixedInstance = none ∧
      totalMass (moving matter (parts.map fun p => (p, (w p).rigidMotion))) • c.position = firstMoment (moving matter (parts.map fun p => (p, (w p).rigidMotion))) ∧
      totalMass (moving matter (parts.map fun p => (p, (w p).rigidMotion))) • c.velocity = momentum (moving matter (parts.map fun p => (p, (w p).rigidMotion))) ∧
      u.angularMomentum = angularMomentumAbout c (moving matter (parts.map fun p => (p, (w p).rigidMotion))) ∧
      (∀ p, (u.actual.find p).isSome ↔ p ∈ parts) ∧
      (∀ p ∈ parts, ∃ m, u.actual.find p = some m ∧ m.orthogonalMap.IsUnit ∧
        ∀ d, m.apply d = ⟨((w p).rigidMotion.apply d).position - c.position, ((w p).rigidMotion.apply d).velocity - c.velocity⟩) ∧
      u.recomputeFromParts w = some u := by
  obtain ⟨u, c, d, A, m, R, e, h1, h2, h3, h4, h5, h6, h7, h8, h9, h10, h11, h12⟩ := make_spec (ι := ι) hne hn hk t
  have hkeys : PartTo.keys u.actual = parts := by rw [h8, PartTo.keys_parts]
  refine ⟨u, c, e, h1, h2, h3, h4, h5, h6.1, h6.2, h7, fun p => ?_, fun p hp => ⟨relativeTo c w p, ?_, relativeTo_unit c (hk p hp).2, relativeTo_apply c (hk p hp).2⟩, h10.2.2⟩
  · rw [PartTo.find_isSome, hkeys]
  · rw [h8]
    exact PartTo.find_of_mem (by rw [PartTo.keys_parts]; exact hn) (List.mem_map.2 ⟨p, hp, rfl⟩)

/-- The mass of the pile-up and the force on it are the sums over the parts, the torque is that of the forces and torques on the parts with respect to the centre of mass, and the
change in angular momentum due to the solid rocket motors is the angular momentum of the mass that they lost.  Nothing else changes. -/
theorem C72_forces (henv : env.Correct position) (h : Reach env w u s) (hm : ∀ p ∈ u.parts, Describes (w p) (matter p)) :
    ∃ f : ℕ → RigidMotion, (∀ p ∈ u.parts, u.actual.find p = some (f p)) ∧ u.recomputeFromParts w = some { u with
      mass := (u.parts.map fun p => (w p).mass).sum
      intrinsicForce := (u.parts.map fun p => (w p).intrinsicForce).sum
      intrinsicTorque := (u.parts.map fun p => ((f p).apply ⟨0, 0⟩).position.cross (w p).intrinsicForce + (w p).intrinsicTorque).sum
      angularMomentumChange := (u.parts.map fun p => if (w p).isSolidRocketMotor then
        ((w p).massChange / (w p).mass) • angularMomentumAbout ⟨0, 0⟩ ((matter p).map fun y => (⟨y.1, (f p).apply ⟨y.2, 0⟩⟩ : Particle)) else 0).sum } := by
  have hv := h.valid henv
  refine ⟨motionIn u.actual, hv.find, hv.recompute.1.trans ?_⟩
  have e : (u.parts.map fun p => massFlow (w p) (motionIn u.actual p)) = u.parts.map fun p => if (w p).isSolidRocketMotor then
      ((w p).massChange / (w p).mass) • angularMomentumAbout ⟨0, 0⟩ ((matter p).map fun y => (⟨y.1, (motionIn u.actual p).apply ⟨y.2, 0⟩⟩ : Particle)) else 0 := by
    refine List.map_congr_left fun p hp => ?_
    by_cases hs : (w p).isSolidRocketMotor = true
    · rw [if_pos hs, massFlow_eq (hv.actual_unit p hp) (hm p hp) hs]
    · rw [if_neg hs, massFlow, if_neg hs]
  rw [recomputed, e]

/-- After the forces and torques of the previous frame have been cleared, and forces applied at given positions with respect to the centre of mass, in any order with respect to the
changes of mass, the force on the part is the sum of the forces, its torque is the sum of the moments of the forces, its mass is the last one given, and its change of mass is what must
be added to the previous mass to obtain it.  The inertia tensor and the motion are not changed. -/
theorem C72_part (p : Part) (before after : List (R3 ℝ × R3 ℝ)) (mass : ℝ) :
    let apply := fun (p : Part) (x : R3 ℝ × R3 ℝ) => p.applyIntrinsicForceWithLeverArm x.1 x.2
    let result := after.foldl apply ((before.foldl apply p.clearIntrinsicForceAndTorque).setMass mass)
    result.intrinsicForce = ((before ++ after).map fun x => x.1).sum ∧ result.intrinsicTorque = ((before ++ after).map fun x => x.2.cross x.1).sum ∧
      result.mass = mass ∧ p.mass + result.massChange = mass ∧ result.isSolidRocketMotor = p.isSolidRocketMotor ∧ result.inertiaTensor = p.inertiaTensor ∧
      result.rigidMotion = p.rigidMotion := by
  have add_zero' : ∀ a : R3 ℝ, a + 0 = a := fun a => by ext <;> simp
  have add_assoc' : ∀ a b c : R3 ℝ, a + b + c = a + (b + c) := fun a b c => by ext <;> simp [add_assoc]
  have key : ∀ (l : List (R3 ℝ × R3 ℝ)) (q : Part), l.foldl (fun (p : Part) (x : R3 ℝ × R3 ℝ) => p.applyIntrinsicForceWithLeverArm x.1 x.2) q =
      { q with
        intrinsicForce := q.intrinsicForce + (l.map fun x => x.1).sum
        intrinsicTorque := q.intrinsicTorque + (l.map fun x => x.2.cross x.1).sum } := by
    intro l
    induction l with
    | nil => intro q; simp [add_zero']
    | cons x l ih => intro q; rw [List.foldl_cons, ih]; simp [Part.applyIntrinsicForceWithLeverArm, wedge, add_assoc']
  have zero_add' : ∀ a : R3 ℝ, 0 + a = a := fun a => by ext <;> simp
  have sum_append' : ∀ l l' : List (R3 ℝ), (l ++ l').sum = l.sum + l'.sum := by
    intro l l'
    induction l with
    | nil => simp [zero_add']
    | cons x l ih => simp [ih, add_assoc']
  simp only [key]
  refine ⟨?_, ?_, ?_, ?_, ?_, ?_, ?_⟩ <;> simp [Part.setMass, Part.clearIntrinsicForceAndTorque, zero_add', sum_append']

/-- When the parts have been given apparent motions, the pile-up takes their shape and the motions of the parts with respect to each other: the apparent motions are corrected by a
translation, a rotation and an overall angular velocity, the same for all the parts.  The angular momentum changes according to the torque.  The correction is such that the
particles of the parts are in the frame of their centre of mass and have this angular momentum.  It is the same as if they had been turning as a free body since the last time, at
which the rotation is the one computed by Davenport's method from the previous motions and the apparent ones. -/
theorem C72_deform (henv : env.Correct position) (h : Reach env w u s) (hm : ∀ p ∈ u.parts, Describes (w p) (matter p)) (hne : u.apparent ≠ []) (hc : Covered u) {back : Point}
    (hb : u.back = some back) (t : ℝ) :
    ∃ (u' : PileUp ι) (c : DegreesOfFreedom) (ωₐ : R3 ℝ) (Q : ℝ → Rotation ℝ) (ω : ℝ → R3 ℝ) (f g : ℕ → RigidMotion), u.deformPileUpIfNeeded env w t = some u' ∧
      u' = { u with angularMomentum := u'.angularMomentum, eulerSolver := u'.eulerSolver, actual := u'.actual, rigidPileUp := u'.rigidPileUp, apparent := [] } ∧
      u'.angularMomentum = u.angularMomentum + ((t - back.time) • u.intrinsicTorque + u.angularMomentumChange) ∧
      totalMass (moving matter u.apparent) • c.position = firstMoment (moving matter u.apparent) ∧
      totalMass (moving matter u.apparent) • c.velocity = momentum (moving matter u.apparent) ∧
      spin c.position (moving matter u.apparent) ωₐ = angularMomentumAbout c (moving matter u.apparent) ∧
      Turning Q ω ∧ (∀ p ∈ u.parts, u.actual.find p = some (f p) ∧ u.apparent.find p = some (g p)) ∧
      (∀ v, (Q back.time).apply v = (env.davenport (axes u.parts f) (axes u.parts g) (u.parts.flatMap fun p => [(w p).mass, (w p).mass, (w p).mass])).inverse.apply v) ∧
      (∀ p ∈ u.parts, ∃ m, u'.actual.find p = some m ∧ m.orthogonalMap.IsUnit ∧ ∀ d, m.apply d = turned c ωₐ (Q t) (ω t) ((g p).apply d)) ∧
      moving matter u'.actual = turn c ωₐ (Q t) (ω t) (moving matter u.apparent) ∧
      ∀ t', Centred (turn c ωₐ (Q t') (ω t') (moving matter u.apparent)) ∧ HasAngularMomentum (turn c ωₐ (Q t') (ω t') (moving matter u.apparent)) u'.angularMomentum := by
  have hv := h.valid henv
  obtain ⟨c1, c2, c3⟩ := hv.covered hc hne
  obtain ⟨u', c, ωₐ, d, A, m, R, Q, ω, e1, e2, e3, e4, e5, e6, e7, ⟨k, e8, e9⟩, e10, e11, -, -, -⟩ :=
    deform_spec henv (t := t) hne (hv.known hc hm) hv.apparent_nodup c1 hv.find c3 hb
  refine ⟨u', c, ωₐ, Q, ω, _, _, ?_, e2, e3, e4.1, e4.2, e5, e6, fun p hp => ⟨hv.find p hp, c3 p hp⟩, e7, fun p hp => ?_, e10, e11⟩
  · rw [PileUp.deformPileUpIfNeeded, if_neg (by simpa using hne), e1]
  · have hx := PartTo.mem_of_find (c3 p hp)
    have hfind := PartTo.find_map k hv.apparent_nodup hx
    rw [← e8] at hfind
    exact ⟨_, hfind, (e9 _ hx).1, (e9 _ hx).2⟩

/-- When no apparent motion has been given, the pile-up turns as a rigid body from its orientation at the last time, with an angular velocity that is the same for all the
parts. -/
theorem C72_warp (henv : env.Correct position) (h : Reach env w u s) (he : u.apparent = []) (t : ℝ) :
    ∃ (u' : PileUp ι) (Q : ℝ → Rotation ℝ) (ω : ℝ → R3 ℝ), u.deformPileUpIfNeeded env w t = some u' ∧ u' = { u with actual := u'.actual } ∧
      Turning Q ω ∧ (∀ v, (Q s).apply v = v) ∧
      ∀ p ∈ u.parts, ∃ m m', u.actual.find p = some m ∧ u'.actual.find p = some m' ∧ m'.orthogonalMap.IsUnit ∧
        ∀ q, m'.apply ⟨q, 0⟩ = ⟨(Q t).apply (m.apply ⟨q, 0⟩).position, (ω t).cross ((Q t).apply (m.apply ⟨q, 0⟩).position)⟩ := by
  have hv := h.valid henv
  obtain ⟨d, A, t₀, m, R, hs⟩ := hv.solved
  obtain ⟨u', Q, ω, e1, e2, e3, e4, ⟨k, e5, e6⟩, -, -, -⟩ := warp_spec hs hv.actual_nodup t
  refine ⟨u', Q, ω, ?_, e2, e3, e4, fun p hp => ⟨_, k (p, motionIn u.actual p), hv.find p hp, ?_, ?_, ?_⟩⟩
  · rw [PileUp.deformPileUpIfNeeded, if_pos (by rw [he]; rfl), e1]
  · have hfind := PartTo.find_map k hv.actual_nodup (PartTo.mem_of_find (hv.find p hp))
    rw [← e5] at hfind
    exact hfind
  · exact (e6 _ (PartTo.mem_of_find (hv.find p hp))).1
  · exact (e6 _ (PartTo.mem_of_find (hv.find p hp))).2

/-- When it advances, a pile-up is first deformed.  Then its trajectory is extended; without a force, the history comes from the fixed-step integrator, and does not depend on the
times at which the pile-up was advanced and on the psychohistory, which is recomputed from the end of the history; with a force, the psychohistory becomes part of the history, and
is extended with the acceleration.  The new points are in order and no later than the requested time, which is reached if there is no error.  Each part gets a point for each point
of the trajectory of the pile-up, given by its motion relative to the pile-up, and has the motion of the last one.  Nothing else changes. -/
theorem C72_advance (henv : env.Correct position) (h : Reach env w u s) (hc : Covered u) (hr : Ready w u) {last back : Point} (hl : u.history.getLast? = some last) (hb : u.back = some back)
    {t : ℝ} (ht : back.time < t) :
    ∃ (u₁ u' : PileUp ι) (w' : World) (ok : Bool) (new : List Point) (last' back' : Point), u.deformPileUpIfNeeded env w t = some u₁ ∧
      u.deformAndAdvanceTime env w t = some (w', u', ok) ∧
      u' = { u₁ with history := [last'], psychohistory := u'.psychohistory, fixedInstance := u'.fixedInstance } ∧
      (last :: new).getLast? = some last' ∧ (last' :: u'.psychohistory).getLast? = some back' ∧ Increasing (last :: (new ++ u'.psychohistory)) ∧
      (∀ q ∈ new ++ u'.psychohistory, q.time ≤ t) ∧ (ok = true → back'.time = t) ∧
      (u.intrinsicForce = 0 → new = (env.flowFixed t (u.fixedInstance.getD (env.newInstance last))).1 ∧
        u'.fixedInstance = some (env.flowFixed t (u.fixedInstance.getD (env.newInstance last))).2.1 ∧
        u'.psychohistory = if last'.time < t then (env.flowAdaptive 0 t last').1 else []) ∧
      (u.intrinsicForce ≠ 0 → new = u.psychohistory ++ (env.flowAdaptive (u.intrinsicForce.div u.mass) t back).1 ∧ u'.fixedInstance = none ∧ u'.psychohistory = []) ∧
      (∀ p, p ∉ u.parts → w' p = w p) ∧
      ∀ p ∈ u.parts, ∃ m, u₁.actual.find p = some m ∧ u'.actual.find p = some m ∧
        (w' p).history = (w p).history ++ new.map (placed (m.apply ⟨0, 0⟩)) ∧
        (w' p).psychohistory = (if u'.psychohistory = [] then none else some ((w' p).history.getLast?.toList ++ u'.psychohistory.map (placed (m.apply ⟨0, 0⟩)))) ∧
        (w' p).rigidMotion.orthogonalMap.IsUnit ∧
        (∀ d, (w' p).rigidMotion.apply d = ⟨(m.apply d).position + back'.state.position, (m.apply d).velocity + back'.state.velocity⟩) ∧
        w' p = { w p with history := (w' p).history, psychohistory := (w' p).psychohistory, rigidMotion := (w' p).rigidMotion } := by
  have hv := h.valid henv
  obtain ⟨u₁, new, w', u', ok, last', back', e1, e2, e3, hv'⟩ := hv.moved henv hc hr hl hb ht
  obtain ⟨u₁', d1, d2, d3⟩ := hv.deformed henv hc t
  rw [e1, Option.some.injEq] at d1
  subst d1
  obtain ⟨u₂, a, rfl⟩ := e3.advanced
  have hun := a.unchanged
  have hact : u₂.actual = u₁.actual := by rw [hun]
  have hh : u₁.history = u.history := by rw [d3]
  have hf : u₁.intrinsicForce = u.intrinsicForce := by rw [d3]
  have hi : u₁.fixedInstance = u.fixedInstance := by rw [d3]
  have hps : u₁.psychohistory = u.psychohistory := by rw [d3]
  have hma : u₁.mass = u.mass := by rw [d3]
  have hpa : u₁.parts = u.parts := by rw [d3]
  have hlast : (last :: new).getLast? = some last' := by
    have := a.recorded.latest
    rw [a.history, hh, getLast_append hl] at this
    exact this
  have hback : (last' :: u₂.psychohistory).getLast? = some back' := e3.back
  refine ⟨u₁, _, w', ok, new, last', back', e1, e2, ?_, hlast, hback, a.after, a.before, fun hok => ?_, fun h0 => ?_, fun h0 => ?_, fun p hp => ?_, fun p hp => ?_⟩
  · conv_lhs => rw [hun]
  · obtain ⟨b, b1, b2⟩ := a.reached hok
    have : u₂.back = some back' := by rw [a.recorded.back]; exact hback
    rw [this, Option.some.injEq] at b1
    rw [b1]; exact b2
  · have := a.free (by rw [hf]; exact h0)
    rw [hi] at this
    exact this
  · have := a.forced (by rw [hf]; exact h0)
    rw [hps, hf, hma] at this
    exact this
  · rw [e3.world]
    simp only [if_neg hp]
  · have hp₁ : p ∈ u₁.parts := by rw [hpa]; exact hp
    have hw : w' p = { extended new u₂.psychohistory ((motionIn u₁.actual p).apply ⟨0, 0⟩) (w p) with
        rigidMotion := (PileUp.toBarycentric back'.state).mul (motionIn u₁.actual p) } := by
      rw [e3.world]
      simp only [if_pos hp]
    have hunit := d2.actual_unit p hp₁
    refine ⟨motionIn u₁.actual p, d2.find p hp₁, ?_, by rw [hw]; rfl, by rw [hw]; rfl, ?_, fun d => ?_, ?_⟩
    · show u₂.actual.find p = _
      rw [hact]; exact d2.find p hp₁
    · rw [hw]; exact mul_unit (toBarycentric_unit _) hunit
    · rw [hw]
      show ((PileUp.toBarycentric back'.state).mul (motionIn u₁.actual p)).apply d = _
      rw [mul_apply (toBarycentric_unit _) hunit, toBarycentric_apply]
    · rw [hw]; rfl

/-! ## Conservation -/

theorem centre_zero {ps : List Particle} {c : R3 ℝ} {m : R3 ℝ} (hm : totalMass ps ≠ 0) (h : totalMass ps • c = m) (h0 : m = 0) : c = 0 := by
  rw [h0] at h
  simp only [R3.ext_iff] at h ⊢
  simp [hm] at h
  simpa using h

theorem translated_momentum (c : DegreesOfFreedom) (ps : List Particle) :
    momentum (ps.map fun q => ⟨q.mass, ⟨q.state.position - c.position, q.state.velocity - c.velocity⟩⟩) = momentum ps - totalMass ps • c.velocity := by
  induction ps with
  | nil => ext <;> simp
  | cons p ps ih => rw [List.map_cons, momentum_cons, ih]; ext <;> simp <;> ring

theorem translated_angularMomentum (c : DegreesOfFreedom) (ps : List Particle) :
    angularMomentumAbout ⟨0, 0⟩ (ps.map fun q => ⟨q.mass, ⟨q.state.position - c.position, q.state.velocity - c.velocity⟩⟩) = angularMomentumAbout c ps := by
  induction ps with
  | nil => rfl
  | cons p ps ih => rw [List.map_cons, angularMomentumAbout_cons, angularMomentumAbout_cons, ih]; ext <;> simp [R3.cross]

/-- What is true along a run. -/
structure Conserved (position : ι → Point) (matter : Matter) (u : PileUp ι) (s : ℝ) : Prop where
  exists_world : ∃ w : World, ∀ p ∈ u.parts, Describes (w p) (matter p)
  apparent : u.apparent = []
  balanced : ∃ d A t₀ m R, (∀ w : World, (∀ p ∈ u.parts, Describes (w p) (matter p)) → Valid position w u s) ∧ Solved u s d A t₀ m R ∧ Balanced matter u s d R
  centred : Centred (moving matter u.actual)
  angular : HasAngularMomentum (moving matter u.actual) u.angularMomentum

theorem Moved.fields {u₁ u' : PileUp ι} {w' : World} {last back last' back' : Point} {t : ℝ} {new : List Point} {ok : Bool}
    (h : Moved env position w u u₁ last back t new w' u' ok last' back') : u'.parts = u₁.parts ∧ u'.angularMomentum = u₁.angularMomentum ∧ u'.eulerSolver = u₁.eulerSolver ∧
      u'.actual = u₁.actual ∧ u'.rigidPileUp = u₁.rigidPileUp ∧ u'.apparent = u₁.apparent := by
  obtain ⟨u₂, a, rfl⟩ := h.advanced
  have := a.unchanged
  have h1 : u₂.parts = u₁.parts := by rw [this]
  have h2 : u₂.angularMomentum = u₁.angularMomentum := by rw [this]
  have h3 : u₂.eulerSolver = u₁.eulerSolver := by rw [this]
  have h4 : u₂.actual = u₁.actual := by rw [this]
  have h5 : u₂.rigidPileUp = u₁.rigidPileUp := by rw [this]
  have h6 : u₂.apparent = u₁.apparent := by rw [this]
  exact ⟨h1, h2, h3, h4, h5, h6⟩

set_option maxHeartbeats 1000000 in
theorem Run.conserved (henv : env.Correct position) (h : Run env matter u s) : Conserved position matter u s := by
  induction h with
  | @make w parts t u hne hn hk he =>
    have hv := valid_make (position := position) hne hn (fun p hp => ⟨⟨_, (hk p hp).1⟩, (hk p hp).2⟩) he
    obtain ⟨u', c, d, A, m, R, e, h1, h2, h3, h4, h5, h6, h7, h8, h9, h10, h11, h12⟩ := make_spec (ι := ι) hne hn hk t
    rw [he, Option.some.injEq] at e
    subst e
    have hmov : moving matter u.actual = _ := (congrArg (moving matter) h8).trans (moving_relativeTo (matter := matter) c parts fun p hp => (hk p hp).2)
    have hcent : Centred (moving matter u.actual) := by
      refine ⟨h12.centre, ?_⟩
      rw [hmov, translated_momentum, h6.2]
      ext <;> simp
    have hknown : Known w matter u.actual := by
      intro x hx
      rw [h8] at hx
      obtain ⟨p, hp, rfl⟩ := List.mem_map.1 hx
      exact ⟨(hk p hp).1, relativeTo_unit c (hk p hp).2⟩
    have hane : u.actual ≠ [] := by rw [h8]; simpa using hne
    obtain ⟨c', J, hs⟩ := system_spec u.actual hane hknown
    have hM := (totalMass_pos u.actual hane hknown).ne'
    have hc' : c' = ⟨0, 0⟩ := by
      have e1 := centre_zero hM hs.position hcent.1
      have e2 := centre_zero hM hs.velocity hcent.2
      cases c'
      simp only at e1 e2
      rw [e1, e2]
    obtain ⟨ω, -, hω⟩ := hs.divide (masses_pos hknown) J J (angularMomentumAbout ⟨0, 0⟩ (moving matter u.actual))
    have hL : angularMomentumAbout ⟨0, 0⟩ (moving matter u.actual) = u.angularMomentum := by rw [hmov, translated_angularMomentum, h7]
    refine ⟨⟨w, fun p hp => (hk p (h1 ▸ hp)).1⟩, h4, ⟨_, _, _, _, _, fun w' hw' => hv.world fun p hp => ⟨_, hw' p hp⟩, h11, h12⟩, hcent, J, ω, fun v => ?_, hω.symm, ?_⟩
    · rw [hs.spin, hc']
    · rw [hL]
      have e0 : (u.angularMomentum - u.angularMomentum).norm = 0 := by
        have : u.angularMomentum - u.angularMomentum = 0 := by ext <;> simp
        rw [this]; simp [R3.norm, R3.normSq, R3.dot]
      rw [e0]
      exact mul_nonneg (mul_nonneg (by positivity) (Real.sqrt_nonneg _)) (Real.sqrt_nonneg _)
  | @deform w w' u u' t ok back s hreach hne hk hc hr hb ht he =>
    have hv := hreach.valid henv
    obtain ⟨last, hl⟩ := hv.recorded
    obtain ⟨u₁, new, w₂, u₂, ok₂, last', back', e1, e2, e3, hv'⟩ := hv.moved henv hc hr hl.latest hb ht
    rw [e2, Option.some.injEq, Prod.mk.injEq, Prod.mk.injEq] at he
    obtain ⟨rfl, rfl, rfl⟩ := he
    obtain ⟨c1, c2, c3⟩ := hv.covered hc hne
    obtain ⟨u₁', c, ωₐ, d, A, m, R, Q, ω, f1, f2, f3, f4, f5, f6, f7, -, f10, f11, -, f12, f13⟩ :=
      deform_spec henv (t := t) hne (hv.known hc hk) hv.apparent_nodup c1 hv.find c3 hb
    rw [PileUp.deformPileUpIfNeeded, if_neg (by simpa using hne), f1, Option.some.injEq] at e1
    subst e1
    obtain ⟨g1, g2, g3, g4, g5, g6⟩ := e3.fields
    have hp : u₂.parts = u.parts := by rw [g1, f2]
    refine ⟨⟨w, by rw [hp]; exact hk⟩, by rw [g6, f2], ⟨_, _, _, _, _, fun w' hw' => hv'.world fun p hp => ⟨_, hw' p hp⟩, f12.congr g2 g3 g4 g5, f13.congr g4⟩, ?_, ?_⟩
    · rw [g4, f10]; exact (f11 t).1
    · rw [g4, g2, f10]; exact (f11 t).2
  | @warp w w' u u' s t ok back hrun hk hr hb ht he ih =>
    obtain ⟨d, A, t₀, m, R, hval, hs, hbal⟩ := ih.balanced
    have hv := hval w hk
    obtain ⟨last, hl⟩ := hv.recorded
    obtain ⟨u₁, new, w₂, u₂, ok₂, last', back', e1, e2, e3, hv'⟩ := hv.moved henv (.inl ih.apparent) hr hl.latest hb ht
    rw [e2, Option.some.injEq, Prod.mk.injEq, Prod.mk.injEq] at he
    obtain ⟨rfl, rfl, rfl⟩ := he
    obtain ⟨u₁', Q, ω, f1, f2, f3, f4, -, f5, f6, f7⟩ := warp_spec hs hv.actual_nodup t
    rw [PileUp.deformPileUpIfNeeded, if_pos (by rw [ih.apparent]; rfl), f1, Option.some.injEq] at e1
    subst e1
    obtain ⟨g1, g2, g3, g4, g5, g6⟩ := e3.fields
    obtain ⟨k1, k2⟩ := f7 matter hbal
    have hp : u₂.parts = u.parts := by rw [g1, f2]
    have hang : u₁'.angularMomentum = u.angularMomentum := by rw [f2]
    refine ⟨⟨w, by rw [hp]; exact hk⟩, by rw [g6, f2]; exact ih.apparent,
      ⟨_, _, _, _, _, fun w' hw' => hv'.world fun p hp => ⟨_, hw' p hp⟩, f6.congr g2 g3 g4 g5, k1.congr g4⟩, ?_, ?_⟩
    · rw [g4, f5]; exact (k2 t).1
    · rw [g4, g2, f5, hang]; exact (k2 t).2
  | @recompute w u u' s hrun hk he ih =>
    obtain ⟨d, A, t₀, m, R, hval, hs, hbal⟩ := ih.balanced
    obtain ⟨h1, h2⟩ := (hval w hk).recompute
    rw [h1, Option.some.injEq] at he
    subst he
    exact ⟨⟨w, hk⟩, ih.apparent, ⟨d, A, t₀, m, R, fun w' hw' => h2.world fun p hp => ⟨_, hw' p hp⟩, hs.congr rfl rfl rfl rfl, hbal.congr rfl⟩, ih.centred, ih.angular⟩

/-- From the construction of a pile-up, or from a time when its parts were given apparent motions, and for as long as no other apparent motion is given and the parts don't change,
no matter the times at which it is advanced: the particles of the parts, as they move with respect to the pile-up, are in the frame of their centre of mass, and their angular
momentum is the one that was given to the pile-up. -/
theorem C72_conservation (henv : env.Correct position) (h : Run env matter u s) : Centred (moving matter u.actual) ∧ HasAngularMomentum (moving matter u.actual) u.angularMomentum :=
  ⟨(h.conserved henv).centred, (h.conserved henv).angular⟩

/-- Without apparent motions, the pile-up turns as a free rigid body does: the rotation from the last time is such that at all times the particles have the angular momentum of the
pile-up. -/
theorem C72_free_rotation (henv : env.Correct position) (h : Run env matter u s) (hk : ∀ p ∈ u.parts, Describes (w p) (matter p)) (t : ℝ) :
    ∃ (u' : PileUp ι) (Q : ℝ → Rotation ℝ) (ω : ℝ → R3 ℝ), u.deformPileUpIfNeeded env w t = some u' ∧ u' = { u with actual := u'.actual } ∧ Turning Q ω ∧ (∀ v, (Q s).apply v = v) ∧
      moving matter u'.actual = turn ⟨0, 0⟩ 0 (Q t) (ω t) (still (moving matter u.actual)) ∧
      ∀ t', Centred (turn ⟨0, 0⟩ 0 (Q t') (ω t') (still (moving matter u.actual))) ∧
        HasAngularMomentum (turn ⟨0, 0⟩ 0 (Q t') (ω t') (still (moving matter u.actual))) u.angularMomentum := by
  have hcon := h.conserved henv
  obtain ⟨d, A, t₀, m, R, hval, hs, hbal⟩ := hcon.balanced
  obtain ⟨u', Q, ω, f1, f2, f3, f4, -, f5, f6, f7⟩ := warp_spec hs (hval w hk).actual_nodup t
  exact ⟨u', Q, ω, by rw [PileUp.deformPileUpIfNeeded, if_pos (by rw [hcon.apparent]; rfl), f1], f2, f3, f4, f5 matter, (f7 matter hbal).2⟩

/-- Advancing a pile-up without giving apparent motions doesn't change its angular momentum. -/
theorem C72_isolated (henv : env.Correct position) (h : Reach env w u s) (he : u.apparent = []) (hr : Ready w u) {w' : World} {u' : PileUp ι} {t : ℝ} {ok : Bool}
    (ha : u.deformAndAdvanceTime env w t = some (w', u', ok)) : u'.angularMomentum = u.angularMomentum := by
  have hv := h.valid henv
  obtain ⟨last, hl⟩ := hv.recorded
  obtain ⟨back, hb⟩ : ∃ b, u.back = some b := by rw [hl.back]; exact ⟨_, List.getLast?_eq_some_getLast (by simp)⟩
  by_cases ht : back.time < t
  · obtain ⟨u₁, new, w₂, u₂, ok₂, last', back', e1, e2, e3, hv'⟩ := hv.moved henv (.inl he) hr hl.latest hb ht
    rw [e2, Option.some.injEq, Prod.mk.injEq, Prod.mk.injEq] at ha
    obtain ⟨rfl, rfl, rfl⟩ := ha
    obtain ⟨u₁', Q, ω, f1, f2, -⟩ := C72_warp henv h he t
    rw [e1, Option.some.injEq] at f1
    subst f1
    rw [e3.fields.2.1, f2]
  · rw [PileUp.deformAndAdvanceTime, hb, Option.bind_some, if_neg ht, Option.some.injEq, Prod.mk.injEq, Prod.mk.injEq] at ha
    rw [← ha.2.1]

theorem moving_placed {l : PartTo RigidMotion} {f : ℕ → RigidMotion} {c : DegreesOfFreedom}
    (h : ∀ x ∈ l, ∀ d, (f x.1).apply d = ⟨(x.2.apply d).position + c.position, (x.2.apply d).velocity + c.velocity⟩) :
    moving matter l = (moving matter (l.map fun x => (x.1, f x.1))).map fun q => ⟨q.mass, ⟨q.state.position - c.position, q.state.velocity - c.velocity⟩⟩ := by
  simp only [moving, List.flatMap_map, List.map_flatMap, List.map_map, Function.comp_def]
  refine List.flatMap_congr fun x hx => List.map_congr_left fun y _ => ?_
  rw [h x hx]
  congr 2 <;> ext <;> simp

/-- After a pile-up has advanced, the centre of mass of the particles of the parts is at the end of its trajectory, and their angular momentum with respect to it is that of the
pile-up. -/
theorem C72_barycentre (henv : env.Correct position) (h : Reach env w u s) (hc : Covered u) (hr : Ready w u) {back : Point} (hb : u.back = some back) {t : ℝ} (ht : back.time < t)
    {w' : World} {u' : PileUp ι} {ok : Bool} (ha : u.deformAndAdvanceTime env w t = some (w', u', ok)) (hrun : Run env matter u' t) :
    ∃ back' ps, u'.back = some back' ∧ (u'.actual.map (·.1)).Perm u'.parts ∧ ps = moving matter (u'.actual.map fun x => (x.1, (w' x.1).rigidMotion)) ∧
      totalMass ps • back'.state.position = firstMoment ps ∧ totalMass ps • back'.state.velocity = momentum ps ∧
      HasAngularMomentum (ps.map fun q => ⟨q.mass, ⟨q.state.position - back'.state.position, q.state.velocity - back'.state.velocity⟩⟩) u'.angularMomentum := by
  have hv := h.valid henv
  obtain ⟨last, hl⟩ := hv.recorded
  obtain ⟨u₁, u₂, w₂, ok₂, new, last', back', e1, e2, e3, e4, e5, -, -, -, -, -, -, e6⟩ := C72_advance henv h hc hr hl.latest hb ht
  rw [e2, Option.some.injEq, Prod.mk.injEq, Prod.mk.injEq] at ha
  obtain ⟨rfl, rfl, rfl⟩ := ha
  have hv' := hv.advance henv hc hr hb ht e2
  have hcon := hrun.conserved henv
  have hback : u₂.back = some back' := by
    rw [PileUp.back, show u₂.history = [last'] by rw [e3]]
    exact e5
  have hpar : u₂.parts = u.parts := by
    obtain ⟨u₁', d1, d2, d3⟩ := hv.deformed henv hc t
    rw [e1, Option.some.injEq] at d1
    subst d1
    rw [e3, d3]
  have hmov := moving_placed (matter := matter) (l := u₂.actual) (f := fun p => (w₂ p).rigidMotion) (c := back'.state) fun x hx d => by
    have hp : x.1 ∈ u.parts := by rw [← hpar, hv'.actual_keys]; exact List.mem_map.2 ⟨x, hx, rfl⟩
    obtain ⟨m, -, m1, -, -, -, m2, -⟩ := e6 x.1 hp
    have : m = x.2 := by
      have := PartTo.find_of_mem hv'.actual_nodup (p := x.1) (a := x.2) hx
      rw [m1, Option.some.injEq] at this
      exact this
    rw [m2, this]
  refine ⟨back', _, hback, (List.perm_ext_iff_of_nodup hv'.actual_nodup hv'.parts_nodup).2 fun p => (hv'.actual_keys p).symm, rfl, ?_, ?_, ?_⟩
  · have := hcon.centred.1
    rw [hmov, translated_firstMoment] at this
    simp only [R3.ext_iff] at this ⊢
    simp at this
    exact ⟨by simp; linarith [this.1], by simp; linarith [this.2.1], by simp; linarith [this.2.2]⟩
  · have := hcon.centred.2
    rw [hmov, translated_momentum] at this
    simp only [R3.ext_iff] at this ⊢
    simp at this
    exact ⟨by simp; linarith [this.1], by simp; linarith [this.2.1], by simp; linarith [this.2.2]⟩
  · rw [← hmov]
    exact hcon.angular

/-- If its clients follow the rules, the functions of a pile-up don't fail.  Setting the apparent motion of a part fails if it has been set, and only then.  Advancing to a
time which is not after the end of the trajectory does nothing. -/
theorem C72_no_crash (henv : env.Correct position) (h : Reach env w u s) :
    (∃ u', u.recomputeFromParts w = some u') ∧
    (∀ p m, u.setPartApparentRigidMotion p m = none ↔ ∃ m', (p, m') ∈ u.apparent) ∧
    (∀ p m u', u.setPartApparentRigidMotion p m = some u' → u' = { u with apparent := u.apparent ++ [(p, m)] }) ∧
    (∀ t, Covered u → Ready w u → ∃ w' u' ok, u.deformAndAdvanceTime env w t = some (w', u', ok)) ∧
    (∀ t, (∀ back, u.back = some back → t ≤ back.time) → u.deformAndAdvanceTime env w t = some (w, u, true)) ∧
    ∀ t, ¬Covered u → (∀ back, u.back = some back → back.time < t) → u.deformAndAdvanceTime env w t = none := by
  have hv := h.valid henv
  obtain ⟨last, hl⟩ := hv.recorded
  obtain ⟨back, hb⟩ : ∃ b, u.back = some b := by rw [hl.back]; exact ⟨_, List.getLast?_eq_some_getLast (by simp)⟩
  have hstill : ∀ t, ¬back.time < t → u.deformAndAdvanceTime env w t = some (w, u, true) := fun t ht => by
    rw [PileUp.deformAndAdvanceTime, hb, Option.bind_some, if_neg ht]
  have hkey : ∀ p, (u.apparent.find p).isSome ↔ ∃ m', (p, m') ∈ u.apparent := fun p => by rw [PartTo.find_isSome]; simp [PartTo.keys]
  refine ⟨⟨_, hv.recompute.1⟩, fun p m => ?_, fun p m u' he => ?_, fun t hc hr => ?_, fun t ht => hstill t (not_lt.2 (ht back hb)), fun t hc ht => ?_⟩
  · rw [← hkey, PileUp.setPartApparentRigidMotion]
    by_cases hs : (u.apparent.find p).isSome
    · rw [if_pos hs]; simp [hs]
    · rw [if_neg hs]; simp [hs]
  · rw [PileUp.setPartApparentRigidMotion] at he
    by_cases hs : (u.apparent.find p).isSome
    · rw [if_pos hs] at he; cases he
    · rw [if_neg hs, Option.some.injEq] at he
      rw [PartTo.find_isSome] at hs
      rw [PartTo.emplace_new hs] at he
      exact he.symm
  · by_cases ht : back.time < t
    · obtain ⟨u₁, new, w', u', ok, last', back', e1, e2, -, -⟩ := hv.moved henv hc hr hl.latest hb ht
      exact ⟨_, _, _, e2⟩
    · exact ⟨_, _, _, hstill t ht⟩
  · have hne : u.apparent ≠ [] := fun h0 => hc (.inl h0)
    have hfail : ¬(u.parts.length = u.apparent.length ∧ ∀ part ∈ u.parts, (u.apparent.find part).isSome) := by
      rintro ⟨h1, h2⟩
      refine hc (.inr fun p => ?_)
      rw [← hkey, PartTo.find_isSome]
      refine ⟨fun hp => (PartTo.find_isSome _ _).1 (h2 p hp), fun hp => ?_⟩
      have hsub : u.parts ⊆ PartTo.keys u.apparent := fun q hq => (PartTo.find_isSome _ _).1 (h2 q hq)
      have hperm := (List.subperm_of_subset hv.parts_nodup hsub).perm_of_length_le (by rw [PartTo.keys, List.length_map, h1])
      exact hperm.mem_iff.2 hp
    rw [PileUp.deformAndAdvanceTime, hb, Option.bind_some, if_pos (ht back hb), PileUp.deformPileUpIfNeeded, if_neg (by simpa using hne), PileUp.deform, if_neg hfail]
    rfl

/-! ## Examples -/

/-- A part made of six particles at unit distance from its centre. -/
def octahedron : List (ℝ × R3 ℝ) := [(1, ⟨1, 0, 0⟩), (1, ⟨-1, 0, 0⟩), (1, ⟨0, 1, 0⟩), (1, ⟨0, -1, 0⟩), (1, ⟨0, 0, 1⟩), (1, ⟨0, 0, -1⟩)]

/-- A part with a motion. -/
noncomputable def examplePart (position velocity angularVelocity force : R3 ℝ) : Part :=
  { mass := 6, massChange := -1, isSolidRocketMotor := true, inertiaTensor := M3.diagonal ⟨4, 4, 4⟩, intrinsicForce := force, intrinsicTorque := 0
    rigidMotion := ⟨⟨0, position, .identity⟩, angularVelocity, velocity⟩, history := [], psychohistory := none }

theorem example_describes (q v ω f : R3 ℝ) : Describes (examplePart q v ω f) octahedron := by
  refine ⟨by simp [examplePart, octahedron, totalMass]; norm_num, ?_, fun ω => ?_, by simp [octahedron], fun ω hω => ?_⟩
  · ext <;> simp [octahedron, firstMoment]
  · ext <;> simp [examplePart, octahedron, spin, M3.mulVec, M3.diagonal, R3.dot, R3.cross] <;> ring
  · simp only [examplePart, M3.mulVec, M3.diagonal, R3.dot]
    have : ω.x ≠ 0 ∨ ω.y ≠ 0 ∨ ω.z ≠ 0 := by
      by_contra hn
      push Not at hn
      exact hω (by ext <;> simp [hn])
    rcases this with h | h | h <;> nlinarith [sq_nonneg ω.x, sq_nonneg ω.y, sq_nonneg ω.z, pow_pos (abs_pos.2 h) 2, sq_abs ω.x, sq_abs ω.y, sq_abs ω.z]

/-- Two spinning parts. -/
noncomputable def exampleWorld : World := fun p => if p = 0 then examplePart ⟨3, 0, 0⟩ ⟨0, 1, 0⟩ ⟨0, 0, 1⟩ ⟨1, 0, 0⟩ else examplePart ⟨-1, 0, 0⟩ ⟨0, 0, 2⟩ ⟨1, 0, 0⟩ 0

open Classical in
/-- Integrators that leave the pile-up where it is; the step of the first one is 1. -/
noncomputable def exampleEnv : Env Point where
  davenport _ _ _ := .identity
  newInstance p := p
  flowFixed t p := if p.time + 1 ≤ t then ([⟨p.time + 1, p.state⟩], ⟨p.time + 1, p.state⟩, true) else ([], p, true)
  flowAdaptive _ t p := if p.time < t then ([⟨t, p.state⟩], true) else ([], true)
  L := M3.diagonal 0
  U := M3.diagonal 0

theorem example_correct : exampleEnv.Correct id := by
  refine ⟨fun _ _ _ => by simp [exampleEnv, Rotation.IsUnit, Rotation.identity, Quat.normSq, Quat.ofReal, R3.normSq, R3.dot], fun _ => rfl, fun t i => ?_, fun t i => ?_, fun a t p => ?_, fun a t p ht _ => ?_⟩
  · by_cases h : i.time + 1 ≤ t
    · simp only [exampleEnv, if_pos h]; simp [Increasing, h]
    · simp only [exampleEnv, if_neg h]; simp [Increasing]
  · by_cases h : i.time + 1 ≤ t
    · simp only [exampleEnv, if_pos h]; rfl
    · simp only [exampleEnv, if_neg h]; rfl
  · by_cases h : p.time < t
    · simp only [exampleEnv, if_pos h]; simp [Increasing, h]
    · simp only [exampleEnv, if_neg h]; simp [Increasing]
  · simp only [exampleEnv, if_pos ht]
    exact ⟨_, rfl, rfl⟩

theorem example_parts : ∀ p ∈ [0, 1], Describes (exampleWorld p) octahedron ∧ (exampleWorld p).rigidMotion.orthogonalMap.IsUnit := by
  intro p hp
  have : exampleWorld p = examplePart ⟨3, 0, 0⟩ ⟨0, 1, 0⟩ ⟨0, 0, 1⟩ ⟨1, 0, 0⟩ ∨ exampleWorld p = examplePart ⟨-1, 0, 0⟩ ⟨0, 0, 2⟩ ⟨1, 0, 0⟩ 0 := by
    simp only [exampleWorld]
    by_cases h : p = 0
    · rw [if_pos h]; exact .inl rfl
    · rw [if_neg h]; exact .inr rfl
  rcases this with h | h <;> rw [h] <;> exact ⟨example_describes _ _ _ _, identity_unit⟩

/-- The apparent motions of the parts. -/
noncomputable def exampleMotion₀ : RigidMotion := ⟨⟨0, ⟨0, 0, 0⟩, .identity⟩, ⟨1, 1, 0⟩, ⟨0, 0, 0⟩⟩

/-- The apparent motions of the parts. -/
noncomputable def exampleMotion₁ : RigidMotion := ⟨⟨0, ⟨4, 0, 0⟩, .identity⟩, 0, ⟨1, 0, 0⟩⟩

/-- The centre of mass of the two parts is where it should be, and the hypotheses of the theorems are met by a pile-up that has been constructed, deformed and advanced. -/
example : ∃ (u u₁ u₂ : PileUp Point) (w' : World) (ok : Bool), PileUp.make exampleWorld [0, 1] 5 = some u ∧ u.history = [⟨5, ⟨⟨1, 0, 0⟩, ⟨0, -2, -1⟩⟩⟩] ∧
    Reach exampleEnv exampleWorld u₁ 5 ∧ u₁.apparent ≠ [] ∧ Covered u₁ ∧ Ready exampleWorld u₁ ∧
    u₁.deformAndAdvanceTime exampleEnv exampleWorld 7 = some (w', u₂, ok) ∧ Run exampleEnv (fun _ => octahedron) u₂ 7 := by
  obtain ⟨u, c, e1, e2, e3, e4, e5, e6, e7, e8, -⟩ := C72_construct (ι := Point) (matter := fun _ => octahedron) (w := exampleWorld) (parts := [0, 1]) (by simp) (by simp) example_parts 5
  have hu : Reach exampleEnv exampleWorld u 5 := .make (by simp) (by simp) (fun p hp => ⟨⟨_, (example_parts p hp).1⟩, (example_parts p hp).2⟩) e1
  have hm : ∀ p m, u.apparent.find p = none → u.setPartApparentRigidMotion p m = some { u with apparent := u.apparent.emplace p m } := fun p m h => by
    rw [PileUp.setPartApparentRigidMotion, if_neg (by rw [h]; simp)]
  have h1 : u.setPartApparentRigidMotion 1 exampleMotion₁ = some { u with apparent := [(1, exampleMotion₁)] } := by
    rw [hm _ _ (by rw [e5]; rfl), e5]; rfl
  have hu1 := Reach.set (m := exampleMotion₁) hu identity_unit h1
  have h2 : PileUp.setPartApparentRigidMotion { u with apparent := [(1, exampleMotion₁)] } 0 exampleMotion₀ =
      some { u with apparent := [(1, exampleMotion₁), (0, exampleMotion₀)] } := rfl
  have hu2 := Reach.set (m := exampleMotion₀) hu1 identity_unit h2
  have hcov : Covered ({ u with apparent := [(1, exampleMotion₁), (0, exampleMotion₀)] } : PileUp Point) := by
    refine .inr fun p => ?_
    show p ∈ u.parts ↔ _
    rw [e2]
    simp [or_comm, exists_or]
  have hready : Ready exampleWorld ({ u with apparent := [(1, exampleMotion₁), (0, exampleMotion₀)] } : PileUp Point) := by
    intro p _
    simp only [exampleWorld]
    by_cases h : p = 0
    · rw [if_pos h]; simp [examplePart, Increasing]
    · rw [if_neg h]; simp [examplePart, Increasing]
  obtain ⟨w', u', ok, ha⟩ := (C72_no_crash example_correct hu2).2.2.2.1 7 hcov hready
  refine ⟨u, _, u', w', ok, e1, ?_, hu2, by simp, hcov, hready, ha, .deform (back := ⟨5, c⟩) hu2 (by simp) (fun p hp => ?_) hcov hready ?_ ?_ ha⟩
  · rw [e3]
    have hc : c = ⟨⟨1, 0, 0⟩, ⟨0, -2, -1⟩⟩ := by
      rw [R3.ext_iff] at e7 e8
      simp [moving, octahedron, totalMass, firstMoment, momentum, exampleWorld, examplePart, RigidMotion.apply, Geometry.AffineMap.apply, RigidMotion.orthogonalMap, identity_apply,
        bivectorTimesVector, R3.cross, Geometry.AffineMap.inverse, identity_inverse] at e7 e8
      norm_num at e7 e8
      cases c with
      | mk q v =>
        simp only at e7 e8
        congr 1
        · ext <;> simp <;> linarith [e7.1, e7.2.1, e7.2.2]
        · ext <;> simp <;> linarith [e8.1, e8.2.1, e8.2.2]
    rw [hc]
  · have hp' : p ∈ u.parts := hp
    rw [e2] at hp'
    exact (example_parts p hp').1
  · show (u.history ++ u.psychohistory).getLast? = _
    rw [e3, e4]; rfl
  · show (5 : ℝ) < 7
    norm_num

end Principia.Ksp.PileUp
