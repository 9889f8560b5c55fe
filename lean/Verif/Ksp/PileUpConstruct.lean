import Verif.Ksp.PileUpDeform

/-!
Lemmas about the construction of a pile-up, and about the forces on it.
-/

set_option linter.unusedSimpArgs false
set_option linter.unusedVariables false
set_option linter.unusedSectionVars false

namespace Principia.Ksp.PileUp

open Geometry Physics.Motion Physics.Mechanical Physics.Euler

variable {ι : Type} {w : World} {matter : Matter} {u : PileUp ι}

/-- The rate at which the angular momentum changes because of the mass flow of a part. -/
noncomputable def massFlow (p : Part) (m : RigidMotion) : R3 ℝ :=
  if p.isSolidRocketMotor then (m.apply ⟨0, 0⟩).position.cross (p.massChange • (m.apply ⟨0, 0⟩).velocity) +
    (p.massChange / p.mass) • (m.orthogonalMap.applyForm p.inertiaTensor).mulVec m.angularVelocityOfFromFrame else 0

theorem massFlow_eq {p : Part} {m : RigidMotion} {l : List (ℝ × R3 ℝ)} (hm : m.orthogonalMap.IsUnit) (h : Describes p l) (hs : p.isSolidRocketMotor = true) :
    massFlow p m = (p.massChange / p.mass) • angularMomentumAbout ⟨0, 0⟩ (l.map fun y => (⟨y.1, m.apply ⟨y.2, 0⟩⟩ : Particle)) := by
  rw [massFlow, if_pos hs, angularMomentum_particles hm h]
  have hp := h.mass_pos.ne'
  generalize (m.orthogonalMap.applyForm p.inertiaTensor).mulVec m.angularVelocityOfFromFrame = a
  ext <;> simp [R3.cross] <;> field_simp

theorem recompute_fold (f : ℕ → RigidMotion) (l : List ℕ) (u : PileUp ι) (hf : ∀ p ∈ l, u.actual.find p = some (f p)) (hm : ∀ p ∈ l, (w p).mass ≠ 0) :
    l.foldlM (PileUp.recomputeFromPart w) u = some { u with
      mass := u.mass + (l.map fun p => (w p).mass).sum
      intrinsicForce := u.intrinsicForce + (l.map fun p => (w p).intrinsicForce).sum
      intrinsicTorque := u.intrinsicTorque + (l.map fun p => ((f p).apply ⟨0, 0⟩).position.cross (w p).intrinsicForce + (w p).intrinsicTorque).sum
      angularMomentumChange := u.angularMomentumChange + (l.map fun p => massFlow (w p) (f p)).sum } := by
  induction l generalizing u with
  | nil =>
    simp only [List.foldlM_nil, List.map_nil, List.sum_nil, R3.add_zero', add_zero]
    rfl
  | cons p l ih =>
    have hz : ∀ a : R3 ℝ, a - 0 = a := fun a => by ext <;> simp
    have h1 : PileUp.recomputeFromPart w u p = some { u with
        mass := u.mass + (w p).mass, intrinsicForce := u.intrinsicForce + (w p).intrinsicForce
        intrinsicTorque := u.intrinsicTorque + (((f p).apply ⟨0, 0⟩).position.cross (w p).intrinsicForce + (w p).intrinsicTorque)
        angularMomentumChange := u.angularMomentumChange + massFlow (w p) (f p) } := by
      rw [PileUp.recomputeFromPart, hf p List.mem_cons_self]
      simp only [Option.bind_some, wedge, hz]
      by_cases hs : (w p).isSolidRocketMotor = true
      · rw [if_pos hs, if_neg (hm p List.mem_cons_self), massFlow, if_pos hs]
      · rw [if_neg hs, massFlow, if_neg hs, R3.add_zero']
    rw [List.foldlM_cons, h1]
    change List.foldlM (PileUp.recomputeFromPart w) _ l = _
    rw [ih]
    rotate_left
    · exact fun q hq => hf q (List.mem_cons_of_mem _ hq)
    · exact fun q hq => hm q (List.mem_cons_of_mem _ hq)
    simp only [List.map_cons, List.sum_cons, R3.add_assoc', add_assoc]

theorem recompute_spec (f : ℕ → RigidMotion) (hf : ∀ p ∈ u.parts, u.actual.find p = some (f p)) (hm : ∀ p ∈ u.parts, (w p).mass ≠ 0) :
    u.recomputeFromParts w = some { u with
      mass := (u.parts.map fun p => (w p).mass).sum
      intrinsicForce := (u.parts.map fun p => (w p).intrinsicForce).sum
      intrinsicTorque := (u.parts.map fun p => ((f p).apply ⟨0, 0⟩).position.cross (w p).intrinsicForce + (w p).intrinsicTorque).sum
      angularMomentumChange := (u.parts.map fun p => massFlow (w p) (f p)).sum } := by
  rw [PileUp.recomputeFromParts, recompute_fold f]
  rotate_left
  · exact hf
  · exact hm
  simp only [R3.zero_add', zero_add]

/-- The motions of the parts in the frame of their centre of mass. -/
noncomputable def relativeTo (c : DegreesOfFreedom) (w : World) (p : ℕ) : RigidMotion := (fromCentre c).inverse.mul (w p).rigidMotion

theorem relativeTo_unit (c : DegreesOfFreedom) {p : ℕ} (h : (w p).rigidMotion.orthogonalMap.IsUnit) : (relativeTo c w p).orthogonalMap.IsUnit :=
  mul_unit (linear_inverse_transformation c) h

theorem relativeTo_apply (c : DegreesOfFreedom) {p : ℕ} (h : (w p).rigidMotion.orthogonalMap.IsUnit) (d : DegreesOfFreedom) :
    (relativeTo c w p).apply d = ⟨((w p).rigidMotion.apply d).position - c.position, ((w p).rigidMotion.apply d).velocity - c.velocity⟩ := by
  rw [relativeTo, mul_apply (linear_inverse_transformation c) h, toSystemFrame_apply]

theorem moving_relativeTo (c : DegreesOfFreedom) (parts : List ℕ) (h : ∀ p ∈ parts, (w p).rigidMotion.orthogonalMap.IsUnit) :
    moving matter (parts.map fun p => (p, relativeTo c w p)) =
      (moving matter (parts.map fun p => (p, (w p).rigidMotion))).map fun q => ⟨q.mass, ⟨q.state.position - c.position, q.state.velocity - c.velocity⟩⟩ := by
  induction parts with
  | nil => rfl
  | cons p parts ih =>
    simp only [List.map_cons]
    rw [moving_cons, moving_cons, ih fun q hq => h q (List.mem_cons_of_mem _ hq), List.map_append, List.map_map]
    congr 1
    refine List.map_congr_left fun y _ => ?_
    simp only [Function.comp_apply, relativeTo_apply c (h p List.mem_cons_self)]

theorem translated_firstMoment (c : DegreesOfFreedom) (ps : List Particle) :
    firstMoment (ps.map fun q => ⟨q.mass, ⟨q.state.position - c.position, q.state.velocity - c.velocity⟩⟩) = firstMoment ps - totalMass ps • c.position := by
  induction ps with
  | nil => ext <;> simp
  | cons p ps ih => rw [List.map_cons, firstMoment_cons, ih]; ext <;> simp <;> ring

theorem translated_spin (c : DegreesOfFreedom) (ps : List Particle) (v : R3 ℝ) :
    spin 0 (ps.map fun q => ⟨q.mass, ⟨q.state.position - c.position, q.state.velocity - c.velocity⟩⟩) v = spin c.position ps v := by
  induction ps with
  | nil => rfl
  | cons p ps ih => rw [List.map_cons, spin_cons, spin_cons, ih]; ext <;> simp [R3.cross]

theorem applyForm_congr {R r : Rotation ℝ} (hR : R.IsUnit) (hr : r.IsUnit) (h : ∀ v, R.apply v = r.apply v) {M : M3 ℝ} (hM : M.Symmetric) : R.applyForm M = r.applyForm M := by
  refine mulVec_ext fun v => ?_
  rw [Rotation.applyForm_mulVec' hR hM, Rotation.applyForm_mulVec' hr hM, inverse_apply_congr hR hr h, h]

set_option maxHeartbeats 1000000 in
theorem make_spec {parts : List ℕ} (hne : parts ≠ []) (hn : parts.Nodup) (hk : ∀ p ∈ parts, Describes (w p) (matter p) ∧ (w p).rigidMotion.orthogonalMap.IsUnit) (t : ℝ) :
    ∃ (u : PileUp ι) (c : DegreesOfFreedom) (d : R3 ℝ) (A : Rotation ℝ) (m : ℝ → R3 ℝ) (R : ℝ → Rotation ℝ), PileUp.make w parts t = some u ∧
      u.parts = parts ∧ u.history = [⟨t, c⟩] ∧ u.psychohistory = [] ∧ u.apparent = [] ∧ u.fixedInstance = none ∧
      (totalMass (moving matter (parts.map fun p => (p, (w p).rigidMotion))) • c.position = firstMoment (moving matter (parts.map fun p => (p, (w p).rigidMotion))) ∧
        totalMass (moving matter (parts.map fun p => (p, (w p).rigidMotion))) • c.velocity = momentum (moving matter (parts.map fun p => (p, (w p).rigidMotion)))) ∧
      u.angularMomentum = angularMomentumAbout c (moving matter (parts.map fun p => (p, (w p).rigidMotion))) ∧
      u.actual = parts.map (fun p => (p, relativeTo c w p)) ∧ PartTo.keys u.rigidPileUp = PartTo.keys u.actual ∧
      (u.mass = (parts.map fun p => (w p).mass).sum ∧ u.intrinsicForce = (parts.map fun p => (w p).intrinsicForce).sum ∧ u.recomputeFromParts w = some u) ∧
      Solved u t d A t m R ∧ Balanced matter u t d R := by
  have hk' : Known w matter (parts.map fun p => (p, (w p).rigidMotion)) := by
    intro x hx
    obtain ⟨p, hp, rfl⟩ := List.mem_map.1 hx
    exact hk p hp
  have hmass : ∀ p ∈ parts, (w p).mass ≠ 0 := fun p hp => (hk p hp).1.mass_pos.ne'
  set ps := moving matter (parts.map fun p => (p, (w p).rigidMotion)) with hps
  obtain ⟨c, J, hs⟩ := system_spec _ (by simpa using hne) hk'
  rw [← systemOfParts_eq, ← hps] at hs
  obtain ⟨d, r, e1, hr, hd, hbal⟩ := hs.diagonalize
  set L := angularMomentumAbout c ps with hL
  obtain ⟨solver, m, R, k1, k2, -, k3⟩ := solver_motion (L := L) (t₀ := t) hd hr
  have hR := k2.unit
  have hkeys : (PartTo.keys (parts.map fun p => (p, relativeTo c w p))).Nodup := by rw [PartTo.keys_parts]; exact hn
  have hfind : ∀ p ∈ parts, PartTo.find (parts.map fun p => (p, relativeTo c w p)) p = some (relativeTo c w p) := fun p hp =>
    PartTo.find_of_mem hkeys (List.mem_map.2 ⟨p, hp, rfl⟩)
  let T : RigidTransformation := ⟨0, 0, r.inverse.forgetOrthogonal⟩
  have hT : T.linearMap.IsUnit := Rotation.inverse_unit' hr
  let u₀ : PileUp ι :=
    { parts := parts, mass := 0, intrinsicForce := 0, intrinsicTorque := 0, angularMomentumChange := 0, history := [⟨t, c⟩], psychohistory := [], angularMomentum := L
      fixedInstance := none, actual := parts.map fun p => (p, relativeTo c w p), apparent := []
      rigidPileUp := (parts.map fun p => (p, relativeTo c w p)).map fun x => (x.1, T.mul x.2.rigidTransformation), eulerSolver := some solver }
  have hrec := recompute_spec (u := u₀) (w := w) (relativeTo c w) hfind hmass
  have hmake : PileUp.make w parts t = u₀.recomputeFromParts w := by
    rw [PileUp.make]
    simp only [hs.centre, hs.angular, hs.linear, hs.inertia, Option.bind_some]
    rw [PartTo.foldl_emplace_parts (fun p => (fromCentre c).inverse.mul (w p).rigidMotion) _ hn]
    simp only [PileUp.makeEulerSolver, e1, Option.bind_some]
    rw [← hL, k1]
    simp only [Option.map_some, Option.bind_some]
    have hfold := PartTo.foldl_emplace (fun x : ℕ × RigidMotion => T.mul x.2.rigidTransformation) (parts.map fun p => (p, relativeTo c w p)) hkeys
    simp only [relativeTo] at hfold
    rw [hfold]
    rfl
  have hmov : moving matter (parts.map fun p => (p, relativeTo c w p)) = ps.map fun q => ⟨q.mass, ⟨q.state.position - c.position, q.state.velocity - c.velocity⟩⟩ :=
    moving_relativeTo c parts fun p hp => (hk p hp).2
  refine ⟨_, c, d, r, m, R, hmake.trans hrec, rfl, rfl, rfl, rfl, rfl, ⟨hs.position, hs.velocity⟩, rfl, rfl, ?_, ⟨rfl, rfl, recompute_spec (relativeTo c w) hfind hmass⟩, ⟨hd, hr, k2, ⟨solver, rfl, k1, k3⟩, fun x hx => ?_⟩, ?_, ?_⟩
  · exact PartTo.keys_map _ _
  · have hx' := hx
    obtain ⟨p, hp, rfl⟩ := List.mem_map.1 hx
    have hu := relativeTo_unit c (hk p hp).2
    refine ⟨hu, T.mul (relativeTo c w p).rigidTransformation, PartTo.find_map (fun x : ℕ × RigidMotion => T.mul x.2.rigidTransformation) hkeys hx', ?_, fun q => ?_⟩
    · exact (C37_rigid_compose T _ hT hu 0).1
    · rw [(C37_rigid_compose T _ hT hu q).2.1, k2.initial]
      show (relativeTo c w p).rigidTransformation.apply q = r.apply (r.inverse.forgetOrthogonal.apply (_ - 0) + 0)
      rw [Rotation.forgetOrthogonal_apply]
      rw [show ∀ a : R3 ℝ, r.apply (r.inverse.apply (a - 0) + 0) = a from fun a => by
        rw [show a - 0 = a by ext <;> simp, R3.add_zero', Rotation.apply_inverse' hr]]
  · show firstMoment (moving matter (parts.map fun p => (p, relativeTo c w p))) = 0
    rw [hmov, translated_firstMoment, hs.position]
    ext <;> simp
  · refine ⟨J, hs.symmetric, fun v => ?_, ?_⟩
    · show _ = spin 0 (moving matter (parts.map fun p => (p, relativeTo c w p))) v
      rw [hmov, translated_spin, hs.spin]
    · rw [applyForm_congr (hR t) hr k2.initial (diagonal_symmetric d)]
      exact hbal

end Principia.Ksp.PileUp
