import Verif.Ksp.PileUpRotation

/-!
Lemmas about the maps from parts to motions, and about the mechanical system made of the parts of a pile-up.
-/

set_option linter.unusedSimpArgs false
set_option linter.unusedVariables false
set_option linter.unusedSectionVars false

namespace Principia.Ksp.PileUp

open Geometry Physics.Motion Physics.Mechanical Physics.Euler

/-! ## Maps -/

namespace PartTo

variable {α β : Type}

/-- The keys of a map. -/
def keys (m : PartTo α) : List ℕ := m.map (·.1)

theorem find_isSome (m : PartTo α) (p : ℕ) : (m.find p).isSome ↔ p ∈ keys m := by
  rw [find, Option.isSome_map, List.find?_isSome, keys]
  simp

theorem find_none (m : PartTo α) (p : ℕ) (h : p ∉ keys m) : m.find p = none := by
  rw [← Option.not_isSome_iff_eq_none, find_isSome]; exact h

theorem mem_of_find {m : PartTo α} {p : ℕ} {a : α} (h : m.find p = some a) : (p, a) ∈ m := by
  simp only [find, Option.map_eq_some_iff] at h
  obtain ⟨x, hx, rfl⟩ := h
  have h1 := List.find?_some hx
  simp only [decide_eq_true_eq] at h1
  rw [← h1]
  exact List.mem_of_find?_eq_some hx

theorem find_of_mem {m : PartTo α} (hm : (keys m).Nodup) {p : ℕ} {a : α} (h : (p, a) ∈ m) : m.find p = some a := by
  induction m with
  | nil => simp at h
  | cons x m ih =>
    simp only [keys, List.map_cons, List.nodup_cons] at hm
    by_cases hx : x.1 = p
    · rcases List.mem_cons.1 h with h | h
      · rw [find, List.find?_cons_of_pos (by simp [hx]), ← h]; rfl
      · exact absurd (List.mem_map.2 ⟨_, h, hx.symm⟩) hm.1
    · rcases List.mem_cons.1 h with h | h
      · rw [← h] at hx; exact absurd rfl hx
      · rw [find, List.find?_cons_of_neg (by simp [hx])]
        exact ih hm.2 h

theorem emplace_new {m : PartTo α} {p : ℕ} (h : p ∉ keys m) (a : α) : m.emplace p a = m ++ [(p, a)] := by
  have : ¬(m.find p).isSome := fun hs => h ((find_isSome m p).1 hs)
  simp only [emplace]
  rw [if_neg this]

theorem foldl_emplace' (f : ℕ × α → β) (l : PartTo α) (m : PartTo β) (h : (keys m ++ keys l).Nodup) :
    l.foldl (fun m x => m.emplace x.1 (f x)) m = m ++ l.map fun x => (x.1, f x) := by
  induction l generalizing m with
  | nil => simp
  | cons x l ih =>
    have hx : x.1 ∉ keys m := by
      rw [List.nodup_append] at h
      exact fun hm => h.2.2 _ hm x.1 (by simp [keys]) rfl
    rw [List.foldl_cons, emplace_new hx, ih]
    · simp
    · simpa [keys] using h

/-- Filling an empty map. -/
theorem foldl_emplace (f : ℕ × α → β) (l : PartTo α) (h : (keys l).Nodup) :
    l.foldl (fun (m : PartTo β) x => m.emplace x.1 (f x)) [] = l.map fun x => (x.1, f x) := by
  rw [foldl_emplace' f l [] (by simpa [keys] using h)]; simp

theorem foldl_emplace_parts (f : ℕ → β) (l : List ℕ) (h : l.Nodup) :
    l.foldl (fun (m : PartTo β) p => m.emplace p (f p)) [] = l.map fun p => (p, f p) := by
  have := foldl_emplace (α := Unit) (fun x => f x.1) (l.map fun p => (p, ())) (by simpa [keys, Function.comp_def] using h)
  simpa [List.foldl_map, Function.comp_def] using this

theorem keys_map (f : ℕ × α → β) (l : PartTo α) : keys (l.map fun x => (x.1, f x)) = keys l := by simp [keys, Function.comp_def]

theorem keys_parts (f : ℕ → β) (l : List ℕ) : keys (l.map fun p => (p, f p)) = l := by simp [keys, Function.comp_def]

theorem find_map {l : PartTo α} (f : ℕ × α → β) (h : (keys l).Nodup) {x : ℕ × α} (hx : x ∈ l) : find (l.map fun x => (x.1, f x)) x.1 = some (f x) :=
  find_of_mem (by rw [keys_map]; exact h) (List.mem_map.2 ⟨x, hx, rfl⟩)

end PartTo

/-! ## Positive definite forms -/

theorem det_ne_zero {J : M3 ℝ} (h : ∀ v : R3 ℝ, v ≠ 0 → 0 < v.dot (J.mulVec v)) : J.det ≠ 0 := by
  have h1 := h ⟨1, 0, 0⟩ (by simp [R3.ext_iff])
  have e1 : 0 < J.rowX.x := by simpa [M3.mulVec, R3.dot] using h1
  have h2 := h ⟨-J.rowX.y, J.rowX.x, 0⟩ (by simp [R3.ext_iff, e1.ne'])
  have e2 : 0 < J.rowX.x * (J.rowX.x * J.rowY.y - J.rowX.y * J.rowY.x) := by
    refine h2.trans_eq ?_
    simp [M3.mulVec, R3.dot]; ring
  have e3 : 0 < J.rowX.x * J.rowY.y - J.rowX.y * J.rowY.x := pos_of_mul_pos_right e2 e1.le
  have h3 := h (J.rowX.cross J.rowY) (by simp [R3.ext_iff, R3.cross, e3.ne'])
  have e4 : 0 < (J.rowX.x * J.rowY.y - J.rowX.y * J.rowY.x) * J.det := by
    refine h3.trans_eq ?_
    simp [M3.mulVec, R3.dot, R3.cross, M3.det]; ring
  exact fun h0 => by rw [h0] at e4; simp at e4

/-! ## The mechanical system of some parts -/

variable {w : World} {matter : Matter}

/-- The parts of a map have known particles, and their motions are rigid. -/
def Known (w : World) (matter : Matter) (l : PartTo RigidMotion) : Prop := ∀ x ∈ l, Describes (w x.1) (matter x.1) ∧ x.2.orthogonalMap.IsUnit

theorem bodies (l : PartTo RigidMotion) (h : Known w matter l) :
    ∃ bs : List RigidBody, (∀ s : MechanicalSystem, bs.foldl (fun s b => s.addRigidBody b.motion b.mass b.inertiaTensor) s =
      l.foldl (fun s x => s.addRigidBody x.2 (w x.1).mass (w x.1).inertiaTensor) s) ∧ bs.flatMap RigidBody.moving = moving matter l := by
  induction l with
  | nil => exact ⟨[], fun s => rfl, rfl⟩
  | cons x l ih =>
    obtain ⟨bs, h1, h2⟩ := ih fun y hy => h y (List.mem_cons_of_mem _ hy)
    obtain ⟨hd, hu⟩ := h x List.mem_cons_self
    refine ⟨⟨x.2, matter x.1, (w x.1).mass, (w x.1).inertiaTensor, hu, hd.mass, hd.centred, hd.inertia⟩ :: bs, fun s => ?_, ?_⟩
    · rw [List.foldl_cons, List.foldl_cons]; exact h1 _
    · rw [List.flatMap_cons, h2]
      simp only [moving, List.flatMap_cons, RigidBody.moving]

theorem Describes.nonempty {p : Part} {l : List (ℝ × R3 ℝ)} (h : Describes p l) : l ≠ [] := by
  rintro rfl
  have := h.solid ⟨1, 0, 0⟩ (by simp [R3.ext_iff])
  rw [h.inertia] at this
  simp [R3.dot] at this

theorem Describes.mass_pos {p : Part} {l : List (ℝ × R3 ℝ)} (h : Describes p l) : 0 < p.mass := by
  rw [h.mass, totalMass, List.map_map]
  have hl := h.nonempty
  have hp := h.positive
  obtain ⟨x, l, rfl⟩ := List.exists_cons_of_ne_nil hl
  rw [List.map_cons, List.sum_cons]
  have h1 : 0 < x.1 := hp x List.mem_cons_self
  have h2 : 0 ≤ (l.map (Particle.mass ∘ fun x : ℝ × R3 ℝ => (⟨x.1, ⟨x.2, 0⟩⟩ : Particle))).sum :=
    List.sum_nonneg fun y hy => by
      obtain ⟨z, hz, rfl⟩ := List.mem_map.1 hy
      exact (hp z (List.mem_cons_of_mem _ hz)).le
  simp only [Function.comp_apply]
  linarith

theorem moving_cons (x : ℕ × RigidMotion) (l : PartTo RigidMotion) :
    moving matter (x :: l) = ((matter x.1).map fun y => (⟨y.1, x.2.apply ⟨y.2, 0⟩⟩ : Particle)) ++ moving matter l := by
  simp only [moving, List.flatMap_cons]

theorem totalMass_particles (m : RigidMotion) (l : List (ℝ × R3 ℝ)) :
    totalMass (l.map fun y => (⟨y.1, m.apply ⟨y.2, 0⟩⟩ : Particle)) = totalMass (l.map fun x => ⟨x.1, ⟨x.2, 0⟩⟩) := by
  simp only [totalMass, List.map_map]
  rfl

theorem totalMass_moving' (l : PartTo RigidMotion) (h : Known w matter l) : totalMass (moving matter l) = (l.map fun x => (w x.1).mass).sum := by
  induction l with
  | nil => rfl
  | cons x l ih =>
    rw [moving_cons, totalMass_append, totalMass_particles, ih fun y hy => h y (List.mem_cons_of_mem _ hy), ← (h x List.mem_cons_self).1.mass, List.map_cons, List.sum_cons]

theorem totalMass_pos (l : PartTo RigidMotion) (hl : l ≠ []) (h : Known w matter l) : 0 < totalMass (moving matter l) := by
  rw [totalMass_moving' l h]
  obtain ⟨x, l, rfl⟩ := List.exists_cons_of_ne_nil hl
  rw [List.map_cons, List.sum_cons]
  have h1 := (h x List.mem_cons_self).1.mass_pos
  have h2 : 0 ≤ (l.map fun x => (w x.1).mass).sum := List.sum_nonneg fun y hy => by
    obtain ⟨z, hz, rfl⟩ := List.mem_map.1 hy
    exact (h z (List.mem_cons_of_mem _ hz)).1.mass_pos.le
  linarith

theorem dot_spin_nonneg (c ω : R3 ℝ) (ps : List Particle) (h : ∀ p ∈ ps, 0 < p.mass) : 0 ≤ ω.dot (spin c ps ω) := by
  induction ps with
  | nil => simp [R3.dot]
  | cons p ps ih =>
    have hp := h p List.mem_cons_self
    have hi := ih fun q hq => h q (List.mem_cons_of_mem _ hq)
    rw [spin_cons]
    have e : ω.dot ((p.state.position - c).cross (p.mass • ω.cross (p.state.position - c)) + spin c ps ω) =
        p.mass * (ω.cross (p.state.position - c)).normSq + ω.dot (spin c ps ω) := by
      simp [R3.dot, R3.cross, R3.normSq]; ring
    rw [e]
    have : 0 ≤ (ω.cross (p.state.position - c)).normSq := by
      simp only [R3.normSq]
      nlinarith [mul_self_nonneg (ω.cross (p.state.position - c)).x, mul_self_nonneg (ω.cross (p.state.position - c)).y, mul_self_nonneg (ω.cross (p.state.position - c)).z]
    nlinarith

theorem applyForm_inertia {m : OrthogonalMap ℝ} (hm : m.IsUnit) {p : Part} {l : List (ℝ × R3 ℝ)} (h : Describes p l) :
    m.applyForm p.inertiaTensor = Form.anticommutator (m.applyForm (secondMoment l)) := by
  have hI : p.inertiaTensor = Form.anticommutator (secondMoment l) := mulVec_ext fun ω => by rw [h.inertia, anticommutator_secondMoment]; rfl
  have hs := secondMoment_symmetric l
  refine form_ext fun v v' => ?_
  have hIs : p.inertiaTensor.Symmetric := by
    rw [hI, symmetric_iff]
    rw [symmetric_iff] at hs
    simp only [Form.anticommutator, M3.identity, M3.sub_rowX, M3.sub_rowY, M3.sub_rowZ, R3.sub_x, R3.sub_y, R3.sub_z, M3.smul_rowX, M3.smul_rowY, M3.smul_rowZ, R3.smul_x,
      R3.smul_y, R3.smul_z]
    rw [hs.1, hs.2.1, hs.2.2]
    exact ⟨rfl, rfl, rfl⟩
  rw [← OrthogonalMap.apply_inverse hm v, ← OrthogonalMap.apply_inverse hm v', (C37_orthogonal_form _ hm _ hIs).2, applyForm_secondMoment _ hm, hI]
  generalize m.inverse.apply v = a
  generalize m.inverse.apply v' = b
  have ha : ∀ (M : M3 ℝ) (a b : R3 ℝ), (Form.anticommutator M).form a b = M.trace * a.dot b - M.form a b := by
    intro M a b
    simp [Form.anticommutator, M3.form, M3.mulVec, R3.dot, M3.identity, M3.trace]; ring
  rw [ha, ha, form_secondMoment _ hm]
  have ht : ∀ l : List (ℝ × R3 ℝ), (secondMoment (l.map fun x => (x.1, m.apply x.2))).trace = (secondMoment l).trace := by
    intro l
    induction l with
    | nil => rfl
    | cons x l ih =>
      have hk : ∀ (M N : M3 ℝ), (M + N).trace = M.trace + N.trace := by intro M N; simp [M3.trace]; ring
      have hk' : ∀ (a : ℝ) (v : R3 ℝ), (a • M3.kronecker v v).trace = a * v.dot v := by intro a v; simp [M3.trace, M3.kronecker, R3.dot]; ring
      simp only [List.map_cons, secondMoment]
      rw [hk, hk, hk', hk', ih, OrthogonalMap.apply_dot hm, OrthogonalMap.inverse_apply hm]
  have hd : (m.apply a).dot (m.apply b) = a.dot b := by rw [OrthogonalMap.apply_dot hm, OrthogonalMap.inverse_apply hm]
  rw [ht, hd]

theorem spin_particles {m : RigidMotion} (hm : m.orthogonalMap.IsUnit) {p : Part} {l : List (ℝ × R3 ℝ)} (h : Describes p l) (c ω : R3 ℝ) :
    spin c (l.map fun y => (⟨y.1, m.apply ⟨y.2, 0⟩⟩ : Particle)) ω =
      ((m.apply ⟨0, 0⟩).position - c).cross (p.mass • ω.cross ((m.apply ⟨0, 0⟩).position - c)) +
        (m.orthogonalMap.applyForm p.inertiaTensor).mulVec ω := by
  have h0 := moving_eq ⟨m, l, p.mass, p.inertiaTensor, hm, h.mass, h.centred, h.inertia⟩
  simp only [RigidBody.moving] at h0
  have hF : firstMoment (resting l) = 0 := h.centred
  have hM : totalMass (resting l) = p.mass := h.mass.symm
  rw [h0, spin_moving, totalMass_map, firstMoment_map hm, hF, hM, OrthogonalMap.apply_zero hm, ← applyForm_secondMoment _ hm]
  rw [applyForm_inertia hm h]
  ext <;> simp [R3.cross]

theorem angularMomentum_particles {m : RigidMotion} (hm : m.orthogonalMap.IsUnit) {p : Part} {l : List (ℝ × R3 ℝ)} (h : Describes p l) :
    angularMomentumAbout ⟨0, 0⟩ (l.map fun y => (⟨y.1, m.apply ⟨y.2, 0⟩⟩ : Particle)) =
      (m.apply ⟨0, 0⟩).position.cross (p.mass • (m.apply ⟨0, 0⟩).velocity) + (m.orthogonalMap.applyForm p.inertiaTensor).mulVec m.angularVelocityOfFromFrame := by
  have h0 := moving_eq ⟨m, l, p.mass, p.inertiaTensor, hm, h.mass, h.centred, h.inertia⟩
  simp only [RigidBody.moving] at h0
  have hF : firstMoment (resting l) = 0 := h.centred
  have hM : totalMass (resting l) = p.mass := h.mass.symm
  rw [h0, angularMomentum_moving, totalMass_map, firstMoment_map hm, hF, hM, OrthogonalMap.apply_zero hm, ← applyForm_secondMoment _ hm, applyForm_inertia hm h]
  have hs := (C37_orthogonal_form m.orthogonalMap hm _ (secondMoment_symmetric l)).1
  generalize m.orthogonalMap.applyForm (secondMoment l) = M at hs
  rw [symmetric_iff] at hs
  ext <;> simp [R3.cross, Form.anticommutatorWith, Form.anticommutator, M3.mulVec, M3.trace, M3.identity, R3.dot, hs.1, hs.2.1, hs.2.2] <;> ring

theorem applyForm_positive {m : OrthogonalMap ℝ} (hm : m.IsUnit) {J : M3 ℝ} (hs : J.Symmetric) (hp : ∀ ω : R3 ℝ, ω ≠ 0 → 0 < ω.dot (J.mulVec ω)) (ω : R3 ℝ) (hω : ω ≠ 0) :
    0 < ω.dot ((m.applyForm J).mulVec ω) := by
  have h1 := (C37_orthogonal_form m hm J hs).2 (m.inverse.apply ω) (m.inverse.apply ω)
  rw [OrthogonalMap.apply_inverse hm] at h1
  simp only [M3.form] at h1
  rw [h1]
  refine hp _ fun h0 => hω ?_
  rw [← OrthogonalMap.apply_inverse hm ω, h0, OrthogonalMap.apply_zero hm]

theorem Describes.symmetric {p : Part} {l : List (ℝ × R3 ℝ)} (h : Describes p l) : p.inertiaTensor.Symmetric := by
  have hI : p.inertiaTensor = Form.anticommutator (secondMoment l) := mulVec_ext fun ω => by rw [h.inertia, anticommutator_secondMoment]; rfl
  have hs := secondMoment_symmetric l
  rw [hI, symmetric_iff]
  rw [symmetric_iff] at hs
  simp only [Form.anticommutator, M3.identity, M3.sub_rowX, M3.sub_rowY, M3.sub_rowZ, R3.sub_x, R3.sub_y, R3.sub_z, M3.smul_rowX, M3.smul_rowY, M3.smul_rowZ, R3.smul_x,
    R3.smul_y, R3.smul_z]
  rw [hs.1, hs.2.1, hs.2.2]
  exact ⟨rfl, rfl, rfl⟩

theorem masses_pos {l : PartTo RigidMotion} (h : Known w matter l) : ∀ p ∈ moving matter l, 0 < p.mass := by
  intro p hp
  obtain ⟨x, hx, hp'⟩ := List.mem_flatMap.1 hp
  obtain ⟨y, hy, rfl⟩ := List.mem_map.1 hp'
  exact (h x hx).1.positive y hy

/-- The particles do not lie on a line. -/
theorem spin_pos {l : PartTo RigidMotion} (hl : l ≠ []) (h : Known w matter l) (c ω : R3 ℝ) (hω : ω ≠ 0) : 0 < ω.dot (spin c (moving matter l) ω) := by
  obtain ⟨x, l, rfl⟩ := List.exists_cons_of_ne_nil hl
  obtain ⟨hd, hu⟩ := h x List.mem_cons_self
  have hr : Known w matter l := fun y hy => h y (List.mem_cons_of_mem _ hy)
  rw [moving_cons, spin_append, spin_particles hu hd]
  have h1 := dot_spin_nonneg c ω _ (masses_pos hr)
  have h2 := applyForm_positive hu hd.symmetric hd.solid ω hω
  generalize (x.2.orthogonalMap.applyForm (w x.1).inertiaTensor).mulVec ω = a at h2
  generalize spin c (moving matter l) ω = b at h1
  generalize (x.2.apply ⟨0, 0⟩).position - c = y
  have e : ω.dot (y.cross ((w x.1).mass • ω.cross y) + a + b) = (w x.1).mass * (ω.cross y).normSq + ω.dot a + ω.dot b := by
    simp [R3.dot, R3.cross, R3.normSq]; ring
  rw [e]
  have h3 : 0 ≤ (ω.cross y).normSq := by
    simp only [R3.normSq]
    nlinarith [mul_self_nonneg (ω.cross y).x, mul_self_nonneg (ω.cross y).y, mul_self_nonneg (ω.cross y).z]
  have := mul_nonneg hd.mass_pos.le h3
  linarith

/-- The motion from the frame of the centre of mass. -/
noncomputable abbrev fromCentre (c : DegreesOfFreedom) : RigidMotion := RigidMotion.ofFromFrame ⟨0, c.position, .identity⟩ 0 c.velocity

/-- The mechanical system of some parts, in terms of their particles. -/
structure SystemSpec (ps : List Particle) (s : MechanicalSystem) (c : DegreesOfFreedom) (J : M3 ℝ) : Prop where
  centre : s.centreOfMass = some c
  position : totalMass ps • c.position = firstMoment ps
  velocity : totalMass ps • c.velocity = momentum ps
  angular : s.angularMomentum = some (angularMomentumAbout c ps)
  inertia : s.inertiaTensor = some J
  symmetric : J.Symmetric
  spin : ∀ ω, J.mulVec ω = spin c.position ps ω
  positive : ∀ ω : R3 ℝ, ω ≠ 0 → 0 < ω.dot (J.mulVec ω)
  linear : s.linearMotion = some (fromCentre c)

theorem system_spec (l : PartTo RigidMotion) (hl : l ≠ []) (h : Known w matter l) : ∃ c J, SystemSpec (moving matter l) (PileUp.systemOfApparent w l) c J := by
  obtain ⟨bs, h1, h2⟩ := bodies l h
  have hs : systemOf bs = PileUp.systemOfApparent w l := h1 .init
  obtain ⟨-, c, e1, e2, e3, e4, ⟨J, e5, e6, e7⟩, -⟩ := C58_mechanical_system bs (by rw [h2]; exact (totalMass_pos l hl h).ne')
  rw [h2] at e2 e3 e4 e7
  rw [hs] at e1 e4 e5
  exact ⟨c, J, e1, e2, e3, e4, e5, e6, e7, fun ω hω => by rw [e7]; exact spin_pos hl h _ _ hω, by rw [MechanicalSystem.linearMotion, e1]; rfl⟩

theorem systemOfParts_eq (w : World) (parts : List ℕ) : PileUp.systemOfParts w parts = PileUp.systemOfApparent w (parts.map fun p => (p, (w p).rigidMotion)) := by
  simp only [PileUp.systemOfParts, PileUp.systemOfApparent, List.foldl_map]

/-- The inertia tensor may be diagonalized. -/
theorem SystemSpec.diagonalize {ps : List Particle} {s : MechanicalSystem} {c : DegreesOfFreedom} {J : M3 ℝ} (h : SystemSpec ps s c J) :
    ∃ d r, Form.diagonalize J = some (M3.diagonal d, r) ∧ r.IsUnit ∧ (0 < d.x ∧ d.x ≤ d.y ∧ d.y ≤ d.z) ∧
      Form.frobeniusNorm (r.applyForm (M3.diagonal d) - J) ≤ 2 ^ (-57 : ℤ) * Form.frobeniusNorm J := by
  obtain ⟨d, r, h1, h2, h3, h4, -, h5⟩ := Form.C53_diagonalize J h.symmetric
  exact ⟨d, r, h1, h2, ⟨(Form.C53_diagonalize_positive J h.symmetric h.positive d r h1).1, h3, h4⟩, h5⟩

/-- The angular momentum may be divided by the inertia tensor. -/
theorem SystemSpec.divide {ps : List Particle} {s : MechanicalSystem} {c : DegreesOfFreedom} {J : M3 ℝ} (h : SystemSpec ps s c J) (hm : ∀ p ∈ ps, 0 < p.mass) (L U : M3 ℝ)
    (a : R3 ℝ) : ∃ ω, Form.divide L U a J = .ok ω ∧ J.mulVec ω = a := by
  have hJ : J = M3.inertiaOf (ps.map fun p => (p.mass, p.state.position - c.position)) := by
    refine mulVec_ext fun ω => ?_
    rw [h.spin]
    clear h hm
    induction ps with
    | nil => ext <;> simp [M3.inertiaOf, M3.mulVec, R3.dot]
    | cons p ps ih =>
      rw [spin_cons, ih]
      ext <;> simp [M3.inertiaOf, M3.mulVec, R3.dot, R3.cross] <;> ring
  have hd := det_ne_zero h.positive
  rw [hJ] at hd ⊢
  exact M3.C52_inertia _ (fun x hx => by obtain ⟨p, hp, rfl⟩ := List.mem_map.1 hx; exact (hm p hp).le) hd L U a

end Principia.Ksp.PileUp
