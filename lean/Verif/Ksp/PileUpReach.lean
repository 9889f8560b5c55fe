import Verif.Ksp.PileUpAdvance

/-!
What is true of a pile-up in all the states that may be reached.
-/

set_option linter.unusedSimpArgs false
set_option linter.unusedVariables false
set_option linter.unusedSectionVars false

namespace Principia.Ksp.PileUp

open Geometry Physics.Motion Physics.Mechanical Physics.Euler

variable {ι : Type} {w : World} {matter : Matter} {u : PileUp ι} {env : Env ι} {position : ι → Point} {s : ℝ}

/-! ## Advancing the parts -/

/-- A part after the points `new` have been added to the history of its pile-up, with the psychohistory `psychohistory`; `d` is the state of the part with respect to the
pile-up. -/
noncomputable def extended (new psychohistory : List Point) (d : DegreesOfFreedom) (p : Part) : Part :=
  { p with
    history := p.history ++ new.map (placed d)
    psychohistory := if psychohistory = [] then none else some ((p.history ++ new.map (placed d)).getLast?.toList ++ psychohistory.map (placed d)) }

theorem increasing_placed {l : List Point} (d : DegreesOfFreedom) (h : Increasing l) : Increasing (l.map (placed d)) := List.pairwise_map.2 h

theorem increasing_after {a b : List Point} {last : Point} (ha : Increasing a) (hle : ∀ q ∈ a, q.time ≤ last.time) (hb : Increasing (last :: b)) : Increasing (a ++ b) := by
  simp only [Increasing, List.pairwise_append, List.pairwise_cons] at hb ⊢
  exact ⟨ha, hb.2, fun x hx y hy => (hle x hx).trans_lt (hb.1 y hy)⟩

theorem foldlM_placed (f : Part → Point → Option Part) (d : DegreesOfFreedom) (points : List Point) (p : Part) :
    points.foldlM (fun q it => f q (placed d it)) p = (points.map (placed d)).foldlM f p := by
  induction points generalizing p with
  | nil => rfl
  | cons it points ih =>
    rw [List.map_cons, List.foldlM_cons, List.foldlM_cons]
    cases f p (placed d it) with
    | none => rfl
    | some q => exact ih q

theorem appendToPart_eq (f : Part → Point → Option Part) {g : ℕ → RigidMotion} (hg : ∀ p ∈ u.parts, u.actual.find p = some (g p)) (w : World) (it : Point) :
    PileUp.appendToPart f u w it = u.parts.foldlM (fun w p => (f (w p) (placed ((g p).apply ⟨0, 0⟩) it)).map fun q => Function.update w p q) w := by
  rw [PileUp.appendToPart]
  have : ∀ (l : List ℕ), (∀ p ∈ l, u.actual.find p = some (g p)) → ∀ w : World,
      l.foldlM (fun w part => (u.actual.find part).bind fun motion =>
        (f (w part) ⟨it.time, (PileUp.toBarycentric it.state).apply (motion.apply ⟨0, 0⟩)⟩).map fun p => Function.update w part p) w =
      l.foldlM (fun w p => (f (w p) (placed ((g p).apply ⟨0, 0⟩) it)).map fun q => Function.update w p q) w := by
    intro l hl
    induction l with
    | nil => intro w; rfl
    | cons p l ih =>
      intro w
      have e : ((u.actual.find p).bind fun motion => (f (w p) ⟨it.time, (PileUp.toBarycentric it.state).apply (motion.apply ⟨0, 0⟩)⟩).map fun q => Function.update w p q) =
          (f (w p) (placed ((g p).apply ⟨0, 0⟩) it)).map fun q => Function.update w p q := by
        rw [hl p List.mem_cons_self, Option.bind_some, toBarycentric_apply]
        rfl
      rw [List.foldlM_cons, List.foldlM_cons, e]
      cases (f (w p) (placed ((g p).apply ⟨0, 0⟩) it)).map fun q => Function.update w p q with
      | none => rfl
      | some w' => exact ih (fun q hq => hl q (List.mem_cons_of_mem _ hq)) w'
  exact this u.parts hg w

theorem appendToParts {f : Part → Point → Option Part} {g : ℕ → RigidMotion} (hg : ∀ p ∈ u.parts, u.actual.find p = some (g p)) (hn : u.parts.Nodup) {points : List Point}
    {h : ℕ → Part} (hf : ∀ p ∈ u.parts, (points.map (placed ((g p).apply ⟨0, 0⟩))).foldlM f (w p) = some (h p)) :
    points.foldlM (PileUp.appendToPart f u) w = some fun p => if p ∈ u.parts then h p else w p := by
  have e : (PileUp.appendToPart f u) = fun w it => u.parts.foldlM (fun w p => (f (w p) (placed ((g p).apply ⟨0, 0⟩) it)).map fun q => Function.update w p q) w :=
    funext fun w => funext fun it => appendToPart_eq f hg w it
  rw [e]
  exact points_fold (G := fun it p q => f q (placed ((g p).apply ⟨0, 0⟩) it)) hn fun p hp => by rw [foldlM_placed]; exact hf p hp

theorem nudge_spec {g : ℕ → RigidMotion} (hg : ∀ p ∈ u.parts, u.actual.find p = some (g p)) (hn : u.parts.Nodup) {back : Point} (hb : u.back = some back) (w : World) :
    u.nudgeParts w = some fun p => if p ∈ u.parts then { w p with rigidMotion := (PileUp.toBarycentric back.state).mul (g p) } else w p := by
  rw [PileUp.nudgeParts, hb, Option.bind_some]
  have := update_fold (F := fun p q => (u.actual.find p).map fun motion => { q with rigidMotion := (PileUp.toBarycentric back.state).mul motion }) hn (w := w)
    (h := fun p => { w p with rigidMotion := (PileUp.toBarycentric back.state).mul (g p) }) fun p hp => by rw [hg p hp]; rfl
  simpa only [Option.map_map, Function.comp_def] using this

set_option maxHeartbeats 1000000 in
theorem advanceTime_spec (henv : env.Correct position) {last back : Point} (h : Recorded position u last) (hb : u.back = some back) {t : ℝ} (ht : back.time < t) (hm : u.mass ≠ 0)
    {g : ℕ → RigidMotion} (hg : ∀ p ∈ u.parts, u.actual.find p = some (g p)) (hn : u.parts.Nodup) (hr : Ready w u) :
    ∃ u' ok new last', Advanced env position u last back t new u' ok last' ∧ u.advanceTime env w t =
      some (fun p => if p ∈ u.parts then extended new u'.psychohistory ((g p).apply ⟨0, 0⟩) (w p) else w p, { u' with history := [last'] }, ok) := by
  classical
  obtain ⟨u', ok, new, last', e1, e2⟩ := advanceTrajectory_spec henv h hb ht hm
  refine ⟨u', ok, new, last', e2, ?_⟩
  have hp : u'.parts = u.parts := by rw [e2.unchanged]
  have ha : u'.actual = u.actual := by rw [e2.unchanged]
  have hnew : Increasing (last :: new) := e2.after.sublist (List.Sublist.cons_cons _ (List.sublist_append_left _ _))
  have hfilter : u'.history.filter (fun p => decide (last.time < p.time)) = new := by
    rw [e2.history]
    exact filter_new h.history h.latest hnew
  have hg' : ∀ p ∈ u'.parts, u'.actual.find p = some (g p) := by rw [hp, ha]; exact hg
  have hn' : u'.parts.Nodup := by rw [hp]; exact hn
  have hready : ∀ p ∈ u.parts, (w p).psychohistory = none ∧ Increasing (w p).history ∧ ∀ q ∈ (w p).history, q.time ≤ last.time :=
    fun p hp => ⟨(hr p hp).1, (hr p hp).2.1, fun q hq => (hr p hp).2.2 q hq last h.latest⟩
  have hinc : ∀ p ∈ u.parts, Increasing ((w p).history ++ (new.map (placed ((g p).apply ⟨0, 0⟩)) ++ u'.psychohistory.map (placed ((g p).apply ⟨0, 0⟩)))) := by
    intro p hp
    rw [← List.map_append]
    refine increasing_after (last := placed ((g p).apply ⟨0, 0⟩) last) (hready p hp).2.1 (hready p hp).2.2 ?_
    exact increasing_placed (l := last :: (new ++ u'.psychohistory)) _ e2.after
  have f1 := appendToParts (u := u') (w := w) (f := Part.appendToHistory) (points := new) hg' hn' (h := fun p => { w p with history := (w p).history ++ new.map (placed ((g p).apply ⟨0, 0⟩)) })
    fun p hp' => by
      rw [hp] at hp'
      refine appendToHistory_fold ?_ (hready p hp').1
      have := hinc p hp'
      rw [← List.append_assoc] at this
      exact this.sublist (List.sublist_append_left _ _)
  have f2 := appendToParts (u := u') (w := fun p => if p ∈ u'.parts then { w p with history := (w p).history ++ new.map (placed ((g p).apply ⟨0, 0⟩)) } else w p)
    (f := Part.appendToPsychohistory) (points := u'.psychohistory) hg' hn' (h := fun p => extended new u'.psychohistory ((g p).apply ⟨0, 0⟩) (w p)) fun p hp' => by
      simp only [if_pos hp']
      rw [hp] at hp'
      rw [appendToPsychohistory_fold (p := { w p with history := (w p).history ++ new.map (placed ((g p).apply ⟨0, 0⟩)) }) (by simpa [List.append_assoc] using hinc p hp') (hready p hp').1]
      simp only [extended, List.map_eq_nil_iff]
  rw [PileUp.advanceTime, h.latest, Option.bind_some, e1, Option.bind_some]
  simp only
  have hfilter' : (u'.history.filter fun p => @decide (last.time < p.time) (Classical.propDecidable _)) = new := by rw [← hfilter]
  rw [hfilter', f1, Option.bind_some, f2, Option.bind_some, e2.recorded.latest, Option.map_some]
  have hlast : (u'.history.filter fun p => @decide (last'.time ≤ p.time) (Classical.propDecidable _)) = [last'] :=
    filter_last e2.recorded.history e2.recorded.latest
  rw [hlast]
  congr 2
  funext p
  rw [hp]
  by_cases h : p ∈ u.parts
  · rw [if_pos h, if_pos h]
  · rw [if_neg h, if_neg h, if_neg h]

/-! ## The invariant -/

/-- What is true in all the states that may be reached. -/
structure Valid (position : ι → Point) (w : World) (u : PileUp ι) (s : ℝ) : Prop where
  parts_ne : u.parts ≠ []
  parts_nodup : u.parts.Nodup
  actual_keys : ∀ p, p ∈ u.parts ↔ p ∈ PartTo.keys u.actual
  actual_nodup : (PartTo.keys u.actual).Nodup
  solved : ∃ d A t₀ m R, Solved u s d A t₀ m R
  recorded : ∃ last, Recorded position u last
  mass : 0 < u.mass
  apparent_nodup : (PartTo.keys u.apparent).Nodup
  apparent_unit : ∀ x ∈ u.apparent, x.2.orthogonalMap.IsUnit
  described : ∀ p ∈ u.parts, ∃ l, Describes (w p) l

/-- The motion of a part. -/
noncomputable def motionIn (m : PartTo RigidMotion) (p : ℕ) : RigidMotion := (m.find p).getD ⟨⟨0, 0, .identity⟩, 0, 0⟩

theorem find_motionIn {m : PartTo RigidMotion} {p : ℕ} (h : p ∈ PartTo.keys m) : m.find p = some (motionIn m p) := by
  rw [← PartTo.find_isSome] at h
  obtain ⟨a, ha⟩ := Option.isSome_iff_exists.1 h
  rw [motionIn, ha]; rfl

theorem Valid.find (h : Valid position w u s) : ∀ p ∈ u.parts, u.actual.find p = some (motionIn u.actual p) :=
  fun p hp => find_motionIn ((h.actual_keys p).1 hp)

theorem Valid.actual_unit (h : Valid position w u s) : ∀ p ∈ u.parts, (motionIn u.actual p).orthogonalMap.IsUnit := by
  intro p hp
  obtain ⟨d, A, t₀, m, R, hs⟩ := h.solved
  exact (hs.rigid _ (PartTo.mem_of_find (h.find p hp))).1

theorem sum_masses_pos {l : List ℕ} (hl : l ≠ []) (h : ∀ p ∈ l, 0 < (w p).mass) : 0 < (l.map fun p => (w p).mass).sum := by
  obtain ⟨a, l, rfl⟩ := List.exists_cons_of_ne_nil hl
  rw [List.map_cons, List.sum_cons]
  have h1 := h a List.mem_cons_self
  have h2 : 0 ≤ (l.map fun p => (w p).mass).sum := List.sum_nonneg fun x hx => by
    obtain ⟨p, hp, rfl⟩ := List.mem_map.1 hx
    exact (h p (List.mem_cons_of_mem _ hp)).le
  linarith

theorem choose_matter {l : List ℕ} (h : ∀ p ∈ l, ∃ m, Describes (w p) m) : ∃ matter : Matter, ∀ p ∈ l, Describes (w p) (matter p) := by
  classical
  refine ⟨fun p => if hp : p ∈ l then (h p hp).choose else [], fun p hp => ?_⟩
  simp only [dif_pos hp]
  exact (h p hp).choose_spec

theorem Solved.congr {u u' : PileUp ι} {s : ℝ} {d : R3 ℝ} {A : Rotation ℝ} {t₀ : ℝ} {m : ℝ → R3 ℝ} {R : ℝ → Rotation ℝ} (h : Solved u s d A t₀ m R) (h1 : u'.angularMomentum = u.angularMomentum)
    (h2 : u'.eulerSolver = u.eulerSolver) (h3 : u'.actual = u.actual) (h4 : u'.rigidPileUp = u.rigidPileUp) : Solved u' s d A t₀ m R :=
  ⟨h.moments, h.attitude, by rw [h1]; exact h.free, by rw [h1, h2]; exact h.solver, by rw [h3, h4]; exact h.rigid⟩

theorem Balanced.congr {u u' : PileUp ι} {s : ℝ} {d : R3 ℝ} {R : ℝ → Rotation ℝ} (h : Balanced matter u s d R) (h3 : u'.actual = u.actual) : Balanced matter u' s d R :=
  ⟨by rw [h3]; exact h.centre, by rw [h3]; exact h.inertia⟩

theorem Recorded.congr {u u' : PileUp ι} {last : Point} (h : Recorded position u last) (h1 : u'.history = u.history) (h2 : u'.psychohistory = u.psychohistory)
    (h3 : u'.fixedInstance = u.fixedInstance) : Recorded position u' last :=
  ⟨by rw [h1]; exact h.latest, by rw [h1, h2]; exact h.increasing, by rw [h3]; exact h.instance_⟩

theorem valid_make {parts : List ℕ} (hne : parts ≠ []) (hn : parts.Nodup) (hk : ∀ p ∈ parts, (∃ l, Describes (w p) l) ∧ (w p).rigidMotion.orthogonalMap.IsUnit) {t : ℝ}
    (h : PileUp.make w parts t = some u) : Valid position w u t := by
  obtain ⟨matter, hm⟩ := choose_matter fun p hp => (hk p hp).1
  obtain ⟨u', c, d, A, m, R, e, h1, h2, h3, h4, h5, -, -, h6, h7, h8, h9, h10⟩ := make_spec (ι := ι) hne hn (fun p hp => ⟨hm p hp, (hk p hp).2⟩) t
  rw [h, Option.some.injEq] at e
  subst e
  refine ⟨by rw [h1]; exact hne, by rw [h1]; exact hn, fun p => ?_, ?_, ⟨_, _, _, _, _, h9⟩, ⟨⟨t, c⟩, ?_, ?_, ?_⟩, ?_, ?_, ?_, ?_⟩
  · rw [h6, PartTo.keys_parts, h1]
  · rw [h6, PartTo.keys_parts]; exact hn
  · rw [h2]; rfl
  · rw [h2, h3]; simp [Increasing]
  · rw [h5]; simp
  · rw [h8.1]
    exact sum_masses_pos hne fun p hp => (hm p hp).mass_pos
  · rw [h4]; simp [PartTo.keys]
  · rw [h4]; simp
  · rw [h1]; exact fun p hp => (hk p hp).1

theorem Valid.world {w' : World} (h : Valid position w u s) (hd : ∀ p ∈ u.parts, ∃ l, Describes (w' p) l) : Valid position w' u s :=
  ⟨h.parts_ne, h.parts_nodup, h.actual_keys, h.actual_nodup, h.solved, h.recorded, h.mass, h.apparent_nodup, h.apparent_unit, hd⟩

/-- The forces on the pile-up, computed from those on the parts. -/
noncomputable def recomputed (w : World) (u : PileUp ι) : PileUp ι :=
  { u with
    mass := (u.parts.map fun p => (w p).mass).sum
    intrinsicForce := (u.parts.map fun p => (w p).intrinsicForce).sum
    intrinsicTorque := (u.parts.map fun p => ((motionIn u.actual p).apply ⟨0, 0⟩).position.cross (w p).intrinsicForce + (w p).intrinsicTorque).sum
    angularMomentumChange := (u.parts.map fun p => massFlow (w p) (motionIn u.actual p)).sum }

theorem Valid.recompute (h : Valid position w u s) : u.recomputeFromParts w = some (recomputed w u) ∧ Valid position w (recomputed w u) s := by
  have hm : ∀ p ∈ u.parts, 0 < (w p).mass := fun p hp => by
    obtain ⟨l, hl⟩ := h.described p hp
    exact hl.mass_pos
  refine ⟨recompute_spec (motionIn u.actual) h.find fun p hp => (hm p hp).ne', h.parts_ne, h.parts_nodup, h.actual_keys, h.actual_nodup, ?_, ?_, ?_, h.apparent_nodup, h.apparent_unit,
    h.described⟩
  · obtain ⟨d, A, t₀, m, R, hs⟩ := h.solved
    exact ⟨d, A, t₀, m, R, hs.congr rfl rfl rfl rfl⟩
  · obtain ⟨last, hl⟩ := h.recorded
    exact ⟨last, hl.congr rfl rfl rfl⟩
  · exact sum_masses_pos h.parts_ne hm

theorem Valid.set {u' : PileUp ι} (h : Valid position w u s) {p : ℕ} {m : RigidMotion} (hm : m.orthogonalMap.IsUnit) (he : u.setPartApparentRigidMotion p m = some u') :
    u' = { u with apparent := u.apparent ++ [(p, m)] } ∧ p ∉ PartTo.keys u.apparent ∧ Valid position w u' s := by
  rw [PileUp.setPartApparentRigidMotion] at he
  by_cases hs : (u.apparent.find p).isSome
  · rw [if_pos hs] at he; cases he
  · rw [if_neg hs, Option.some.injEq] at he
    rw [PartTo.find_isSome] at hs
    rw [PartTo.emplace_new hs] at he
    refine ⟨he.symm, hs, ?_⟩
    rw [← he]
    refine ⟨h.parts_ne, h.parts_nodup, h.actual_keys, h.actual_nodup, ?_, ?_, h.mass, ?_, ?_, h.described⟩
    · obtain ⟨d, A, t₀, m, R, hs⟩ := h.solved
      exact ⟨d, A, t₀, m, R, hs.congr rfl rfl rfl rfl⟩
    · obtain ⟨last, hl⟩ := h.recorded
      exact ⟨last, hl.congr rfl rfl rfl⟩
    · have := h.apparent_nodup
      simp only [PartTo.keys] at this hs ⊢
      rw [List.map_append, List.nodup_append]
      exact ⟨this, by simp, fun a ha b hb => by
        simp only [List.map_cons, List.map_nil, List.mem_singleton] at hb
        rintro rfl
        exact hs (hb ▸ ha)⟩
    · intro x hx
      rcases List.mem_append.1 hx with hx | hx
      · exact h.apparent_unit x hx
      · simp only [List.mem_singleton] at hx
        rw [hx]; exact hm

/-- The parts and the apparent motions match. -/
theorem Valid.covered (h : Valid position w u s) (hc : Covered u) (hne : u.apparent ≠ []) :
    u.parts.length = u.apparent.length ∧ (∀ p, p ∈ u.parts ↔ p ∈ PartTo.keys u.apparent) ∧ ∀ p ∈ u.parts, u.apparent.find p = some (motionIn u.apparent p) := by
  have h1 : ∀ p, p ∈ u.parts ↔ p ∈ PartTo.keys u.apparent := by
    intro p
    rw [hc.resolve_left hne p]
    simp [PartTo.keys]
  refine ⟨?_, h1, fun p hp => find_motionIn ((h1 p).1 hp)⟩
  have := ((List.perm_ext_iff_of_nodup h.parts_nodup h.apparent_nodup).2 h1).length_eq
  simpa [PartTo.keys] using this

theorem Valid.known (h : Valid position w u s) (hc : Covered u) (hm : ∀ p ∈ u.parts, Describes (w p) (matter p)) : Known w matter u.apparent := by
  intro x hx
  refine ⟨?_, h.apparent_unit x hx⟩
  have hne : u.apparent ≠ [] := List.ne_nil_of_mem hx
  exact hm _ (((h.covered hc hne).2.1 x.1).2 (List.mem_map.2 ⟨x, hx, rfl⟩))

/-- The deformation succeeds, and does not change the trajectory and the forces. -/
theorem Valid.deformed (henv : env.Correct position) (h : Valid position w u s) (hc : Covered u) (t : ℝ) :
    ∃ u', u.deformPileUpIfNeeded env w t = some u' ∧ Valid position w u' t ∧
      u' = { u with angularMomentum := u'.angularMomentum, eulerSolver := u'.eulerSolver, actual := u'.actual, rigidPileUp := u'.rigidPileUp, apparent := [] } := by
  obtain ⟨last, hl⟩ := h.recorded
  rw [PileUp.deformPileUpIfNeeded]
  by_cases he : u.apparent = []
  · rw [if_pos (by rw [he]; rfl)]
    obtain ⟨d, A, t₀, m, R, hs⟩ := h.solved
    obtain ⟨u', Q, ω, e1, e2, -, -, ⟨f, e3, -⟩, -, e4, -⟩ := warp_spec hs h.actual_nodup t
    have hk : PartTo.keys u'.actual = PartTo.keys u.actual := by rw [e3, PartTo.keys_map]
    have hu : u' = { u with angularMomentum := u'.angularMomentum, eulerSolver := u'.eulerSolver, actual := u'.actual, rigidPileUp := u'.rigidPileUp, apparent := [] } := by
      rw [← he]
      conv_lhs => rw [e2]
      rw [e2]
    have hp : u'.parts = u.parts := by rw [e2]
    refine ⟨u', e1, ⟨by rw [hp]; exact h.parts_ne, by rw [hp]; exact h.parts_nodup, by rw [hp, hk]; exact h.actual_keys, by rw [hk]; exact h.actual_nodup, ⟨_, _, _, _, _, e4⟩,
      ⟨last, hl.congr (by rw [e2]) (by rw [e2]) (by rw [e2])⟩, by rw [e2]; exact h.mass, by rw [hu]; simp [PartTo.keys], by rw [hu]; simp, by rw [hp]; exact h.described⟩, hu⟩
  · rw [if_neg (by simpa using he)]
    obtain ⟨matter, hm⟩ := choose_matter h.described
    obtain ⟨c1, c2, c3⟩ := h.covered hc he
    obtain ⟨back, hb⟩ : ∃ b, u.back = some b := by rw [hl.back]; exact ⟨_, List.getLast?_eq_some_getLast (by simp)⟩
    obtain ⟨u', c, ωₐ, d, A, m, R, Q, ω, e1, e2, e3, -, -, -, -, ⟨f, e4, -⟩, -, -, -, e5, -⟩ :=
      deform_spec henv (t := t) he (h.known hc hm) h.apparent_nodup c1 h.find c3 hb
    have hk : PartTo.keys u'.actual = PartTo.keys u.apparent := by rw [e4, PartTo.keys_map]
    have hp : u'.parts = u.parts := by rw [e2]
    refine ⟨u', e1, ⟨by rw [hp]; exact h.parts_ne, by rw [hp]; exact h.parts_nodup, by rw [hp, hk]; exact c2, by rw [hk]; exact h.apparent_nodup, ⟨_, _, _, _, _, e5⟩,
      ⟨last, hl.congr (by rw [e2]) (by rw [e2]) (by rw [e2])⟩, by rw [e2]; exact h.mass, by rw [e2]; simp [PartTo.keys], by rw [e2]; simp, by rw [hp]; exact h.described⟩, e2⟩

/-- What `DeformAndAdvanceTime` does, given the result `u₁` of the deformation. -/
structure Moved (env : Env ι) (position : ι → Point) (w : World) (u u₁ : PileUp ι) (last back : Point) (t : ℝ) (new : List Point) (w' : World) (u' : PileUp ι) (ok : Bool)
    (last' back' : Point) : Prop where
  advanced : ∃ u₂, Advanced env position u₁ last back t new u₂ ok last' ∧ u' = { u₂ with history := [last'] }
  back : u'.back = some back'
  world : w' = fun p => if p ∈ u.parts then
    { extended new u'.psychohistory ((motionIn u₁.actual p).apply ⟨0, 0⟩) (w p) with rigidMotion := (PileUp.toBarycentric back'.state).mul (motionIn u₁.actual p) } else w p

set_option maxHeartbeats 1000000 in
theorem Valid.moved (henv : env.Correct position) (h : Valid position w u s) (hc : Covered u) (hr : Ready w u) {last back : Point} (hl : u.history.getLast? = some last) (hb : u.back = some back)
    {t : ℝ} (ht : back.time < t) : ∃ u₁ new w' u' ok last' back', u.deformPileUpIfNeeded env w t = some u₁ ∧ u.deformAndAdvanceTime env w t = some (w', u', ok) ∧
      Moved env position w u u₁ last back t new w' u' ok last' back' ∧ Valid position w' u' t := by
  obtain ⟨u₁, e1, e2, e3⟩ := h.deformed henv hc t
  have hp : u₁.parts = u.parts := by rw [e3]
  have hh : u₁.history = u.history := by rw [e3]
  obtain ⟨l, hrec⟩ := e2.recorded
  have : l = last := by have := hrec.latest; rw [hh, hl] at this; exact (Option.some.inj this).symm
  subst this
  have hb₁ : u₁.back = some back := by rw [e3]; exact hb
  have hr₁ : Ready w u₁ := by intro p hp'; rw [hp] at hp'; rw [hh]; exact hr p hp'
  obtain ⟨u₂, ok, new, last', a1, a2⟩ := advanceTime_spec henv hrec hb₁ ht e2.mass.ne' e2.find e2.parts_nodup hr₁
  have hu : u₂ = { u₁ with history := u₂.history, psychohistory := u₂.psychohistory, fixedInstance := u₂.fixedInstance } := a1.unchanged
  have hact : u₂.actual = u₁.actual := by rw [hu]
  have hpar : u₂.parts = u.parts := by rw [hu]; exact hp
  set u' : PileUp ι := { u₂ with history := [last'] } with hu'
  have hinc' : Increasing (last' :: u₂.psychohistory) := by
    obtain ⟨h1, h2⟩ := List.getLast?_eq_some_iff.1 a1.recorded.latest
    have := a1.recorded.increasing
    rw [h2, List.append_assoc, List.singleton_append] at this
    exact this.sublist (List.sublist_append_right _ _)
  have hrec' : Recorded position u' last' := ⟨rfl, hinc', a1.recorded.instance_⟩
  obtain ⟨back', hb'⟩ : ∃ b, u'.back = some b := by rw [hrec'.back]; exact ⟨_, List.getLast?_eq_some_getLast (by simp)⟩
  have hfind : ∀ p ∈ u'.parts, u'.actual.find p = some (motionIn u₁.actual p) := by
    intro p hp'
    show u₂.actual.find p = _
    rw [hact]
    exact e2.find p (by rw [hp, ← hpar]; exact hp')
  have hnud := nudge_spec hfind (by show u₂.parts.Nodup; rw [hpar]; exact h.parts_nodup) hb'
    (fun p => if p ∈ u₁.parts then extended new u₂.psychohistory ((motionIn u₁.actual p).apply ⟨0, 0⟩) (w p) else w p)
  have hw : (fun p => if p ∈ u'.parts then
      { (fun p => if p ∈ u₁.parts then extended new u₂.psychohistory ((motionIn u₁.actual p).apply ⟨0, 0⟩) (w p) else w p) p with
        rigidMotion := (PileUp.toBarycentric back'.state).mul (motionIn u₁.actual p) }
      else (fun p => if p ∈ u₁.parts then extended new u₂.psychohistory ((motionIn u₁.actual p).apply ⟨0, 0⟩) (w p) else w p) p) =
      fun p => if p ∈ u.parts then
        { extended new u'.psychohistory ((motionIn u₁.actual p).apply ⟨0, 0⟩) (w p) with rigidMotion := (PileUp.toBarycentric back'.state).mul (motionIn u₁.actual p) } else w p := by
    funext p
    show (if p ∈ u₂.parts then _ else _) = _
    rw [hpar]
    by_cases hp' : p ∈ u.parts
    · rw [if_pos hp', if_pos hp']
      simp only [hp, if_pos hp']
      rfl
    · rw [if_neg hp', if_neg hp']
      simp only [hp, if_neg hp']
  refine ⟨u₁, new, _, u', ok, last', back', e1, ?_, ⟨⟨u₂, a1, rfl⟩, hb', rfl⟩, ?_⟩
  · rw [PileUp.deformAndAdvanceTime, hb, Option.bind_some, if_pos ht, e1, Option.bind_some, a2, Option.bind_some]
    simp only
    rw [hnud, Option.map_some, hw]
  · refine ⟨?_, ?_, ?_, ?_, ?_, ⟨last', hrec'⟩, ?_, ?_, ?_, ?_⟩
    · show u₂.parts ≠ []; rw [hpar]; exact h.parts_ne
    · show u₂.parts.Nodup; rw [hpar]; exact h.parts_nodup
    · show ∀ p, p ∈ u₂.parts ↔ p ∈ PartTo.keys u₂.actual
      rw [hpar, hact, ← hp]; exact e2.actual_keys
    · show (PartTo.keys u₂.actual).Nodup; rw [hact]; exact e2.actual_nodup
    · obtain ⟨d, A, t₀, m, R, hs⟩ := e2.solved
      exact ⟨d, A, t₀, m, R, hs.congr (by show u₂.angularMomentum = _; rw [hu]) (by show u₂.eulerSolver = _; rw [hu]) hact (by show u₂.rigidPileUp = _; rw [hu])⟩
    · show 0 < u₂.mass; rw [hu]; exact e2.mass
    · show (PartTo.keys u₂.apparent).Nodup; rw [hu]; exact e2.apparent_nodup
    · show ∀ x ∈ u₂.apparent, _; rw [hu]; exact e2.apparent_unit
    · intro p hp'
      have hp'' : p ∈ u.parts := by rw [← hpar]; exact hp'
      obtain ⟨l, hl⟩ := h.described p hp''
      refine ⟨l, ?_⟩
      simp only [if_pos hp'']
      exact ⟨hl.mass, hl.centred, hl.inertia, hl.positive, hl.solid⟩

theorem Valid.advance {w' : World} {u' : PileUp ι} {t : ℝ} {ok : Bool} {back : Point} (henv : env.Correct position) (h : Valid position w u s) (hc : Covered u) (hr : Ready w u)
    (hb : u.back = some back) (ht : back.time < t) (he : u.deformAndAdvanceTime env w t = some (w', u', ok)) : Valid position w' u' t := by
  obtain ⟨last, hl⟩ := h.recorded
  obtain ⟨u₁, new, w₂, u₂, ok₂, last', back', e1, e2, -, e3⟩ := h.moved henv hc hr hl.latest hb ht
  rw [e2, Option.some.injEq, Prod.mk.injEq, Prod.mk.injEq] at he
  obtain ⟨rfl, rfl, rfl⟩ := he
  exact e3

theorem Reach.valid (henv : env.Correct position) (h : Reach env w u s) : Valid position w u s := by
  induction h with
  | make hne hn hk he => exact valid_make hne hn hk he
  | world w' _ hd ih => exact ih.world hd
  | recompute _ he ih =>
    obtain ⟨h1, h2⟩ := ih.recompute
    rw [h1, Option.some.injEq] at he
    exact he ▸ h2
  | set _ hm he ih => exact (ih.set hm he).2.2
  | advance _ hc hr hb ht he ih => exact ih.advance henv hc hr hb ht he

end Principia.Ksp.PileUp
