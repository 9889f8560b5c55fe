import Verif.Ksp.PileUpConstruct

/-!
Lemmas about the trajectories of a pile-up and of its parts.
-/

set_option linter.unusedSimpArgs false
set_option linter.unusedVariables false
set_option linter.unusedSectionVars false

namespace Principia.Ksp.PileUp

open Geometry Physics.Motion Physics.Mechanical Physics.Euler

variable {ι : Type} {w : World} {u : PileUp ι}

/-! ## Trajectories -/

theorem append_increasing {l : List Point} {p : Point} (h : Increasing (l ++ [p])) : append l p = some (l ++ [p]) := by
  simp only [Increasing, List.pairwise_append] at h
  have h2 : ∀ q ∈ l, q.time < p.time := fun q hq => h.2.2 q hq p (by simp)
  cases l with
  | nil => rfl
  | cons a l =>
    obtain ⟨b, hb⟩ : ∃ b, (a :: l).getLast? = some b := ⟨_, List.getLast?_eq_some_getLast (by simp)⟩
    rw [append, hb]
    simp only [List.head?_cons]
    rw [if_neg (h2 a List.mem_cons_self).ne, if_pos (h2 b (List.mem_of_getLast? hb))]

theorem appendAll_increasing {l ps : List Point} (h : Increasing (l ++ ps)) : appendAll l ps = some (l ++ ps) := by
  induction ps generalizing l with
  | nil => simp [appendAll]
  | cons p ps ih =>
    have e : l ++ p :: ps = (l ++ [p]) ++ ps := by simp
    rw [e] at h
    rw [appendAll, append_increasing (h.sublist (List.sublist_append_left _ _)), Option.bind_some, ih h, e]

theorem increasing_append {a b : List Point} {p : Point} (ha : Increasing a) (hp : a.getLast? = some p) (hb : Increasing (p :: b)) : Increasing (a ++ b) := by
  obtain ⟨a', rfl⟩ : ∃ a', a = a' ++ [p] := by
    obtain ⟨h1, h2⟩ := List.getLast?_eq_some_iff.1 hp
    exact ⟨_, h2⟩
  simp only [Increasing, List.pairwise_append, List.pairwise_cons] at ha hb ⊢
  refine ⟨ha, hb.2, fun x hx y hy => ?_⟩
  rcases List.mem_append.1 hx with hx | hx
  · exact (ha.2.2 x hx p (by simp)).trans (hb.1 y hy)
  · simp only [List.mem_singleton] at hx
    rw [hx]; exact hb.1 y hy

theorem getLast_append {a b : List Point} {p : Point} (hp : a.getLast? = some p) : (a ++ b).getLast? = (p :: b).getLast? := by
  obtain ⟨h1, rfl⟩ := List.getLast?_eq_some_iff.1 hp
  rw [List.append_assoc, List.singleton_append, List.getLast?_append, List.getLast?_cons]
  rfl

theorem time_le_last {a : List Point} {p : Point} (ha : Increasing a) (hp : a.getLast? = some p) : ∀ q ∈ a, q.time ≤ p.time := by
  obtain ⟨h1, rfl⟩ := List.getLast?_eq_some_iff.1 hp
  simp only [Increasing, List.pairwise_append] at ha
  intro q hq
  rcases List.mem_append.1 hq with hq | hq
  · exact (ha.2.2 q hq p (by simp)).le
  · simp only [List.mem_singleton] at hq
    rw [hq]

theorem filter_new {a b : List Point} {p : Point} (ha : Increasing a) (hp : a.getLast? = some p) (hb : Increasing (p :: b)) [DecidablePred fun q : Point => p.time < q.time] :
    (a ++ b).filter (fun q => decide (p.time < q.time)) = b := by
  rw [List.filter_append]
  have h1 : a.filter (fun q => decide (p.time < q.time)) = [] := by
    rw [List.filter_eq_nil_iff]
    intro q hq
    simpa using time_le_last ha hp q hq
  have h2 : b.filter (fun q => decide (p.time < q.time)) = b := by
    rw [List.filter_eq_self]
    simp only [Increasing, List.pairwise_cons] at hb
    intro q hq
    simpa using hb.1 q hq
  rw [h1, h2, List.nil_append]

theorem filter_last {a : List Point} {p : Point} (ha : Increasing a) (hp : a.getLast? = some p) [DecidablePred fun q : Point => p.time ≤ q.time] :
    a.filter (fun q => decide (p.time ≤ q.time)) = [p] := by
  obtain ⟨h1, rfl⟩ := List.getLast?_eq_some_iff.1 hp
  simp only [Increasing, List.pairwise_append] at ha
  rw [List.filter_append]
  have e : h1.filter (fun q => decide (p.time ≤ q.time)) = [] := by
    rw [List.filter_eq_nil_iff]
    intro q hq
    simpa using ha.2.2 q hq p (by simp)
  rw [e]
  simp

/-- The history and psychohistory of a pile-up, and its instance of the integrator, are consistent. -/
structure Recorded (position : ι → Point) (u : PileUp ι) (last : Point) : Prop where
  latest : u.history.getLast? = some last
  increasing : Increasing (u.history ++ u.psychohistory)
  instance_ : ∀ i, u.fixedInstance = some i → position i = last

theorem Recorded.history {position : ι → Point} {last : Point} (h : Recorded position u last) : Increasing u.history := h.increasing.sublist (List.sublist_append_left _ _)

theorem Recorded.back {position : ι → Point} {last : Point} (h : Recorded position u last) : u.back = (last :: u.psychohistory).getLast? := getLast_append h.latest

theorem Recorded.last_le {position : ι → Point} {last back : Point} (h : Recorded position u last) (hb : u.back = some back) : last.time ≤ back.time :=
  time_le_last h.increasing hb _ (List.mem_append_left _ (List.mem_of_getLast? h.latest))

theorem last_cons_le {p q : Point} {l : List Point} {t : ℝ} (h : ∀ x ∈ l, x.time ≤ t) (hp : p.time ≤ t) (hq : (p :: l).getLast? = some q) : q.time ≤ t := by
  rcases List.mem_cons.1 (List.mem_of_getLast? hq) with rfl | h1
  · exact hp
  · exact h q h1

/-- The points that are added to the history of the pile-up, and its new psychohistory. -/
structure Advanced (env : Env ι) (position : ι → Point) (u : PileUp ι) (last back : Point) (t : ℝ) (new : List Point) (u' : PileUp ι) (ok : Bool) (last' : Point) : Prop where
  history : u'.history = u.history ++ new
  unchanged : u' = { u with history := u'.history, psychohistory := u'.psychohistory, fixedInstance := u'.fixedInstance }
  recorded : Recorded position u' last'
  after : Increasing (last :: (new ++ u'.psychohistory))
  free : u.intrinsicForce = 0 → new = (env.flowFixed t (u.fixedInstance.getD (env.newInstance last))).1 ∧
    u'.fixedInstance = some (env.flowFixed t (u.fixedInstance.getD (env.newInstance last))).2.1 ∧
    u'.psychohistory = if last'.time < t then (env.flowAdaptive 0 t last').1 else []
  forced : u.intrinsicForce ≠ 0 → new = u.psychohistory ++ (env.flowAdaptive (u.intrinsicForce.div u.mass) t back).1 ∧ u'.fixedInstance = none ∧ u'.psychohistory = []
  before : ∀ p ∈ new ++ u'.psychohistory, p.time ≤ t
  reached : ok = true → ∃ b, u'.back = some b ∧ b.time = t

set_option maxHeartbeats 1000000 in
theorem advanceTrajectory_spec {env : Env ι} {position : ι → Point} (henv : env.Correct position) {last back : Point} (h : Recorded position u last) (hb : u.back = some back) {t : ℝ}
    (ht : back.time < t) (hm : u.mass ≠ 0) :
    ∃ u' ok new last', u.advanceTrajectory env t = some (u', ok) ∧ Advanced env position u last back t new u' ok last' := by
  have hlt : last.time < t := (h.last_le hb).trans_lt ht
  by_cases hf : u.intrinsicForce = 0
  · set i := u.fixedInstance.getD (env.newInstance last) with hi
    have hpos : position i = last := by
      cases hx : u.fixedInstance with
      | none => rw [hi, hx]; exact henv.new last
      | some j => rw [hi, hx]; exact h.instance_ j hx
    obtain ⟨f1, f2⟩ := henv.fixed t i
    have f3 := henv.last t i
    rw [hpos] at f1 f3
    set last' := position (env.flowFixed t i).2.1 with hl'
    have hinc : Increasing (u.history ++ (env.flowFixed t i).1) := increasing_append h.history h.latest f1
    have hlast : (u.history ++ (env.flowFixed t i).1).getLast? = some last' := by rw [getLast_append h.latest, f3]
    have hle : last'.time ≤ t := last_cons_le f2 hlt.le f3
    by_cases hl : last'.time < t
    · obtain ⟨a1, a2⟩ := henv.adaptive 0 t last'
      have hall : appendAll [last'] (env.flowAdaptive 0 t last').1 = some (last' :: (env.flowAdaptive 0 t last').1) := appendAll_increasing a1
      refine ⟨{ u with fixedInstance := some (env.flowFixed t i).2.1, history := u.history ++ (env.flowFixed t i).1, psychohistory := (env.flowAdaptive 0 t last').1 },
        (env.flowFixed t i).2.2 && (env.flowAdaptive 0 t last').2, (env.flowFixed t i).1, last', ?_, ?_⟩
      · rw [PileUp.advanceTrajectory, if_pos hf, h.latest, Option.bind_some]
        simp only
        rw [if_pos hlt, ← hi, appendAll_increasing hinc, Option.bind_some, hlast, Option.bind_some, if_pos hl, hall]
        rfl
      · have hrec : Increasing (u.history ++ (env.flowFixed t i).1 ++ (env.flowAdaptive 0 t last').1) := increasing_append hinc hlast a1
        refine ⟨rfl, rfl, ⟨hlast, hrec, ?_⟩, ?_, fun _ => ⟨rfl, rfl, ?_⟩, fun hn => absurd hf hn, ?_, fun hok => ?_⟩
        · rintro j hj
          simp only [Option.some.injEq] at hj
          rw [← hj]
        · exact increasing_append (a := last :: (env.flowFixed t i).1) f1 f3 a1
        · rw [if_pos hl]
        · intro p hp
          rcases List.mem_append.1 hp with hp | hp
          · exact f2 p hp
          · exact a2 p hp
        · simp only [Bool.and_eq_true] at hok
          obtain ⟨q, q1, q2⟩ := henv.reached 0 t last' hl hok.2
          exact ⟨q, by rw [PileUp.back]; exact (getLast_append hlast).trans q1, q2⟩
    · refine ⟨{ u with fixedInstance := some (env.flowFixed t i).2.1, history := u.history ++ (env.flowFixed t i).1, psychohistory := [] },
        (env.flowFixed t i).2.2, (env.flowFixed t i).1, last', ?_, ?_⟩
      · rw [PileUp.advanceTrajectory, if_pos hf, h.latest, Option.bind_some]
        simp only
        rw [if_pos hlt, ← hi, appendAll_increasing hinc, Option.bind_some, hlast, Option.bind_some, if_neg hl]
      · refine ⟨rfl, rfl, ⟨hlast, by simpa using hinc, ?_⟩, by simpa using f1, fun _ => ⟨rfl, rfl, by rw [if_neg hl]⟩, fun hn => absurd hf hn, ?_, fun hok => ?_⟩
        · rintro j hj
          simp only [Option.some.injEq] at hj
          rw [← hj]
        · intro p hp
          exact f2 p (by simpa using hp)
        · exact ⟨last', by rw [PileUp.back, List.append_nil]; exact hlast, le_antisymm hle (not_lt.1 hl)⟩
  · obtain ⟨a1, a2⟩ := henv.adaptive (u.intrinsicForce.div u.mass) t back
    have hall := appendAll_increasing h.increasing
    have hrec : Increasing (u.history ++ u.psychohistory ++ (env.flowAdaptive (u.intrinsicForce.div u.mass) t back).1) := increasing_append h.increasing hb a1
    obtain ⟨last', hl'⟩ : ∃ q, (back :: (env.flowAdaptive (u.intrinsicForce.div u.mass) t back).1).getLast? = some q := ⟨_, List.getLast?_eq_some_getLast (by simp)⟩
    have hlast : (u.history ++ u.psychohistory ++ (env.flowAdaptive (u.intrinsicForce.div u.mass) t back).1).getLast? = some last' := (getLast_append hb).trans hl'
    have hbb : (last :: u.psychohistory).getLast? = some back := by rw [← h.back, hb]
    have hpsy : Increasing (last :: u.psychohistory) := by
      obtain ⟨h1, h2⟩ := List.getLast?_eq_some_iff.1 h.latest
      have := h.increasing
      rw [h2, List.append_assoc, List.singleton_append] at this
      exact this.sublist (List.sublist_append_right _ _)
    refine ⟨{ u with fixedInstance := none, history := u.history ++ u.psychohistory ++ (env.flowAdaptive (u.intrinsicForce.div u.mass) t back).1, psychohistory := [] },
      (env.flowAdaptive (u.intrinsicForce.div u.mass) t back).2, u.psychohistory ++ (env.flowAdaptive (u.intrinsicForce.div u.mass) t back).1, last', ?_, ?_⟩
    · rw [PileUp.advanceTrajectory, if_neg hf, if_neg hm, hall, Option.bind_some, show (u.history ++ u.psychohistory).getLast? = some back from hb, Option.bind_some]
      simp only
      rw [appendAll_increasing hrec]
      rfl
    · refine ⟨by simp, rfl, ⟨hlast, by simpa using hrec, by simp⟩, ?_, fun h0 => absurd h0 hf, fun _ => ⟨rfl, rfl, rfl⟩, ?_, fun hok => ?_⟩
      · have := increasing_append (a := last :: u.psychohistory) hpsy hbb a1
        simpa using this
      · intro p hp
        simp only [List.append_nil, List.mem_append] at hp
        rcases hp with hp | hp
        · exact (time_le_last h.increasing hb p (List.mem_append_right _ hp)).trans ht.le
        · exact a2 p hp
      · obtain ⟨q, q1, q2⟩ := henv.reached _ t back ht hok
        rw [hl', Option.some.injEq] at q1
        exact ⟨last', by rw [PileUp.back, List.append_nil]; exact hlast, by rw [q1]; exact q2⟩

/-! ## Parts -/

theorem update_fold {F : ℕ → Part → Option Part} {l : List ℕ} (hl : l.Nodup) {w : World} {h : ℕ → Part} (hF : ∀ p ∈ l, F p (w p) = some (h p)) :
    l.foldlM (fun w p => (F p (w p)).map fun q => Function.update w p q) w = some fun p => if p ∈ l then h p else w p := by
  induction l generalizing w with
  | nil => simp
  | cons a l ih =>
    obtain ⟨h1, h2⟩ := List.nodup_cons.1 hl
    rw [List.foldlM_cons, hF a List.mem_cons_self]
    change List.foldlM _ (Function.update w a (h a)) l = _
    have hne : ∀ p ∈ l, p ≠ a := fun p hp he => h1 (he ▸ hp)
    rw [ih h2 fun p hp => by rw [Function.update_of_ne (hne p hp)]; exact hF p (List.mem_cons_of_mem _ hp)]
    congr 1
    funext p
    by_cases hp : p ∈ l
    · rw [if_pos hp, if_pos (List.mem_cons_of_mem _ hp)]
    · rw [if_neg hp]
      by_cases ha : p = a
      · rw [ha, Function.update_self, if_pos List.mem_cons_self]
      · rw [Function.update_of_ne ha, if_neg (by simp [ha, hp])]

theorem points_fold {G : Point → ℕ → Part → Option Part} {l : List ℕ} (hl : l.Nodup) {points : List Point} {w : World} {g : ℕ → Part}
    (hG : ∀ p ∈ l, points.foldlM (fun q it => G it p q) (w p) = some (g p)) :
    points.foldlM (fun w it => l.foldlM (fun w p => (G it p (w p)).map fun q => Function.update w p q) w) w = some fun p => if p ∈ l then g p else w p := by
  induction points generalizing w with
  | nil =>
    rw [List.foldlM_nil]
    refine congrArg some (funext fun p => ?_)
    by_cases hp : p ∈ l
    · rw [if_pos hp]
      have := hG p hp
      rw [List.foldlM_nil] at this
      exact Option.some.inj this
    · rw [if_neg hp]
  | cons it points ih =>
    let h : ℕ → Part := fun p => (G it p (w p)).getD (w p)
    have hs : ∀ p ∈ l, G it p (w p) = some (h p) ∧ points.foldlM (fun q it => G it p q) (h p) = some (g p) := by
      intro p hp
      have := hG p hp
      rw [List.foldlM_cons] at this
      cases e : G it p (w p) with
      | none => rw [e] at this; cases this
      | some q =>
        rw [e] at this
        have hq : h p = q := by simp only [h, e]; rfl
        rw [hq]
        exact ⟨rfl, this⟩
    rw [List.foldlM_cons, update_fold hl fun p hp => (hs p hp).1]
    change List.foldlM _ _ points = _
    rw [ih fun p hp => by rw [if_pos hp]; exact (hs p hp).2]
    congr 1
    funext p
    by_cases hp : p ∈ l
    · rw [if_pos hp, if_pos hp]
    · rw [if_neg hp, if_neg hp, if_neg hp]

theorem appendToHistory_fold {points : List Point} {p : Part} (h : Increasing (p.history ++ points)) (hn : p.psychohistory = none) :
    points.foldlM Part.appendToHistory p = some { p with history := p.history ++ points } := by
  induction points generalizing p with
  | nil => simp
  | cons q points ih =>
    have e : p.history ++ q :: points = (p.history ++ [q]) ++ points := by simp
    rw [e] at h ⊢
    have h1 : p.appendToHistory q = some { p with history := p.history ++ [q] } := by
      rw [Part.appendToHistory, append_increasing (h.sublist (List.sublist_append_left _ _)), Option.map_some, ← hn]
    rw [List.foldlM_cons, h1]
    change List.foldlM _ _ points = _
    rw [ih (p := { p with history := p.history ++ [q] }) h hn]

theorem appendToPsychohistory_some {points : List Point} {p : Part} {seg : List Point} (hs : p.psychohistory = some seg) (hne : seg ≠ []) (h : Increasing (seg ++ points)) :
    points.foldlM Part.appendToPsychohistory p = some { p with psychohistory := some (seg ++ points) } := by
  induction points generalizing p seg with
  | nil => rw [List.foldlM_nil, List.append_nil, ← hs]; rfl
  | cons q points ih =>
    have e : seg ++ q :: points = (seg ++ [q]) ++ points := by simp
    rw [e] at h ⊢
    have hq : Increasing (seg ++ [q]) := h.sublist (List.sublist_append_left _ _)
    obtain ⟨a, seg', rfl⟩ := List.exists_cons_of_ne_nil hne
    have ha : ¬q.time < a.time := by
      simp only [Increasing, List.pairwise_append] at hq
      exact not_lt.2 (hq.2.2 a List.mem_cons_self q (by simp)).le
    have h1 : p.appendToPsychohistory q = some { p with psychohistory := some (a :: seg' ++ [q]) } := by
      rw [Part.appendToPsychohistory, hs]
      simp only [Option.getD_some, List.head?_cons]
      rw [if_neg ha, append_increasing hq]
      rfl
    rw [List.foldlM_cons, h1]
    change List.foldlM _ _ points = _
    rw [ih (p := { p with psychohistory := some (a :: seg' ++ [q]) }) rfl (by simp) h]

theorem appendToPsychohistory_fold {points : List Point} {p : Part} (h : Increasing (p.history ++ points)) (hn : p.psychohistory = none) :
    points.foldlM Part.appendToPsychohistory p =
      some { p with psychohistory := if points = [] then none else some (p.history.getLast?.toList ++ points) } := by
  cases points with
  | nil => rw [List.foldlM_nil, if_pos rfl, ← hn]; rfl
  | cons q points =>
    have hi : Increasing (p.history.getLast?.toList ++ q :: points) := by
      cases hl : p.history.getLast? with
      | none => exact h.sublist (List.sublist_append_right _ _)
      | some b =>
        obtain ⟨h1, h2⟩ := List.getLast?_eq_some_iff.1 hl
        rw [h2, List.append_assoc, List.singleton_append] at h
        exact h.sublist (List.sublist_append_right _ _)
    have e : p.history.getLast?.toList ++ q :: points = (p.history.getLast?.toList ++ [q]) ++ points := by simp
    have hq : Increasing (p.history.getLast?.toList ++ [q]) := by rw [e] at hi; exact hi.sublist (List.sublist_append_left _ _)
    have h1 : p.appendToPsychohistory q = some { p with psychohistory := some (p.history.getLast?.toList ++ [q]) } := by
      rw [Part.appendToPsychohistory, hn]
      simp only [Option.getD_none]
      cases hl : p.history.getLast? with
      | none => simp only [Option.toList_none, List.head?_nil]; rfl
      | some b =>
        rw [hl] at hq
        simp only [Option.toList_some, List.head?_cons] at hq ⊢
        have hb : ¬q.time < b.time := by
          simp only [Increasing, List.pairwise_append] at hq
          exact not_lt.2 (hq.2.2 b (by simp) q (by simp)).le
        rw [if_neg hb, append_increasing hq]
        rfl
    rw [List.foldlM_cons, h1]
    change List.foldlM _ _ points = _
    rw [appendToPsychohistory_some (p := { p with psychohistory := some (p.history.getLast?.toList ++ [q]) }) rfl (by simp) (by rw [← e]; exact hi), if_neg (by simp), e]

theorem toBarycentric_unit (c : DegreesOfFreedom) : (PileUp.toBarycentric c).orthogonalMap.IsUnit :=
  RigidMotion.inverse_unit (m := ⟨⟨c.position, 0, .identity⟩, 0, c.velocity⟩) identity_unit

/-- The frame of the pile-up is not rotating, and its origin is at the centre of mass. -/
theorem toBarycentric_apply (c d : DegreesOfFreedom) : (PileUp.toBarycentric c).apply d = ⟨d.position + c.position, d.velocity + c.velocity⟩ := by
  have hu : (⟨⟨c.position, 0, .identity⟩, 0, c.velocity⟩ : RigidMotion).orthogonalMap.IsUnit := identity_unit
  have h1 : ∀ d : DegreesOfFreedom, (⟨⟨c.position, 0, .identity⟩, 0, c.velocity⟩ : RigidMotion).apply d = ⟨d.position - c.position, d.velocity - c.velocity⟩ := by
    intro d
    simp only [RigidMotion.apply, RigidMotion.orthogonalMap, Geometry.AffineMap.apply, bivectorTimesVector, identity_apply]
    congr 1
    · ext <;> simp
    · ext <;> simp [R3.cross]
  have h2 := RigidMotion.inverse_apply hu ⟨d.position + c.position, d.velocity + c.velocity⟩
  rw [h1] at h2
  rw [PileUp.toBarycentric, ← h2]
  congr 1
  ext <;> simp

end Principia.Ksp.PileUp
