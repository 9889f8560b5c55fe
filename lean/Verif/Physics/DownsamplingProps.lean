import Verif.Physics.DownsamplingLemmas

set_option linter.unusedSimpArgs false
set_option linter.unusedVariables false
set_option linter.unusedSectionVars false

/-!
# C25, C47: downsampling honours the tolerance, evaluation of segments
-/

namespace Principia.DiscreteTrajectory

open Principia.Hermite3 Principia.Polynomial Principia.SortedMap

variable {V : Type} [NormedAddCommGroup V] [InnerProductSpace ℝ V]

noncomputable local instance : DecidableEq (V × V) := Classical.decEq _

/-! ### Specification -/

/-- The given time is between the first and the last points of the segment. -/
def Seg.Covers (s : Segment V) (t : ℝ) : Prop := (∃ p ∈ s.points, p.1 ≤ t) ∧ ∃ p ∈ s.points, t ≤ p.1

open Classical in
/-- The point which is given to an operation.  A point that is appended at the time of the first point of the segment is documented to be
ignored. -/
noncomputable def SegOp.points (s : Segment V) : SegOp V → List (ℝ × (V × V))
  | .append t d => if s.points.head?.map Prod.fst = some t then [] else [(t, d)]
  | .prepend t d => [(t, d)]
  | _ => []

/-- The tolerance in force after an operation. -/
def SegOp.tolerance (τ : Option ℝ) : SegOp V → Option ℝ
  | .setDownsampling x => some x
  | _ => τ

open Classical in
/-- `History s G τ`: some sequence of operations on a new segment leads to `s`, `G` are the points that were given to these operations and whose
time was covered by the segment ever since, and `τ` is the last tolerance that was set. -/
inductive History : Segment V → List (ℝ × (V × V)) → Option ℝ → Prop
  | new : History Seg.new [] none
  | step {s s' : Segment V} {G : List (ℝ × (V × V))} {τ : Option ℝ} (op : SegOp V) (h : History s G τ) (hs : s.apply op = some s') :
      History s' ((G ++ op.points s).filter fun p => s'.Covers p.1) (op.tolerance τ)

/-! ### Proofs -/

theorem covers_iff {s : Segment V} {t : ℝ} : s.Covers t ↔ (∃ a ∈ s.timeline, a.1 ≤ t) ∧ ∃ a ∈ s.timeline, t ≤ a.1 := by
  simp [Seg.Covers, Seg.points, point]

theorem dinv_of_history {s : Segment V} {G : List (ℝ × (V × V))} {τ : Option ℝ} (h : History s G τ) : DInv s G τ := by
  classical
  induction h with
  | new => exact dinv_new
  | step op h hs ih =>
    rename_i s s' G τ
    have hcov : ∀ p ∈ (G ++ op.points s).filter (fun p => decide (s'.Covers p.1)),
        (∃ a ∈ s'.timeline, a.1 ≤ p.1) ∧ ∃ a ∈ s'.timeline, p.1 ≤ a.1 := by
      intro p hp
      have := (List.mem_filter.1 hp).2
      simp only [decide_eq_true_eq] at this
      exact covers_iff.1 this
    cases op with
    | append t d =>
      rcases dinv_append ih hs with ⟨⟨a, ha, e⟩, rfl⟩ | ⟨hne, h'⟩
      · refine ih.filter fun p hp => ?_
        have h1 := (List.mem_filter.1 hp).1
        have : (SegOp.append t d).points s' = [] := by
          simp [SegOp.points, Seg.points, List.head?_map, ha, point, e]
        rw [this, List.append_nil] at h1
        exact h1
      · refine h'.filter fun p hp => ?_
        have h1 := (List.mem_filter.1 hp).1
        rcases List.mem_append.1 h1 with h1 | h1
        · exact List.mem_append_left _ h1
        · refine List.mem_append_right _ ?_
          simp only [SegOp.points] at h1
          split at h1
          · simp at h1
          · exact h1
    | prepend t d => exact (dinv_prepend ih hs).filter fun p hp => (List.mem_filter.1 hp).1
    | forgetAfter t =>
      simp only [Seg.apply, Option.some.injEq] at hs
      subst hs
      exact dinv_forgetAfter ih t (fun p hp => by simpa [SegOp.points] using (List.mem_filter.1 hp).1) hcov
    | forgetBefore t =>
      simp only [Seg.apply, Option.some.injEq] at hs
      subst hs
      exact dinv_forgetBefore ih t (fun p hp => by simpa [SegOp.points] using (List.mem_filter.1 hp).1) hcov
    | setDownsampling x =>
      exact (dinv_setDownsampling ih hs).filter fun p hp => by simpa [SegOp.points] using (List.mem_filter.1 hp).1
    | clearDownsampling =>
      simp only [Seg.apply, Option.some.injEq] at hs
      subst hs
      exact (dinv_clearDownsampling ih).filter fun p hp => by simpa [SegOp.points] using (List.mem_filter.1 hp).1
    | clear =>
      simp only [Seg.apply, Option.some.injEq] at hs
      subst hs
      refine (dinv_clear s _).filter fun p hp => ?_
      obtain ⟨⟨a, ha, _⟩, _⟩ := hcov p hp
      simp [Seg.clear] at ha

/-- Evaluation at the time of a point. -/
theorem evaluate_point {s : Segment V} (h : SegInv s) {a : ℝ × Val (V × V) (Hermite3 V) ℝ} (ha : a ∈ s.timeline) :
    s.evaluate a.1 = some (.inl a.2.dof) := by
  unfold Seg.evaluate
  cases hf : s.timeline.head? with
  | none => have : s.timeline = [] := by simpa using hf
            rw [this] at ha; simp at ha
  | some first =>
    cases hl : s.timeline.getLast? with
    | none => have : s.timeline = [] := by simpa using hl
              rw [this] at ha; simp at ha
    | some last =>
      simp only
      rw [if_pos ⟨head?_min h.sorted hf a ha, getLast?_max h.sorted hl a ha⟩]
      have hb : s.timeline[lowerBound s.timeline a.1]? = some a := by
        rw [getElem?_lowerBound h.sorted]
        have hm : a ∈ s.timeline.filter fun x => a.1 ≤ x.1 := by simp [ha]
        cases hh : (s.timeline.filter fun x => a.1 ≤ x.1).head? with
        | none => rw [List.head?_eq_none_iff] at hh; rw [hh] at hm; simp at hm
        | some b =>
          have hb := List.mem_of_mem_head? hh
          have hle : b.1 ≤ a.1 := head?_min (List.Pairwise.filter _ h.sorted) hh a hm
          have hb' := List.mem_filter.1 hb
          simp only [decide_eq_true_eq] at hb'
          rw [eq_of_key h.sorted hb'.1 ha (le_antisymm hle hb'.2)]
      rw [hb]
      simp

/-- Evaluation at a time strictly between consecutive points. -/
theorem evaluate_between {s : Segment V} (h : SegInv s) {xs ys : List (ℝ × Val (V × V) (Hermite3 V) ℝ)}
    {a b : ℝ × Val (V × V) (Hermite3 V) ℝ} (htl : s.timeline = xs ++ a :: b :: ys) {t : ℝ} (h1 : a.1 < t) (h2 : t < b.1) :
    s.evaluate t = b.2.interpolation.map fun i => .inr i.hermite := by
  have hs := h.sorted
  have ha : a ∈ s.timeline := by rw [htl]; simp
  have hb : b ∈ s.timeline := by rw [htl]; simp
  unfold Seg.evaluate
  cases hf : s.timeline.head? with
  | none => have : s.timeline = [] := by simpa using hf
            rw [this] at ha; simp at ha
  | some first =>
    cases hl : s.timeline.getLast? with
    | none => have : s.timeline = [] := by simpa using hl
              rw [this] at ha; simp at ha
    | some last =>
      simp only
      rw [if_pos ⟨(head?_min hs hf a ha).trans h1.le, h2.le.trans (getLast?_max hs hl b hb)⟩]
      have hlb : lowerBound s.timeline t = xs.length + 1 := by
        have := congrArg List.length (take_lowerBound hs t)
        rw [List.length_take, Nat.min_eq_left (lowerBound_le _ _)] at this
        rw [this, htl]
        rw [htl] at hs
        have hxs : ∀ x ∈ xs, x.1 < t := fun x hx => ((List.pairwise_append.1 hs).2.2 x hx a (by simp)).trans h1
        have hys : ∀ x ∈ ys, ¬ x.1 < t := fun x hx => by
          have h3 := (List.pairwise_append.1 hs).2.1
          have := (List.pairwise_cons.1 (List.pairwise_cons.1 h3).2).1 x hx
          exact not_lt.2 (h2.le.trans this.le)
        rw [List.filter_append, List.filter_cons_of_pos (by simpa using h1), List.filter_cons_of_neg (by simpa using h2.le),
          List.filter_eq_self.2 (by simpa using hxs), List.filter_eq_nil_iff.2 (by simpa using hys)]
        simp
      rw [hlb]
      have hget : s.timeline[xs.length + 1]? = some b := by rw [htl]; simp
      rw [hget]
      simp only
      rw [if_neg h2.ne', if_neg (by omega)]

/-- A time which is covered is either that of a point or between two consecutive points. -/
theorem covered_cases {l : List (ℝ × Val (V × V) (Hermite3 V) ℝ)} (hs : Sorted l) {t : ℝ} (h1 : ∃ a ∈ l, a.1 ≤ t) (h2 : ∃ a ∈ l, t ≤ a.1) :
    (∃ a ∈ l, a.1 = t) ∨ ∃ xs a b ys, l = xs ++ a :: b :: ys ∧ a.1 < t ∧ t < b.1 := by
  induction l with
  | nil => simp at h1
  | cons x l ih =>
    by_cases hx : x.1 = t
    · exact .inl ⟨x, by simp, hx⟩
    have hxl := (List.pairwise_cons.1 hs).1
    have hlt : x.1 < t := by
      obtain ⟨a, ha, hle⟩ := h1
      rcases List.mem_cons.1 ha with rfl | ha
      · exact lt_of_le_of_ne hle hx
      · exact (hxl a ha).trans_le hle
    have h2' : ∃ a ∈ l, t ≤ a.1 := by
      obtain ⟨a, ha, hle⟩ := h2
      rcases List.mem_cons.1 ha with rfl | ha
      · exact absurd hlt (not_lt.2 hle)
      · exact ⟨a, ha, hle⟩
    cases l with
    | nil => simp at h2'
    | cons y l =>
      rcases lt_trichotomy t y.1 with h | h | h
      · exact .inr ⟨[], x, y, l, rfl, hlt, h⟩
      · exact .inl ⟨y, by simp, h.symm⟩
      · rcases ih (List.pairwise_cons.1 hs).2 ⟨y, by simp, h.le⟩ h2' with ⟨a, ha, e⟩ | ⟨xs, a, b, ys, e, h3, h4⟩
        · exact .inl ⟨a, List.mem_cons_of_mem _ ha, e⟩
        · exact .inr ⟨x :: xs, a, b, ys, by rw [e]; rfl, h3, h4⟩

theorem close_at {l xs ys : List (ℝ × Val (V × V) (Hermite3 V) ℝ)} {a b : ℝ × Val (V × V) (Hermite3 V) ℝ}
    {R : ℝ × Val (V × V) (Hermite3 V) ℝ → ℝ × Val (V × V) (Hermite3 V) ℝ → Prop} (hc : l.IsChain R) (e : l = xs ++ a :: b :: ys) : R a b := by
  rw [e] at hc
  have := hc.right_of_append
  rw [List.isChain_cons_cons] at this
  exact this.1

theorem dinv_position {s : Segment V} {G : List (ℝ × (V × V))} {τ : Option ℝ} (h : DInv s G τ) {p : ℝ × (V × V)} (hp : p ∈ G) :
    ∃ q, s.position p.1 = some q ∧ (q = p.2.1 ∨ ∃ x, τ = some x ∧ ‖q - p.2.1‖ < x) := by
  obtain ⟨r1, r2⟩ := h.range p hp
  rcases covered_cases h.seg.sorted r1 r2 with ⟨a, ha, e⟩ | ⟨xs, a, b, ys, e, h1, h2⟩
  · refine ⟨a.2.dof.1, ?_, .inl ?_⟩
    · unfold Seg.position; rw [← e, evaluate_point h.seg ha]; rfl
    · rw [h.exact_ p hp a ha e]
  · obtain ⟨i, hi, _, h0, hb, hc⟩ := close_at h.chain e
    refine ⟨i.hermite.eval p.1, ?_, ?_⟩
    · unfold Seg.position; rw [evaluate_between h.seg e h1 h2, hi]; rfl
    · have := hc p hp h1.le h2.le
      rcases hb with hb | ⟨x, hx, hb⟩
      · left
        rw [hb] at this
        exact sub_eq_zero.1 (norm_le_zero_iff.1 this)
      · exact .inr ⟨x, hx, this.trans_lt hb⟩

/-- **C25**: after any sequence of operations on a segment, the trajectory passes at a distance less than the tolerance of every point that was
given to it and whose time is (and was ever since) between the first and the last points of the segment.  What is missing: sequences that include
merges and deserializations, for which this is false, see `C25_merge_counterexample`. -/
theorem C25_downsampling_partial {s : Segment V} {G : List (ℝ × (V × V))} {τ : Option ℝ} (h : History s G τ) {p : ℝ × (V × V)} (hp : p ∈ G) :
    ∃ q, s.position p.1 = some q ∧ (q = p.2.1 ∨ ∃ x, τ = some x ∧ ‖q - p.2.1‖ < x) :=
  dinv_position (dinv_of_history h) hp

/-- The successive calls to `Append`. -/
noncomputable def Seg.appendAll (s : Segment V) (pts : List (ℝ × (V × V))) : Option (Segment V) :=
  pts.foldlM (fun s p => s.append hermite p.1 p.2) s

theorem append_last {s s' : Segment V} {t : ℝ} {d : V × V} (hs : s.append hermite t d = some s')
    (hne : ¬ ∃ a, s.timeline.head? = some a ∧ a.1 = t) : ∃ b, s'.timeline.getLast? = some b ∧ b.1 = t := by
  cases append_result hs with
  | ignored a ha e => exact absurd ⟨a, ha, e⟩ hne
  | first he => exact ⟨_, rfl, rfl⟩
  | pushed last hl hlt hd => exact ⟨_, by simp [Seg.push]; rfl, rfl⟩
  | replaced last lower tolerance i hl hlt htol hlower hi herr => exact ⟨_, by simp; rfl, rfl⟩

theorem appendAll_dinv {s : Segment V} {G : List (ℝ × (V × V))} {τ : Option ℝ} (h : DInv s G τ) (pts : List (ℝ × (V × V)))
    (hsorted : pts.Pairwise (·.1 < ·.1)) (hlast : ∀ b, s.timeline.getLast? = some b → ∀ p ∈ pts, b.1 < p.1) :
    ∃ s', s.appendAll pts = some s' ∧ DInv s' (G ++ pts) τ := by
  induction pts generalizing s G with
  | nil => exact ⟨s, rfl, by simpa using h⟩
  | cons p pts ih =>
    have hne : ¬ ∃ a, s.timeline.head? = some a ∧ a.1 = p.1 := by
      rintro ⟨a, ha, e⟩
      cases hl : s.timeline.getLast? with
      | none => have : s.timeline = [] := by simpa using hl
                rw [this] at ha; simp at ha
      | some b =>
        have h1 := hlast b hl p (by simp)
        have h2 := getLast?_max h.seg.sorted hl a (List.mem_of_mem_head? ha)
        rw [e] at h2
        exact absurd h1 (not_lt.2 h2)
    have hsome : (s.append hermite p.1 p.2).isSome = true := by
      rw [append_isSome h.seg]
      cases hl : s.timeline.getLast? with
      | none => left; simpa using hl
      | some b => right; right; exact ⟨b, rfl, hlast b hl p (by simp)⟩
    obtain ⟨s', hs'⟩ := Option.isSome_iff_exists.1 hsome
    rcases dinv_append h hs' with ⟨hh, _⟩ | ⟨_, h'⟩
    · exact absurd hh hne
    obtain ⟨b, hb, hbt⟩ := append_last hs' hne
    obtain ⟨s'', e, h''⟩ := ih h' (List.pairwise_cons.1 hsorted).2 (by
      intro c hc q hq
      rw [hb] at hc
      simp only [Option.some.injEq] at hc
      subst hc
      rw [hbt]
      exact (List.pairwise_cons.1 hsorted).1 q hq)
    refine ⟨s'', ?_, by simpa using h''⟩
    unfold Seg.appendAll at e ⊢
    rw [List.foldlM_cons, hs']
    exact e

/-- **C25** (points appended in increasing order to a new segment): the calls succeed, and the trajectory passes at a distance less than the
tolerance of all of them. -/
theorem C25_append (tolerance : ℝ) (pts : List (ℝ × (V × V))) (hsorted : pts.Pairwise (·.1 < ·.1)) :
    ∃ s0 s, (Seg.new : Segment V).setDownsampling tolerance = some s0 ∧ s0.appendAll pts = some s ∧
      ∀ p ∈ pts, ∃ q, s.position p.1 = some q ∧ (q = p.2.1 ∨ ‖q - p.2.1‖ < tolerance) := by
  have hs0 : (Seg.new : Segment V).setDownsampling tolerance = some { timeline := [], tolerance := some tolerance, error := 0 } := by
    simp [Seg.setDownsampling, Seg.new]
  obtain ⟨s, e, h⟩ := appendAll_dinv (dinv_setDownsampling dinv_new hs0) pts hsorted (by simp)
  refine ⟨_, s, hs0, e, fun p hp => ?_⟩
  obtain ⟨q, hq, h1⟩ := dinv_position h (by simpa using hp)
  refine ⟨q, hq, h1.imp_right ?_⟩
  rintro ⟨x, hx, hlt⟩
  simp only [Option.some.injEq] at hx
  rw [hx]; exact hlt

/-- **C47** (at the points): evaluation at the time of a point of the segment yields the degrees of freedom of that point. -/
theorem C47_at_points {s : Segment V} {G : List (ℝ × (V × V))} {τ : Option ℝ} (h : History s G τ) {p : ℝ × (V × V)} (hp : p ∈ s.points) :
    s.position p.1 = some p.2.1 ∧ s.velocity p.1 = some p.2.2 := by
  obtain ⟨a, ha, rfl⟩ := mem_points_iff.1 hp
  have := evaluate_point (dinv_of_history h).seg ha
  exact ⟨by unfold Seg.position; rw [show (point a).1 = a.1 from rfl, this]; rfl,
    by unfold Seg.velocity; rw [show (point a).1 = a.1 from rfl, this]; rfl⟩

/-- **C47** (between points): evaluation at a time strictly between two consecutive points of the segment yields the value and the derivative of
the cubic Hermite interpolation of the degrees of freedom of these points. -/
theorem C47_between_points {s : Segment V} {G : List (ℝ × (V × V))} {τ : Option ℝ} (h : History s G τ) {xs ys : List (ℝ × (V × V))}
    {p q : ℝ × (V × V)} (hpts : s.points = xs ++ p :: q :: ys) {t : ℝ} (h1 : p.1 < t) (h2 : t < q.1) :
    ∃ H, Hermite3.make (p.1, q.1) (p.2.1, q.2.1) (p.2.2, q.2.2) = some H ∧
      s.position t = some (H.eval t) ∧ s.velocity t = some (H.evalDerivative t) := by
  have hd := dinv_of_history h
  obtain ⟨xs', r, e, rfl, hr⟩ := List.map_eq_append_iff.1 (show s.timeline.map point = xs ++ p :: q :: ys from hpts)
  obtain ⟨a, r', rfl, rfl, hr'⟩ := List.map_eq_cons_iff.1 hr
  obtain ⟨b, ys', rfl, rfl, rfl⟩ := List.map_eq_cons_iff.1 hr'
  obtain ⟨i, hi, hint, _⟩ := close_at hd.chain e
  have hev := evaluate_between hd.seg e h1 h2
  refine ⟨i.hermite, hint, ?_, ?_⟩
  · unfold Seg.position; rw [hev, hi]; rfl
  · unfold Seg.velocity; rw [hev, hi]; rfl

/-- **C47** (outside): evaluation succeeds exactly for the times between those of the first and of the last points. -/
theorem C47_domain {s : Segment V} {G : List (ℝ × (V × V))} {τ : Option ℝ} (h : History s G τ) (t : ℝ) :
    ((s.position t).isSome = true ↔ s.Covers t) ∧ ((s.velocity t).isSome = true ↔ s.Covers t) := by
  have hd := dinv_of_history h
  have key : (s.evaluate t).isSome = true ↔ s.Covers t := by
    rw [covers_iff]
    constructor
    · intro he
      unfold Seg.evaluate at he
      cases hf : s.timeline.head? with
      | none => simp [hf] at he
      | some first =>
        cases hl : s.timeline.getLast? with
        | none => simp [hf, hl] at he
        | some last =>
          simp only [hf, hl] at he
          split at he
          · rename_i hc
            exact ⟨⟨first, List.mem_of_mem_head? hf, hc.1⟩, ⟨last, List.mem_of_mem_getLast? hl, hc.2⟩⟩
          · simp at he
    · rintro ⟨r1, r2⟩
      rcases covered_cases hd.seg.sorted r1 r2 with ⟨a, ha, e⟩ | ⟨xs, a, b, ys, e, h1, h2⟩
      · rw [← e, evaluate_point hd.seg ha]; rfl
      · obtain ⟨i, hi, _⟩ := close_at hd.chain e
        rw [evaluate_between hd.seg e h1 h2, hi]; rfl
  unfold Seg.position Seg.velocity
  rw [Option.isSome_map, Option.isSome_map]
  exact ⟨key, key⟩

/-! ### Examples -/

/-- The points of a parabola. -/
noncomputable def parabola (c t : ℝ) : ℝ × (ℝ × ℝ) := (t, (c * t ^ 2, 2 * c * t))

theorem parabola_eval (c t : ℝ) (ht : t ≠ 0) (x : ℝ) :
    (hermite.make (parabola 0 0) (parabola c t)).eval x = c * x ^ 2 := by
  have hi : Interpolates (parabola 0 0) (parabola c t) (hermite.make (parabola 0 0) (parabola c t)) := hermite_make (by simpa [parabola] using ht.symm)
  obtain ⟨H, e, hl, hu, ho, hd, g0, g1, g2, g3⟩ := make_eq (parabola 0 0).1 (parabola c t).1 (parabola 0 0).2.1 (parabola c t).2.1
    (parabola 0 0).2.2 (parabola c t).2.2 (by simpa [parabola] using ht.symm)
  unfold Interpolates at hi
  rw [e] at hi
  simp only [Option.some.injEq] at hi
  rw [← hi]
  have g2' : H.p.get 2 = c := by
    rw [g2]; simp only [parabola, smul_eq_mul]; field_simp; ring
  have g3' : H.p.get 3 = 0 := by
    rw [g3]; simp only [parabola, smul_eq_mul]; field_simp; ring
  rw [eval_eq, value4 H.p (by omega), ho, g0, g1, g2', g3']
  simp [parabola]
  ring

theorem parabola_distance (c c' t t' : ℝ) (ht' : 0 < t') (htt' : t' < t) (hc : c' ≤ c) :
    hermite.distance (hermite.make (parabola 0 0) (parabola c t)) (hermite.make (parabola 0 0) (parabola c' t')) = (c - c') * t' ^ 2 := by
  obtain ⟨d, _, _, hg⟩ := hermite_distance (a := parabola 0 0) (b := parabola c' t') (c := parabola c t) (by simpa [parabola] using ht')
    (by simpa [parabola] using htt'.le) (hermite_make (by simpa [parabola] using ht'.ne))
    (hermite_make (by simpa [parabola] using (ht'.trans htt').ne))
  refine hg.unique ⟨⟨t', ⟨by simpa [parabola] using ht'.le, by simp [parabola]⟩, ?_⟩, ?_⟩
  · simp only [parabola_eval c t (ht'.trans htt').ne', parabola_eval c' t' ht'.ne']
    rw [Real.norm_eq_abs, show c * t' ^ 2 - c' * t' ^ 2 = (c - c') * t' ^ 2 by ring]
    exact abs_of_nonneg (mul_nonneg (by linarith) (sq_nonneg _))
  · rintro _ ⟨x, ⟨hx1, hx2⟩, rfl⟩
    simp only [parabola_eval c t (ht'.trans htt').ne', parabola_eval c' t' ht'.ne'] at hx1 hx2 ⊢
    simp only [parabola] at hx1 hx2
    rw [Real.norm_eq_abs, show c * x ^ 2 - c' * x ^ 2 = (c - c') * x ^ 2 by ring,
      abs_of_nonneg (mul_nonneg (by linarith) (sq_nonneg _))]
    exact mul_le_mul_of_nonneg_left (by nlinarith) (by linarith)

/-- The element of a timeline which is reached by a parabola. -/
noncomputable def exVal (c t error : ℝ) : ℝ × Val (ℝ × ℝ) (Hermite3 ℝ) ℝ :=
  (t, { dof := (parabola c t).2, interpolation := some { hermite := hermite.make (parabola 0 0) (parabola c t), error := error } })

/-- A segment with two points, the second one being reached by a parabola. -/
noncomputable def exSeg (c t error error' : ℝ) : Segment ℝ :=
  { timeline := [(0, { dof := (parabola 0 0).2, interpolation := none }), exVal c t error], tolerance := some 1, error := error' }

theorem exSeg_append (c t e e' c' t' : ℝ) (ht : 0 < t) (htt' : t < t') (hc : c ≤ c') (he : e' + (c' - c) * t ^ 2 < 1) :
    (exSeg c t e e').append hermite t' (parabola c' t').2 = some (exSeg c' t' (e' + (c' - c) * t ^ 2) (e' + (c' - c) * t ^ 2)) := by
  have hd := parabola_distance c' c t' t ht htt' hc
  have p0 : point ((0 : ℝ), ({ dof := (parabola 0 0).2, interpolation := none } : Val (ℝ × ℝ) (Hermite3 ℝ) ℝ)) = parabola 0 0 := rfl
  have p1 : (t', (parabola c' t').2) = parabola c' t' := rfl
  simp only [Seg.append, exSeg, exVal, List.head?_cons, List.getLast?_cons_cons, List.getLast?_singleton, List.dropLast_cons_cons,
    List.dropLast_singleton]
  rw [if_neg (ht.trans htt').ne, if_pos htt', p0, p1, hd, if_pos he]
  rfl

/-- The segment after the first two points. -/
theorem exSeg_start : ∃ s0 s1, (Seg.new : Segment ℝ).setDownsampling 1 = some s0 ∧ s0.append hermite 0 (parabola 0 0).2 = some s1 ∧
    s1.append hermite 1 (parabola 0 1).2 = some (exSeg 0 1 0 0) := by
  refine ⟨_, _, by simp [Seg.setDownsampling, Seg.new]; rfl, rfl, ?_⟩
  simp [Seg.append, Seg.push, exSeg, exVal, point, parabola]

theorem exSeg_covers (c t e e' x : ℝ) (h0 : 0 ≤ x) (hx : x ≤ t) : (exSeg c t e e').Covers x :=
  covers_iff.2 ⟨⟨_, by simp [exSeg]; exact .inl rfl, h0⟩, ⟨exVal c t e, by simp [exSeg], hx⟩⟩

theorem exSeg_position (c t e e' x : ℝ) (h0 : 0 < x) (hx : x < t) : (exSeg c t e e').position x = some (c * x ^ 2) := by
  have hs : SegInv (exSeg c t e e') := by
    refine ⟨?_, ?_⟩
    · simp [Sorted, exSeg, exVal]; linarith
    · intro k a ha
      match k with
      | 0 => simp [exSeg] at ha; subst ha; simp
      | 1 => simp [exSeg] at ha; subst ha; simp [exVal]
      | k + 2 => simp [exSeg] at ha
  have := evaluate_between hs (xs := []) (ys := []) (a := (0, { dof := (parabola 0 0).2, interpolation := none })) (b := exVal c t e) rfl h0 hx
  unfold Seg.position
  rw [this]
  simp [exVal, parabola_eval c t (h0.trans hx).ne']

theorem exHistory : ∃ e G, History (exSeg 0.9 2 e e) G (some 1) ∧ parabola 0 1 ∈ G := by
  obtain ⟨s0, s1, e0, e1, e2⟩ := exSeg_start
  have h0 := History.step (.setDownsampling 1) History.new e0
  have h1 := History.step (.append 0 (parabola 0 0).2) h0 e1
  have h2 := History.step (.append 1 (parabola 0 1).2) h1 e2
  have e3 := exSeg_append 0 1 0 0 0.9 2 (by norm_num) (by norm_num) (by norm_num) (by norm_num)
  have h3 := History.step (.append 2 (parabola 0.9 2).2) h2 e3
  refine ⟨_, _, h3, ?_⟩
  rw [List.mem_filter]
  refine ⟨List.mem_append_left _ (List.mem_filter.2 ⟨List.mem_append_right _ ?_, ?_⟩), ?_⟩
  · simp only [Seg.setDownsampling, Seg.new, List.length_nil, zero_le, if_true, Option.some.injEq] at e0
    subst e0
    simp only [Seg.append, List.head?_nil, Option.some.injEq] at e1
    subst e1
    simp [SegOp.points, Seg.points, point, parabola]
  · simpa using exSeg_covers 0 1 0 0 _ (by simp [parabola]) (by simp [parabola])
  · simpa using exSeg_covers 0.9 2 _ _ _ (by simp [parabola]) (by simp [parabola])

/-- The hypotheses of `C25_downsampling_partial` are met by a segment from which the point at time 1 has been dropped. -/
example : ∃ (s : Segment ℝ) (G : List (ℝ × (ℝ × ℝ))) (q : ℝ), History s G (some 1) ∧ parabola 0 1 ∈ G ∧ parabola 0 1 ∉ s.points ∧
    s.position 1 = some q ∧ q = 0.9 := by
  obtain ⟨e, G, h, hG⟩ := exHistory
  refine ⟨_, G, _, h, hG, ?_, exSeg_position 0.9 2 e e 1 (by norm_num) (by norm_num), by norm_num⟩
  simp [Seg.points, exSeg, exVal, point, parabola]

/-- `Merge` (and likewise the deserialization) does not restore the accumulated error of the downsampling, so that the bound does not hold if points
are appended afterwards: here a point that was dropped ends up at a distance greater than the tolerance of the trajectory. -/
theorem C25_merge_counterexample :
    ∃ (s s' s'' : Segment ℝ) (G : List (ℝ × (ℝ × ℝ))) (p : ℝ × (ℝ × ℝ)) (t : ℝ) (d : ℝ × ℝ) (q : ℝ), History s G (some 1) ∧ p ∈ G ∧
      (Seg.new : Segment ℝ).merge hermite s = some s' ∧ s'.append hermite t d = some s'' ∧
      s''.position p.1 = some q ∧ 1 < ‖q - p.2.1‖ := by
  obtain ⟨e, G, h, hG⟩ := exHistory
  have hm : (Seg.new : Segment ℝ).merge hermite (exSeg 0.9 2 e e) = some (exSeg 0.9 2 e 0) := by
    simp [Seg.merge, Seg.new, exSeg]
  refine ⟨_, _, _, G, _, 3, (parabola 1.125 3).2, _, h, hG, hm,
    exSeg_append 0.9 2 e 0 1.125 3 (by norm_num) (by norm_num) (by norm_num) (by norm_num),
    exSeg_position 1.125 3 _ _ 1 (by norm_num) (by norm_num), ?_⟩
  simp only [parabola]
  norm_num

end Principia.DiscreteTrajectory
