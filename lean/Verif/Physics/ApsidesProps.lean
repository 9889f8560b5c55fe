import Verif.Physics.ApsidesLemmas
import Mathlib.Analysis.InnerProductSpace.Calculus
import Mathlib.Topology.Order.LocalExtr
import Mathlib.Topology.Order.Compact
import Mathlib.Analysis.Calculus.LocalExtr.Basic
import Mathlib.Analysis.InnerProductSpace.Basic

set_option linter.unusedSimpArgs false
set_option linter.unusedVariables false
set_option linter.unusedSectionVars false

/-!
# C63: the apsides
-/

namespace Principia.Apsides

open Principia.SortedMap Principia.RootFinders

variable {E : Type} [NormedAddCommGroup E] [InnerProductSpace ℝ E]

/-! ### The time of an apsis -/

/-- The time computed for an apsis is that of the last extremum of the cubic that interpolates the squared distance between the two points. -/
theorem apsisTime_spec (t0 v0 d0 t1 v1 d1 : ℝ) (ht : t0 < t1) (hs : ChangesSign d0 d1) :
    ∃ t h, apsisTime (t0, v0, d0) t1 v1 d1 = some t ∧ IsCubicInterpolant h t0 t1 v0 v1 d0 d1 ∧ t0 ≤ t ∧ t ≤ t1 ∧ HasDerivAt h 0 t ∧
      (∀ u, t0 ≤ u → u ≤ t1 → HasDerivAt h 0 u → u ≤ t) ∧
      (d1 < 0 → ∀ u ∈ Set.Icc t0 t1, h u ≤ h t) ∧ (0 < d1 → ∀ u ∈ Set.Icc t0 t1, h t ≤ h u) := by
  have hne : d0 ≠ d1 := by rcases hs with ⟨h1, h2⟩ | ⟨h1, h2⟩ <;> intro e <;> linarith
  obtain ⟨H, e, hl, hu, hd, hI, ⟨A, B, C, hABC⟩, e0, e1, hcoef⟩ := interpolant t0 t1 v0 v1 d0 d1 ht
  obtain ⟨hmem, hsorted⟩ := Hermite3.C26_extrema H hd (hcoef hne)
  rw [hl, hu] at hmem
  have hD := Hermite3.hasDerivAt_eval H
  have hcrit : ∀ u, HasDerivAt H.eval 0 u ↔ H.evalDerivative u = 0 := fun u => ⟨fun h => (hD u).unique h, fun h => h ▸ hD u⟩
  have hcont : Continuous H.evalDerivative := by rw [funext hABC]; fun_prop
  have hroot : ∃ x, x ∈ H.findExtrema := by
    have : ∃ x ∈ Set.Icc t0 t1, H.evalDerivative x = 0 := by
      rcases hs with ⟨h1, h2⟩ | ⟨h1, h2⟩
      · exact intermediate_value_Icc ht.le hcont.continuousOn ⟨by rw [e0]; exact h1.le, by rw [e1]; exact h2⟩
      · exact intermediate_value_Icc' ht.le hcont.continuousOn ⟨by rw [e1]; exact h2.le, by rw [e0]; exact h1⟩
    obtain ⟨x, hx, hx0⟩ := this
    exact ⟨x, (hmem x).2 ⟨hx.1, hx.2, (hcrit x).2 hx0⟩⟩
  obtain ⟨x, hx⟩ := hroot
  obtain ⟨t, hlast, htm, hmax⟩ := getLast_of_sorted hsorted hx
  obtain ⟨a1, a2, a3⟩ := (hmem t).1 htm
  have hlast' : ∀ u, t0 ≤ u → u ≤ t1 → H.evalDerivative u = 0 → u ≤ t := fun u h1 h2 h3 => hmax u ((hmem u).2 ⟨h1, h2, (hcrit u).2 h3⟩)
  refine ⟨t, H.eval, ?_, hI, a1, a2, a3, fun u h1 h2 h3 => hlast' u h1 h2 ((hcrit u).1 h3), fun h => ?_, fun h => ?_⟩
  · unfold apsisTime; rw [e]; exact hlast
  · have h0 : 0 ≤ d0 := by rcases hs with ⟨h1, h2⟩ | ⟨h1, h2⟩ <;> linarith
    obtain ⟨b, a⟩ := quadratic_sign hABC a1 a2 ((hcrit t).1 a3) (by rw [e0]; exact h0) (by rw [e1]; exact h) hlast'
    exact max_of_sign hD a1 a2 b a
  · have h0 : d0 < 0 := by rcases hs with ⟨h1, h2⟩ | ⟨h1, h2⟩ <;> linarith
    obtain ⟨b, a⟩ := quadratic_sign (g := fun u => -H.evalDerivative u) (A := -A) (B := -B) (C := -C) (fun u => by rw [hABC]; ring) a1 a2
      (by rw [(hcrit t).1 a3, neg_zero]) (by rw [e0]; linarith) (by rw [e1]; linarith) (fun u h1 h2 h3 => hlast' u h1 h2 (by simpa using h3))
    intro u hu
    have := max_of_sign (F := fun u => -H.eval u) (fun u => (hD u).neg) a1 a2 b a u hu
    simpa using this

/-! ### The scan -/

/-- The squared distance to the reference at a point of the trajectory. -/
noncomputable def distance2 (reference : Trajectory E) (p : Point E) : ℝ := inner ℝ (p.dof.1 - (reference.eval p.time).1) (p.dof.1 - (reference.eval p.time).1)

noncomputable def apsidesScan (reference : Trajectory E) (trajectory : ℝ → DegreesOfFreedom E) (tMax : ℝ) (maxPoints : ℕ) : ScanData (Point E) (DegreesOfFreedom E) where
  skip p := p.time < reference.tMin
  stop p := p.time > min tMax reference.tMax
  value := rate reference
  timeOf p q := apsisTime (p.time, distance2 reference p, rate reference p) q.time (distance2 reference q) (rate reference q)
  first q := rate reference q < 0
  accept _ := True
  traj := trajectory
  maxPoints := maxPoints

noncomputable def apsidesState (reference : Trajectory E) (s : Option (Point E) × DistinguishedPoints E × DistinguishedPoints E) : ApsidesState E :=
  ⟨s.1.map fun p => (p.time, distance2 reference p, rate reference p), s.2.1, s.2.2⟩

theorem apsidesBody_eq (reference : Trajectory E) (trajectory : ℝ → DegreesOfFreedom E) (tMax : ℝ) (maxPoints : ℕ) (s : Option (Point E) × DistinguishedPoints E × DistinguishedPoints E)
    (p : Point E) : apsidesBody reference trajectory tMax maxPoints (apsidesState reference s) p =
      (scanBody (apsidesScan reference trajectory tMax maxPoints) s p).map (apsidesState reference) := by
  classical
  obtain ⟨prev, A, B⟩ := s
  have e1 : squaredDistance (p.dof - reference.eval p.time) = distance2 reference p := rfl
  have e2 : squaredDistanceDerivative (p.dof - reference.eval p.time) = rate reference p := rfl
  unfold apsidesBody scanBody
  simp only [e1, e2]
  by_cases hs : p.time < reference.tMin
  · rw [if_pos hs, if_pos (show (apsidesScan reference trajectory tMax maxPoints).skip p from hs)]; rfl
  · rw [if_neg hs, if_neg (show ¬ (apsidesScan reference trajectory tMax maxPoints).skip p from hs)]
    by_cases ht : p.time > min tMax reference.tMax
    · rw [if_pos ht, if_pos (show (apsidesScan reference trajectory tMax maxPoints).stop p from ht)]; rfl
    · rw [if_neg ht, if_neg (show ¬ (apsidesScan reference trajectory tMax maxPoints).stop p from ht)]
      cases prev with
      | none => rfl
      | some q =>
        simp only [apsidesState, Option.map_some]
        by_cases hc : ChangesSign (rate reference q) (rate reference p)
        · rw [if_pos (negative_ne_iff.2 hc), if_pos (show ChangesSign ((apsidesScan reference trajectory tMax maxPoints).value q) ((apsidesScan reference trajectory tMax maxPoints).value p) from hc)]
          have et : (apsidesScan reference trajectory tMax maxPoints).timeOf q p =
            apsisTime (q.time, distance2 reference q, rate reference q) p.time (distance2 reference p) (rate reference p) := rfl
          rw [et]
          cases apsisTime (q.time, distance2 reference q, rate reference q) p.time (distance2 reference p) (rate reference p) with
          | none => rfl
          | some t =>
            simp only
            rw [if_pos (show (apsidesScan reference trajectory tMax maxPoints).accept t from trivial)]
            by_cases hn : rate reference p < 0
            · have hn' := negative_eq_true.2 hn
              simp only [hn', if_true, if_pos (show (apsidesScan reference trajectory tMax maxPoints).first p from hn)]
              by_cases hh : (emplace A t (trajectory t)).length ≥ maxPoints ∧ B.length ≥ maxPoints
              · rw [if_pos hh, if_pos (show (emplace A t ((apsidesScan reference trajectory tMax maxPoints).traj t)).length ≥ (apsidesScan reference trajectory tMax maxPoints).maxPoints ∧ B.length ≥ (apsidesScan reference trajectory tMax maxPoints).maxPoints from hh)]; rfl
              · rw [if_neg hh, if_neg (show ¬ ((emplace A t ((apsidesScan reference trajectory tMax maxPoints).traj t)).length ≥ (apsidesScan reference trajectory tMax maxPoints).maxPoints ∧ B.length ≥ (apsidesScan reference trajectory tMax maxPoints).maxPoints) from hh)]; rfl
            · have hn' := negative_eq_false.2 (not_lt.1 hn)
              simp only [hn', Bool.false_eq_true, if_false, if_neg (show ¬ (apsidesScan reference trajectory tMax maxPoints).first p from hn)]
              by_cases hh : A.length ≥ maxPoints ∧ (emplace B t (trajectory t)).length ≥ maxPoints
              · rw [if_pos hh, if_pos (show A.length ≥ (apsidesScan reference trajectory tMax maxPoints).maxPoints ∧ (emplace B t ((apsidesScan reference trajectory tMax maxPoints).traj t)).length ≥ (apsidesScan reference trajectory tMax maxPoints).maxPoints from hh)]; rfl
              · rw [if_neg hh, if_neg (show ¬ (A.length ≥ (apsidesScan reference trajectory tMax maxPoints).maxPoints ∧ (emplace B t ((apsidesScan reference trajectory tMax maxPoints).traj t)).length ≥ (apsidesScan reference trajectory tMax maxPoints).maxPoints) from hh)]; rfl
        · rw [if_neg (fun h => hc (negative_ne_iff.1 h)),
            if_neg (show ¬ ChangesSign ((apsidesScan reference trajectory tMax maxPoints).value q) ((apsidesScan reference trajectory tMax maxPoints).value p) from hc)]
          rfl

/-- The distance to the reference, at a point of the trajectory. -/
noncomputable def distanceToReference (reference : Trajectory E) (p : Point E) : ℝ := ‖p.dof.1 - (reference.eval p.time).1‖

/-- An apsis, found at time `t`, between two consecutive points `p` and `q`: an extremum (the last one if there are several) of the cubic `h` that has the same values and the same derivatives, at these
points, as the squared distance. -/
structure IsApsis (reference : Trajectory E) (p q : Point E) (t : ℝ) (h : ℝ → ℝ) : Prop where
  interpolant : IsCubicInterpolant h p.time q.time (distanceToReference reference p ^ 2) (distanceToReference reference q ^ 2) (rate reference p) (rate reference q)
  mem : t ∈ Set.Icc p.time q.time
  critical : HasDerivAt h 0 t
  last : ∀ u ∈ Set.Icc p.time q.time, HasDerivAt h 0 u → u ≤ t
  maximum : rate reference q < 0 → ∀ u ∈ Set.Icc p.time q.time, h u ≤ h t
  minimum : 0 < rate reference q → ∀ u ∈ Set.Icc p.time q.time, h t ≤ h u

/-- **C63** (apsides): the computation of the apsides is always defined, and finds an apsis between each pair of consecutive points, within the bounds of the reference and before `tMax`, between which
the derivative of the distance changes sign: an apoapsis if the distance ends up decreasing, a periapsis otherwise.  Nothing else is found, and the computation stops early only if at least `maxPoints` of both
kinds have been found; then, there is one kind for which no more than `maxPoints` are found. -/
theorem C63_apsides (reference : Trajectory E) (trajectory : ℝ → DegreesOfFreedom E) (points : List (Point E)) (tMax : ℝ) (maxPoints : ℕ) (h : Increasing points) :
    ∃ apoapsides periapsides, computeApsides reference trajectory points tMax maxPoints = some (apoapsides, periapsides) ∧ Sorted apoapsides ∧ Sorted periapsides ∧
      ∃ found : List (ℝ × Point E × Point E),
        found.map (·.2) <+: signChanges (rate reference) (pointsBetween reference.tMin (min tMax reference.tMax) points) ∧
        (∀ x ∈ found, ∃ h, IsApsis reference x.2.1 x.2.2 x.1 h) ∧
        (∀ a, a ∈ apoapsides ↔ ∃ x ∈ found, rate reference x.2.2 < 0 ∧ a = (x.1, trajectory x.1)) ∧
        (∀ a, a ∈ periapsides ↔ ∃ x ∈ found, 0 ≤ rate reference x.2.2 ∧ a = (x.1, trajectory x.1)) ∧
        (found.map (·.2) = signChanges (rate reference) (pointsBetween reference.tMin (min tMax reference.tMax) points) ∨ maxPoints ≤ apoapsides.length ∧ maxPoints ≤ periapsides.length) ∧
        min apoapsides.length periapsides.length ≤ maxPoints ∧
        -- The apsides alternate.
        found.IsChain fun x y => x.1 ≤ y.1 ∧ (rate reference x.2.2 < 0 ↔ 0 ≤ rate reference y.2.2) := by
  have hsel : selected (apsidesScan reference trajectory tMax maxPoints) points = pointsBetween reference.tMin (min tMax reference.tMax) points := filter_takeWhile h _ _
  have hinc : (pointsBetween reference.tMin (min tMax reference.tMax) points).Pairwise fun p q => p.time < q.time := by
    unfold pointsBetween; exact List.Pairwise.filter _ h
  have hpair : ∀ pq ∈ signChanges (rate reference) (pointsBetween reference.tMin (min tMax reference.tMax) points), pq.1.time < pq.2.time ∧ ChangesSign (rate reference pq.1) (rate reference pq.2) := by
    intro pq hpq
    unfold signChanges at hpq
    rw [List.mem_filter] at hpq
    exact ⟨consecutive_mem hinc hpq.1, by simpa using hpq.2⟩
  obtain ⟨last, A, B, found, e, R⟩ := scan_spec (apsidesScan reference trajectory tMax maxPoints) points none [] [] List.Pairwise.nil List.Pairwise.nil (by simp) (by simp) (.inr ⟨rfl, rfl⟩) (by
    intro pq hpq
    rw [Option.toList_none, List.nil_append, hsel] at hpq
    obtain ⟨h1, h2⟩ := hpair pq hpq
    obtain ⟨t, _, ht, _⟩ := apsisTime_spec pq.1.time (distance2 reference pq.1) (rate reference pq.1) pq.2.time (distance2 reference pq.2) (rate reference pq.2) h1 h2
    exact ⟨t, ht⟩)
  rw [Option.toList_none, List.nil_append, hsel] at R
  have hrun := forLoop_map (apsidesState reference) (scanBody (apsidesScan reference trajectory tMax maxPoints)) (apsidesBody reference trajectory tMax maxPoints)
    (apsidesBody_eq reference trajectory tMax maxPoints) points (none, [], [])
  rw [e] at hrun
  have hfound : ∀ x ∈ found, ∃ h, IsApsis reference x.2.1 x.2.2 x.1 h := by
    intro x hx
    have hm : x.2 ∈ signChanges (rate reference) (pointsBetween reference.tMin (min tMax reference.tMax) points) := R.pre.subset (List.mem_map_of_mem hx)
    obtain ⟨h1, h2⟩ := hpair x.2 hm
    obtain ⟨t, h, ht, i1, i2, i3, i4, i5, i6, i7⟩ := apsisTime_spec x.2.1.time (distance2 reference x.2.1) (rate reference x.2.1) x.2.2.time (distance2 reference x.2.2) (rate reference x.2.2) h1 h2
    have hx' := R.time x hx
    have : some t = some x.1 := ht.symm.trans hx'
    rw [Option.some.injEq] at this
    subst this
    have hd : ∀ p : Point E, distanceToReference reference p ^ 2 = distance2 reference p := fun p => (real_inner_self_eq_norm_sq _).symm
    exact ⟨h, ⟨by rw [hd, hd]; exact i1, ⟨i2, i3⟩, i4, fun u hu => i5 u hu.1 hu.2, i6, i7⟩⟩
  have hchain : found.IsChain fun x y => x.1 ≤ y.1 ∧ (rate reference x.2.2 < 0 ↔ 0 ≤ rate reference y.2.2) := by
    have h1 := (signChanges_chain (rate reference) Point.time _ hinc).prefix R.pre
    rw [List.isChain_map] at h1
    refine h1.imp_of_mem_imp fun x y hx hy hxy => ⟨?_, hxy.2⟩
    obtain ⟨_, hx'⟩ := hfound x hx
    obtain ⟨_, hy'⟩ := hfound y hy
    exact hx'.mem.2.trans (hxy.1.trans hy'.mem.1)
  refine ⟨A, B, ?_, R.sortedA, R.sortedB, found, R.pre, hfound, fun a => ?_, fun a => ?_, R.complete, R.bound, hchain⟩
  · unfold computeApsides
    have : (⟨none, [], []⟩ : ApsidesState E) = apsidesState reference (none, [], []) := rfl
    rw [this, hrun]; rfl
  · rw [R.memA]
    constructor
    · rintro (h | ⟨x, hx, _, h1, h2⟩)
      · simp at h
      · exact ⟨x, hx, h1, h2⟩
    · rintro ⟨x, hx, h1, h2⟩; exact .inr ⟨x, hx, trivial, h1, h2⟩
  · rw [R.memB]
    constructor
    · rintro (h | ⟨x, hx, _, h1, h2⟩)
      · simp at h
      · exact ⟨x, hx, not_lt.1 h1, h2⟩
    · rintro ⟨x, hx, h1, h2⟩; exact .inr ⟨x, hx, trivial, not_lt.2 h1, h2⟩

/-- Whatever the extremum of a differentiable function is, there is one between two arguments where its derivative changes sign. -/
theorem exists_min {D : ℝ → ℝ} {a b da db : ℝ} (hab : a < b) (hc : ContinuousOn D (Set.Icc a b)) (ha : HasDerivAt D da a) (hb : HasDerivAt D db b) (h1 : da < 0) (h2 : 0 < db) :
    ∃ s ∈ Set.Ioo a b, (∀ u ∈ Set.Icc a b, D s ≤ D u) ∧ IsLocalMin D s := by
  obtain ⟨s, hs, hmin⟩ := isCompact_Icc.exists_isMinOn (Set.nonempty_Icc.2 hab.le) hc
  have hmin' : ∀ u ∈ Set.Icc a b, D s ≤ D u := fun u hu => hmin hu
  have key : ∀ (c dc : ℝ), HasDerivAt D dc c → s = c → ((c = a ∧ dc < 0) ∨ (c = b ∧ 0 < dc)) → False := by
    intro c dc hd hsc hcase
    have hslope := hasDerivAt_iff_tendsto_slope.1 hd
    rcases hcase with ⟨rfl, hneg⟩ | ⟨rfl, hpos⟩
    · have h1 : ∀ᶠ u in nhdsWithin c {c}ᶜ, slope D c u < 0 := hslope.eventually (gt_mem_nhds hneg)
      have h2 : ∀ᶠ u in nhdsWithin c (Set.Ioi c), slope D c u < 0 := h1.filter_mono (nhdsWithin_mono _ fun u (hu : c < u) => by simp; exact hu.ne')
      have h3 : ∀ᶠ u in nhdsWithin c (Set.Ioi c), u ∈ Set.Ioo c b := Ioo_mem_nhdsGT hab
      obtain ⟨u, hu1, hu2⟩ := (h2.and h3).exists
      have := hmin' u ⟨hu2.1.le, hu2.2.le⟩
      rw [hsc] at this
      rw [slope_def_field] at hu1
      have : 0 ≤ (D u - D c) / (u - c) := div_nonneg (by linarith) (by linarith [hu2.1])
      linarith
    · have h1 : ∀ᶠ u in nhdsWithin c {c}ᶜ, 0 < slope D c u := hslope.eventually (lt_mem_nhds hpos)
      have h2 : ∀ᶠ u in nhdsWithin c (Set.Iio c), 0 < slope D c u := h1.filter_mono (nhdsWithin_mono _ fun u (hu : u < c) => by simp; exact hu.ne)
      have h3 : ∀ᶠ u in nhdsWithin c (Set.Iio c), u ∈ Set.Ioo a c := Ioo_mem_nhdsLT hab
      obtain ⟨u, hu1, hu2⟩ := (h2.and h3).exists
      have := hmin' u ⟨hu2.1.le, hu2.2.le⟩
      rw [hsc] at this
      rw [slope_def_field] at hu1
      have : (D u - D c) / (u - c) ≤ 0 := div_nonpos_of_nonneg_of_nonpos (by linarith) (by linarith [hu2.2])
      linarith
  have hsa : a < s := lt_of_le_of_ne hs.1 fun e => key a da ha e.symm (.inl ⟨rfl, h1⟩)
  have hsb : s < b := lt_of_le_of_ne hs.2 fun e => key b db hb e (.inr ⟨rfl, h2⟩)
  exact ⟨s, ⟨hsa, hsb⟩, hmin', Filter.mem_of_superset (Icc_mem_nhds hsa hsb) hmin'⟩

/-- A motion of the vessel and of the reference, of which the points are samples. -/
structure IsMotion (reference : Trajectory E) (x r x' r' : ℝ → E) (p : Point E) : Prop where
  position : p.dof = (x p.time, x' p.time)
  reference : reference.eval p.time = (r p.time, r' p.time)

theorem hasDerivAt_distance2 {x r x' r' : ℝ → E} (hx : ∀ t, HasDerivAt x (x' t) t) (hr : ∀ t, HasDerivAt r (r' t) t) (reference : Trajectory E) (p : Point E) (h : IsMotion reference x r x' r' p) :
    HasDerivAt (fun t => ‖x t - r t‖ ^ 2) (rate reference p) p.time := by
  have := ((hx p.time).sub (hr p.time)).norm_sq
  refine this.congr_deriv ?_
  unfold rate
  rw [h.position, h.reference]
  rfl

/-- **C63** (apsides, with respect to the motion): whenever the derivative of the distance is negative at a point and positive at the next one, the distance of the vessel to the reference has a
minimum, between these points, which is a local minimum.  Thus a periapsis is found at most one interval away from a true one. -/
theorem C63_true_periapsis (reference : Trajectory E) (x r x' r' : ℝ → E) (hx : ∀ t, HasDerivAt x (x' t) t) (hr : ∀ t, HasDerivAt r (r' t) t) (p q : Point E) (hp : IsMotion reference x r x' r' p)
    (hq : IsMotion reference x r x' r' q) (hpq : p.time < q.time) (h1 : rate reference p < 0) (h2 : 0 < rate reference q) :
    ∃ s ∈ Set.Ioo p.time q.time, (∀ u ∈ Set.Icc p.time q.time, ‖x s - r s‖ ≤ ‖x u - r u‖) ∧ IsLocalMin (fun t => ‖x t - r t‖) s := by
  have hc : Continuous fun t => ‖x t - r t‖ ^ 2 :=
    ((continuous_iff_continuousAt.2 fun t => (hx t).continuousAt).sub (continuous_iff_continuousAt.2 fun t => (hr t).continuousAt)).norm.pow 2
  obtain ⟨s, hs, hmin, hloc⟩ := exists_min hpq hc.continuousOn (hasDerivAt_distance2 hx hr reference p hp) (hasDerivAt_distance2 hx hr reference q hq) h1 h2
  refine ⟨s, hs, fun u hu => (sq_le_sq₀ (norm_nonneg _) (norm_nonneg _)).1 (hmin u hu), ?_⟩
  exact hloc.mono fun u hu => (sq_le_sq₀ (norm_nonneg _) (norm_nonneg _)).1 hu

/-- **C63** (apsides, with respect to the motion): the same for the apoapsides. -/
theorem C63_true_apoapsis (reference : Trajectory E) (x r x' r' : ℝ → E) (hx : ∀ t, HasDerivAt x (x' t) t) (hr : ∀ t, HasDerivAt r (r' t) t) (p q : Point E) (hp : IsMotion reference x r x' r' p)
    (hq : IsMotion reference x r x' r' q) (hpq : p.time < q.time) (h1 : 0 < rate reference p) (h2 : rate reference q < 0) :
    ∃ s ∈ Set.Ioo p.time q.time, (∀ u ∈ Set.Icc p.time q.time, ‖x u - r u‖ ≤ ‖x s - r s‖) ∧ IsLocalMax (fun t => ‖x t - r t‖) s := by
  have hc : Continuous fun t => -‖x t - r t‖ ^ 2 :=
    (((continuous_iff_continuousAt.2 fun t => (hx t).continuousAt).sub (continuous_iff_continuousAt.2 fun t => (hr t).continuousAt)).norm.pow 2).neg
  obtain ⟨s, hs, hmin, hloc⟩ := exists_min hpq hc.continuousOn (hasDerivAt_distance2 hx hr reference p hp).neg (hasDerivAt_distance2 hx hr reference q hq).neg (by linarith) (by linarith)
  refine ⟨s, hs, fun u hu => (sq_le_sq₀ (norm_nonneg _) (norm_nonneg _)).1 (neg_le_neg_iff.1 (hmin u hu)), ?_⟩
  exact hloc.mono fun u hu => (sq_le_sq₀ (norm_nonneg _) (norm_nonneg _)).1 (neg_le_neg_iff.1 hu)

/-- **C63** (apsides, exactness): if the squared distance of the vessel to the reference is a cubic, what is found is a maximum of the distance between the two points if it is an apoapsis, a minimum if it is a
periapsis, provided that the distance is increasing at the second point. -/
theorem C63_exact (reference : Trajectory E) (x r x' r' : ℝ → E) (hx : ∀ t, HasDerivAt x (x' t) t) (hr : ∀ t, HasDerivAt r (r' t) t)
    (hcubic : ∃ a0 a1 a2 a3 : ℝ, ∀ t, ‖x t - r t‖ ^ 2 = a0 + a1 * t + a2 * t ^ 2 + a3 * t ^ 3) (p q : Point E) (hp : IsMotion reference x r x' r' p) (hq : IsMotion reference x r x' r' q)
    (hpq : p.time < q.time) (t : ℝ) (h : ℝ → ℝ) (ht : IsApsis reference p q t h) :
    (rate reference q < 0 → ∀ u ∈ Set.Icc p.time q.time, ‖x u - r u‖ ≤ ‖x t - r t‖) ∧ (0 < rate reference q → ∀ u ∈ Set.Icc p.time q.time, ‖x t - r t‖ ≤ ‖x u - r u‖) := by
  have hI : IsCubicInterpolant (fun t => ‖x t - r t‖ ^ 2) p.time q.time (distanceToReference reference p ^ 2) (distanceToReference reference q ^ 2) (rate reference p) (rate reference q) := by
    refine ⟨hcubic, ?_, ?_, hasDerivAt_distance2 hx hr reference p hp, hasDerivAt_distance2 hx hr reference q hq⟩
    · unfold distanceToReference; rw [hp.position, hp.reference]
    · unfold distanceToReference; rw [hq.position, hq.reference]
  have e := hI.unique hpq.ne ht.interpolant
  refine ⟨fun hn u hu => ?_, fun hn u hu => ?_⟩
  · have := ht.maximum hn u hu
    rw [← e] at this
    exact (sq_le_sq₀ (norm_nonneg _) (norm_nonneg _)).1 this
  · have := ht.minimum hn u hu
    rw [← e] at this
    exact (sq_le_sq₀ (norm_nonneg _) (norm_nonneg _)).1 this

/-! ### Examples -/

/-- A reference which does not move. -/
def fixedReference : Trajectory ℝ := ⟨-10, 10, fun _ => (0, 0)⟩

/-- Two points of the motion `2 + t ^ 2`, whose distance to the reference has a minimum at 0. -/
def approach : List (Point ℝ) := [⟨-1, 3, -2⟩, ⟨1, 3, 2⟩]

theorem inner_real (a b : ℝ) : inner ℝ a b = a * b := by simp [mul_comm]

/-- One periapsis, and no apoapsis, is found for this motion. -/
example (trajectory : ℝ → DegreesOfFreedom ℝ) : ∃ t ∈ Set.Icc (-1 : ℝ) 1, computeApsides fixedReference trajectory approach 10 5 = some ([], [(t, trajectory t)]) := by
  obtain ⟨t, h, ht, _, h1, h2, _⟩ := apsisTime_spec (-1) 9 (-12) 1 9 12 (by norm_num) (.inl ⟨by norm_num, by norm_num⟩)
  refine ⟨t, ⟨h1, h2⟩, ?_⟩
  have e1 : squaredDistance ((3, -2) - (0, 0) : ℝ × ℝ) = 9 := by unfold squaredDistance; rw [inner_real]; norm_num
  have e2 : squaredDistanceDerivative ((3, -2) - (0, 0) : ℝ × ℝ) = -12 := by unfold squaredDistanceDerivative; rw [inner_real]; norm_num
  have e3 : squaredDistance ((3, 2) - (0, 0) : ℝ × ℝ) = 9 := by unfold squaredDistance; rw [inner_real]; norm_num
  have e4 : squaredDistanceDerivative ((3, 2) - (0, 0) : ℝ × ℝ) = 12 := by unfold squaredDistanceDerivative; rw [inner_real]; norm_num
  have n1 : negative (-12 : ℝ) = true := negative_eq_true.2 (by norm_num)
  have n2 : negative (12 : ℝ) = false := negative_eq_false.2 (by norm_num)
  unfold computeApsides approach
  rw [forLoop]
  have b1 : apsidesBody fixedReference trajectory 10 5 ⟨none, [], []⟩ ⟨-1, 3, -2⟩ = .next ⟨some (-1, 9, -12), [], []⟩ := by
    unfold apsidesBody
    simp only [fixedReference, e1, e2]
    rw [if_neg (by norm_num), if_neg (by norm_num)]
  have b2 : apsidesBody fixedReference trajectory 10 5 ⟨some (-1, 9, -12), [], []⟩ ⟨1, 3, 2⟩ = .next ⟨some (1, 9, 12), [], [(t, trajectory t)]⟩ := by
    unfold apsidesBody
    simp only [fixedReference, e3, e4, n1, n2, ht]
    rw [if_neg (by norm_num), if_neg (by norm_num)]
    simp [emplace, contains]
  rw [b1]
  simp only [forLoop, b2, Option.map_some]

/-- **C63** (apsides, counterexample): if the derivative of the distance is exactly 0 at the second point, what is reported as a periapsis may be a maximum of the distance, and the minimum is missed.  Here the
squared distance is interpolated by `4 - 3 t + 2 t ^ 2 - t ^ 3 / 3`, which has a minimum at 1 and a maximum at 3. -/
theorem C63_periapsis_counterexample (trajectory : ℝ → DegreesOfFreedom ℝ) :
    ∃ (reference : Trajectory ℝ) (p q : Point ℝ) (h : ℝ → ℝ), computeApsides reference trajectory [p, q] 10 5 = some ([], [(q.time, trajectory q.time)]) ∧
      IsApsis reference p q q.time h ∧ h 1 < h q.time ∧ ∀ u ∈ Set.Icc (p.time) q.time, h u ≤ h q.time := by
  obtain ⟨h, hh⟩ : ∃ h : ℝ → ℝ, h = fun t => 4 - 3 * t + 2 * t ^ 2 - 1 / 3 * t ^ 3 := ⟨_, rfl⟩
  have hd : ∀ t, HasDerivAt h (-(t - 1) * (t - 3)) t := by
    intro t
    rw [hh]
    have e1 := (hasDerivAt_id t).const_mul 3
    have e2 := ((hasDerivAt_id t).pow 2).const_mul 2
    have e3 := ((hasDerivAt_id t).pow 3).const_mul (1 / 3)
    refine (((e1.const_sub 4).add e2).sub e3).congr_deriv ?_
    simp; ring
  have hI : IsCubicInterpolant h 0 3 4 4 (-3) 0 := by
    refine ⟨⟨4, -3, 2, -1 / 3, fun t => by rw [hh]; ring⟩, by rw [hh]; norm_num, by rw [hh]; norm_num, ?_, ?_⟩
    · exact (hd 0).congr_deriv (by norm_num)
    · exact (hd 3).congr_deriv (by norm_num)
  obtain ⟨t, h', ht, hI', h1, h2, h3, h4, h5, h6⟩ := apsisTime_spec 0 4 (-3) 3 4 0 (by norm_num) (.inl ⟨by norm_num, by norm_num⟩)
  have e := hI'.unique (by norm_num) hI
  subst e
  have t3 : t = 3 := le_antisymm h2 (h4 3 (by norm_num) le_rfl ((hd 3).congr_deriv (by norm_num)))
  subst t3
  have e1 : squaredDistance ((2, -3 / 4) - (0, 0) : ℝ × ℝ) = 4 := by unfold squaredDistance; rw [inner_real]; norm_num
  have e2 : squaredDistanceDerivative ((2, -3 / 4) - (0, 0) : ℝ × ℝ) = -3 := by unfold squaredDistanceDerivative; rw [inner_real]; norm_num
  have e3 : squaredDistance ((2, 0) - (0, 0) : ℝ × ℝ) = 4 := by unfold squaredDistance; rw [inner_real]; norm_num
  have e4 : squaredDistanceDerivative ((2, 0) - (0, 0) : ℝ × ℝ) = 0 := by unfold squaredDistanceDerivative; rw [inner_real]; norm_num
  have n1 : negative (-3 : ℝ) = true := negative_eq_true.2 (by norm_num)
  have n2 : negative (0 : ℝ) = false := negative_eq_false.2 le_rfl
  refine ⟨fixedReference, ⟨0, 2, -3 / 4⟩, ⟨3, 2, 0⟩, h', ?_, ?_, ?_, ?_⟩
  · unfold computeApsides
    rw [forLoop]
    have b1 : apsidesBody fixedReference trajectory 10 5 ⟨none, [], []⟩ ⟨0, 2, -3 / 4⟩ = .next ⟨some (0, 4, -3), [], []⟩ := by
      unfold apsidesBody
      simp only [fixedReference, e1, e2]
      rw [if_neg (by norm_num), if_neg (by norm_num)]
    have b2 : apsidesBody fixedReference trajectory 10 5 ⟨some (0, 4, -3), [], []⟩ ⟨3, 2, 0⟩ = .next ⟨some (3, 4, 0), [], [(3, trajectory 3)]⟩ := by
      unfold apsidesBody
      simp only [fixedReference, e3, e4, n1, n2, ht]
      rw [if_neg (by norm_num), if_neg (by norm_num)]
      simp [emplace, contains]
    rw [b1]
    simp only [forLoop, b2, Option.map_some]
  · have r1 : rate fixedReference ⟨0, 2, -3 / 4⟩ = -3 := e2
    have r2 : rate fixedReference ⟨3, 2, 0⟩ = 0 := e4
    have d1 : distanceToReference fixedReference ⟨0, 2, -3 / 4⟩ ^ 2 = 4 := by unfold distanceToReference fixedReference; norm_num
    have d2 : distanceToReference fixedReference ⟨3, 2, 0⟩ ^ 2 = 4 := by unfold distanceToReference fixedReference; norm_num
    refine ⟨by rw [d1, d2, r1, r2]; exact hI, ⟨by norm_num, le_rfl⟩, h3, fun u hu hd => h4 u hu.1 hu.2 hd, ?_, ?_⟩
    · rw [r2]; intro hlt; exact absurd hlt (lt_irrefl _)
    · rw [r2]; intro hlt; exact absurd hlt (lt_irrefl _)
  · rw [hh]; norm_num
  · intro u hu
    simp only [Set.mem_Icc] at hu
    rw [hh]
    -- h 3 - h u = u (u - 3) ^ 2 / 3
    have : (0 : ℝ) ≤ u * (u - 3) ^ 2 := mul_nonneg hu.1 (sq_nonneg _)
    show 4 - 3 * u + 2 * u ^ 2 - 1 / 3 * u ^ 3 ≤ 4 - 3 * 3 + 2 * 3 ^ 2 - 1 / 3 * 3 ^ 3
    nlinarith

end Principia.Apsides
