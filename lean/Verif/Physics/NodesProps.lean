import Verif.Physics.ApsidesLemmas

set_option linter.unusedSimpArgs false
set_option linter.unusedVariables false
set_option linter.unusedSectionVars false

/-!
# C63: the nodes
-/

namespace Principia.Apsides

open Principia.SortedMap Principia.RootFinders

variable {E : Type} [NormedAddCommGroup E] [InnerProductSpace ℝ E]

/-- A node, found at time `t`, between two consecutive points `p` and `q`: up to the accuracy of the computation, a zero of the cubic that has the same values and the same derivatives, at these points, as the
third coordinate. -/
structure IsNode (zCoordinate : E → ℝ) (p q : Point E) (t : ℝ) : Prop where
  mem : t ∈ Set.Icc p.time q.time
  zero : ∃ h, IsCubicInterpolant h p.time q.time (zCoordinate p.dof.1) (zCoordinate q.dof.1) (zCoordinate p.dof.2) (zCoordinate q.dof.2) ∧
    ∃ x ∈ Set.Icc p.time q.time, h x = 0 ∧ |x - t| ≤ 4 / 2 ^ 53 * |t|

noncomputable def nodesScan (zCoordinate : E → ℝ) (fuel : ℕ) (trajectory : ℝ → DegreesOfFreedom E) (tMax north : ℝ) (maxPoints : ℕ) (predicate : DegreesOfFreedom E → Bool) :
    ScanData (Point E) (DegreesOfFreedom E) where
  skip _ := False
  stop p := p.time > tMax
  value p := zCoordinate p.dof.1
  timeOf p q := nodeTime fuel (p.time, zCoordinate p.dof.1, zCoordinate p.dof.2) q.time (zCoordinate q.dof.1) (zCoordinate q.dof.2)
  first q := negative north = negative (zCoordinate q.dof.2)
  accept t := predicate (trajectory t) = true
  traj := trajectory
  maxPoints := maxPoints

def nodesState (zCoordinate : E → ℝ) (s : Option (Point E) × DistinguishedPoints E × DistinguishedPoints E) : NodesState E :=
  ⟨s.1.map fun p => (p.time, zCoordinate p.dof.1, zCoordinate p.dof.2), s.2.1, s.2.2⟩

theorem nodesBody_eq (zCoordinate : E → ℝ) (fuel : ℕ) (trajectory : ℝ → DegreesOfFreedom E) (tMax north : ℝ) (maxPoints : ℕ) (predicate : DegreesOfFreedom E → Bool)
    (s : Option (Point E) × DistinguishedPoints E × DistinguishedPoints E) (p : Point E) :
    nodesBody zCoordinate fuel trajectory tMax north maxPoints predicate (nodesState zCoordinate s) p =
      (scanBody (nodesScan zCoordinate fuel trajectory tMax north maxPoints predicate) s p).map (nodesState zCoordinate) := by
  classical
  obtain ⟨prev, A, B⟩ := s
  obtain ⟨c, hc⟩ : ∃ c, c = nodesScan zCoordinate fuel trajectory tMax north maxPoints predicate := ⟨_, rfl⟩
  have c1 : ¬ c.skip p := by rw [hc]; exact fun h => h
  have c2 : c.stop p ↔ p.time > tMax := by rw [hc]; rfl
  have c3 : ∀ q, ChangesSign (c.value q) (c.value p) ↔ negative (zCoordinate p.dof.1) ≠ negative (zCoordinate q.dof.1) := by
    intro q; rw [hc]; exact negative_ne_iff.symm
  have c4 : ∀ q, c.timeOf q p = nodeTime fuel (q.time, zCoordinate q.dof.1, zCoordinate q.dof.2) p.time (zCoordinate p.dof.1) (zCoordinate p.dof.2) := by rw [hc]; exact fun _ => rfl
  have c5 : ∀ t, c.accept t ↔ predicate (trajectory t) = true := by rw [hc]; exact fun _ => Iff.rfl
  have c6 : c.first p ↔ negative north = negative (zCoordinate p.dof.2) := by rw [hc]; exact Iff.rfl
  have c7 : c.traj = trajectory := by rw [hc]; rfl
  have c8 : c.maxPoints = maxPoints := by rw [hc]; rfl
  rw [← hc]
  clear hc
  unfold nodesBody scanBody
  simp only
  rw [if_neg c1]
  by_cases ht : p.time > tMax
  · rw [if_pos ht, if_pos (c2.2 ht)]; rfl
  · rw [if_neg ht, if_neg (fun h => ht (c2.1 h))]
    cases prev with
    | none => rfl
    | some q =>
      simp only [nodesState, Option.map_some]
      by_cases hs : negative (zCoordinate p.dof.1) ≠ negative (zCoordinate q.dof.1)
      · rw [if_pos hs, if_pos ((c3 q).2 hs), c4]
        cases nodeTime fuel (q.time, zCoordinate q.dof.1, zCoordinate q.dof.2) p.time (zCoordinate p.dof.1) (zCoordinate p.dof.2) with
        | none => rfl
        | some t =>
          simp only [c7, c8]
          by_cases ha : predicate (trajectory t) = true
          · rw [if_pos ha, if_pos ((c5 t).2 ha)]
            by_cases hf : negative north = negative (zCoordinate p.dof.2)
            · simp only [if_pos hf, if_pos (c6.2 hf)]
              by_cases hh : (emplace A t (trajectory t)).length ≥ maxPoints ∧ B.length ≥ maxPoints
              · rw [if_pos hh, if_pos hh]; rfl
              · rw [if_neg hh, if_neg hh]; rfl
            · simp only [if_neg hf, if_neg (fun h => hf (c6.1 h))]
              by_cases hh : A.length ≥ maxPoints ∧ (emplace B t (trajectory t)).length ≥ maxPoints
              · rw [if_pos hh, if_pos hh]; rfl
              · rw [if_neg hh, if_neg hh]; rfl
          · rw [if_neg ha, if_neg (fun h => ha ((c5 t).1 h))]; rfl
      · rw [if_neg hs, if_neg (fun h => hs ((c3 q).1 h))]; rfl

/-- The approximation is not ill-conditioned in exact arithmetic. -/
theorem nodeTime_spec (zCoordinate : E → ℝ) (fuel : ℕ) (p q : Point E) (ht : p.time < q.time) (hs : ChangesSign (zCoordinate p.dof.1) (zCoordinate q.dof.1)) (t : ℝ)
    (h : nodeTime fuel (p.time, zCoordinate p.dof.1, zCoordinate p.dof.2) q.time (zCoordinate q.dof.1) (zCoordinate q.dof.2) = some t) : IsNode zCoordinate p q t := by
  obtain ⟨H, e, hl, hu, hd, hI, _⟩ := interpolant p.time q.time (zCoordinate p.dof.1) (zCoordinate q.dof.1) (zCoordinate p.dof.2) (zCoordinate q.dof.2) ht
  unfold nodeTime at h
  simp only [e, Option.bind_some, hI.value1, hI.value2] at h
  rw [if_neg (fun h => negative_ne_iff.2 hs h.symm)] at h
  have hc : Continuous H.eval := continuous_iff_continuousAt.2 fun u => (Hermite3.hasDerivAt_eval H u).continuousAt
  cases hb : brent H.eval fuel p.time q.time with
  | returned r =>
    rw [hb] at h
    simp only [Option.some.injEq] at h
    subst h
    obtain ⟨b1, b2, x, x1, x2, x3, x4⟩ := C41_brent H.eval fuel p.time q.time ht.le hc.continuousOn r hb
    exact ⟨⟨b1, b2⟩, H.eval, hI, x, ⟨x1, x2⟩, x3, x4⟩
  | crashed => rw [hb] at h; simp at h
  | outOfFuel => rw [hb] at h; simp at h

theorem nodeTime_defined (zCoordinate : E → ℝ) (p q : Point E) (ht : p.time < q.time) (h0 : 0 < p.time ∨ q.time < 0) (hs : ChangesSign (zCoordinate p.dof.1) (zCoordinate q.dof.1)) :
    ∃ N, ∀ fuel ≥ N, ∃ t, nodeTime fuel (p.time, zCoordinate p.dof.1, zCoordinate p.dof.2) q.time (zCoordinate q.dof.1) (zCoordinate q.dof.2) = some t := by
  obtain ⟨H, e, hl, hu, hd, hI, _⟩ := interpolant p.time q.time (zCoordinate p.dof.1) (zCoordinate q.dof.1) (zCoordinate p.dof.2) (zCoordinate q.dof.2) ht
  have hm : 0 < 2 / 2 ^ 53 * min |p.time| |q.time| := by
    refine mul_pos (by norm_num) (lt_min (abs_pos.2 ?_) (abs_pos.2 ?_)) <;> intro hz <;> rcases h0 with h | h <;> linarith
  obtain ⟨K, hK⟩ := pow_unbounded_of_one_lt ((q.time - p.time) / (2 / 2 ^ 53 * min |p.time| |q.time|)) (one_lt_two (α := ℝ))
  rw [div_lt_iff₀ hm] at hK
  refine ⟨2 * (K + 1) ^ 2, fun fuel hf => ?_⟩
  have hprod : H.eval p.time * H.eval q.time ≤ 0 := by
    rw [hI.value1, hI.value2]
    rcases hs with ⟨h1, h2⟩ | ⟨h1, h2⟩ <;> nlinarith
  obtain ⟨r, hr⟩ := C41_brent_terminates H.eval p.time q.time ht.le h0 hprod K (by linarith) fuel hf
  unfold nodeTime
  simp only [e, Option.bind_some, hI.value1, hI.value2]
  rw [if_neg (fun h => negative_ne_iff.2 hs h.symm), hr]
  exact ⟨r, rfl⟩

theorem exists_common {α : Type} (l : List α) (Q : α → ℕ → Prop) (h : ∀ a ∈ l, ∃ N, ∀ n ≥ N, Q a n) : ∃ N, ∀ n ≥ N, ∀ a ∈ l, Q a n := by
  induction l with
  | nil => exact ⟨0, by simp⟩
  | cons a l ih =>
    obtain ⟨N, hN⟩ := h a (List.mem_cons_self ..)
    obtain ⟨M, hM⟩ := ih fun b hb => h b (List.mem_cons_of_mem _ hb)
    refine ⟨max N M, fun n hn b hb => ?_⟩
    rcases List.mem_cons.1 hb with rfl | hb
    · exact hN n ((le_max_left _ _).trans hn)
    · exact hM n ((le_max_right _ _).trans hn) b hb

/-- **C63** (nodes): the computation of the nodes is always defined, if the origin of time is not between the points, and finds a node between each pair of consecutive points before `tMax` between which
the third coordinate changes sign.  The nodes accepted by the predicate are reported as ascending if the third components of the velocity (at the second point) and of `north` have the same sign, as descending
otherwise.  Nothing else is found, and the computation stops early only if at least `maxPoints` of both kinds have been found; then, there is one kind for which no more than `maxPoints` are found. -/
theorem C63_nodes (zCoordinate : E → ℝ) (trajectory : ℝ → DegreesOfFreedom E) (points : List (Point E)) (tMax north : ℝ) (maxPoints : ℕ) (predicate : DegreesOfFreedom E → Bool)
    (h : Increasing points) (h0 : (∀ p ∈ points, 0 < p.time) ∨ ∀ p ∈ points, p.time < 0) :
    ∃ N, ∀ fuel ≥ N, ∃ ascending descending, computeNodes zCoordinate fuel trajectory points tMax north maxPoints predicate = some (ascending, descending) ∧ Sorted ascending ∧ Sorted descending ∧
      ∃ found : List (ℝ × Point E × Point E),
        found.map (·.2) <+: signChanges (fun p => zCoordinate p.dof.1) (points.filter fun p => decide (p.time ≤ tMax)) ∧
        (∀ x ∈ found, IsNode zCoordinate x.2.1 x.2.2 x.1) ∧
        (∀ a, a ∈ ascending ↔ ∃ x ∈ found, predicate (trajectory x.1) = true ∧ (north < 0 ↔ zCoordinate x.2.2.dof.2 < 0) ∧ a = (x.1, trajectory x.1)) ∧
        (∀ a, a ∈ descending ↔ ∃ x ∈ found, predicate (trajectory x.1) = true ∧ ¬ (north < 0 ↔ zCoordinate x.2.2.dof.2 < 0) ∧ a = (x.1, trajectory x.1)) ∧
        (found.map (·.2) = signChanges (fun p => zCoordinate p.dof.1) (points.filter fun p => decide (p.time ≤ tMax)) ∨ maxPoints ≤ ascending.length ∧ maxPoints ≤ descending.length) ∧
        min ascending.length descending.length ≤ maxPoints := by
  classical
  obtain ⟨sel, hselE⟩ : ∃ sel, sel = points.filter fun p => decide (p.time ≤ tMax) := ⟨_, rfl⟩
  have hinc : sel.Pairwise fun p q => p.time < q.time := by rw [hselE]; exact List.Pairwise.filter _ h
  have mem_cons : ∀ (l : List (Point E)) (pq : Point E × Point E), pq ∈ consecutive l → pq.1 ∈ l ∧ pq.2 ∈ l := by
    intro l
    induction l with
    | nil => intro pq h; simp [consecutive] at h
    | cons a l ih =>
      intro pq h
      cases l with
      | nil => simp [consecutive] at h
      | cons b l =>
        rw [consecutive, List.mem_cons] at h
        rcases h with rfl | h
        · simp
        · have := ih pq h
          exact ⟨List.mem_cons_of_mem _ this.1, List.mem_cons_of_mem _ this.2⟩
  have hpair : ∀ pq ∈ signChanges (fun p : Point E => zCoordinate p.dof.1) sel,
      pq.1.time < pq.2.time ∧ ChangesSign (zCoordinate pq.1.dof.1) (zCoordinate pq.2.dof.1) ∧ (0 < pq.1.time ∨ pq.2.time < 0) := by
    intro pq hpq
    unfold signChanges at hpq
    rw [List.mem_filter] at hpq
    obtain ⟨m1, m2⟩ := mem_cons _ _ hpq.1
    rw [hselE] at m1 m2
    have m1' := List.mem_of_mem_filter m1
    have m2' := List.mem_of_mem_filter m2
    exact ⟨consecutive_mem hinc hpq.1, by simpa using hpq.2, h0.imp (fun h => h _ m1') (fun h => h _ m2')⟩
  obtain ⟨N, hN⟩ := exists_common (signChanges (fun p : Point E => zCoordinate p.dof.1) sel)
    (fun pq fuel => ∃ t, nodeTime fuel (pq.1.time, zCoordinate pq.1.dof.1, zCoordinate pq.1.dof.2) pq.2.time (zCoordinate pq.2.dof.1) (zCoordinate pq.2.dof.2) = some t)
    (fun pq hpq => nodeTime_defined zCoordinate pq.1 pq.2 (hpair pq hpq).1 (hpair pq hpq).2.2 (hpair pq hpq).2.1)
  refine ⟨N, fun fuel hf => ?_⟩
  have hsel : selected (nodesScan zCoordinate fuel trajectory tMax north maxPoints predicate) points = sel := by
    rw [hselE]
    unfold selected
    have e1 : (points.filter fun p => decide ¬ (nodesScan zCoordinate fuel trajectory tMax north maxPoints predicate).skip p) = points := by
      rw [List.filter_eq_self]; intro p _; simp [nodesScan]
    rw [e1]
    have e2 : ∀ p, (nodesScan zCoordinate fuel trajectory tMax north maxPoints predicate).stop p ↔ ¬ p.time ≤ tMax := fun p => not_le.symm
    clear e1 hN hpair hinc hselE hf N h0 sel mem_cons
    induction points with
    | nil => rfl
    | cons p l ih =>
      obtain ⟨h1, h2⟩ := List.pairwise_cons.1 h
      by_cases ht : p.time ≤ tMax
      · rw [List.takeWhile_cons_of_pos (by simp [e2, ht]), List.filter_cons_of_pos (by simpa using ht), ih h2]
      · rw [List.takeWhile_cons_of_neg (by simp [e2, ht]), List.filter_cons_of_neg (by simpa using ht)]
        symm
        rw [List.filter_eq_nil_iff]
        intro q hq
        have := h1 q hq
        push Not at ht
        simp; linarith
  rw [← hselE]
  obtain ⟨last, A, B, found, e, R⟩ := scan_spec (nodesScan zCoordinate fuel trajectory tMax north maxPoints predicate) points none [] [] List.Pairwise.nil List.Pairwise.nil (by simp) (by simp)
    (.inr ⟨rfl, rfl⟩) (by
      intro pq hpq
      rw [Option.toList_none, List.nil_append, hsel] at hpq
      exact hN fuel hf pq hpq)
  rw [Option.toList_none, List.nil_append, hsel] at R
  have hrun := forLoop_map (nodesState zCoordinate) (scanBody (nodesScan zCoordinate fuel trajectory tMax north maxPoints predicate)) (nodesBody zCoordinate fuel trajectory tMax north maxPoints predicate)
    (nodesBody_eq zCoordinate fuel trajectory tMax north maxPoints predicate) points (none, [], [])
  rw [e] at hrun
  have hup : ∀ q : Point E, (nodesScan zCoordinate fuel trajectory tMax north maxPoints predicate).first q ↔ (north < 0 ↔ zCoordinate q.dof.2 < 0) := by
    intro q
    show negative north = negative (zCoordinate q.dof.2) ↔ _
    unfold negative
    rw [decide_eq_decide]
  refine ⟨A, B, ?_, R.sortedA, R.sortedB, found, R.pre, fun x hx => ?_, fun a => ?_, fun a => ?_, R.complete, R.bound⟩
  · unfold computeNodes
    have : (⟨none, [], []⟩ : NodesState E) = nodesState zCoordinate (none, [], []) := rfl
    rw [this, hrun]; rfl
  · have hm := R.pre.subset (List.mem_map_of_mem hx)
    obtain ⟨h1, h2, _⟩ := hpair x.2 hm
    exact nodeTime_spec zCoordinate fuel x.2.1 x.2.2 h1 h2 x.1 (R.time x hx)
  · rw [R.memA]
    constructor
    · rintro (h | ⟨x, hx, h1, h2, h3⟩)
      · simp at h
      · exact ⟨x, hx, h1, (hup _).1 h2, h3⟩
    · rintro ⟨x, hx, h1, h2, h3⟩; exact .inr ⟨x, hx, h1, (hup _).2 h2, h3⟩
  · rw [R.memB]
    constructor
    · rintro (h | ⟨x, hx, h1, h2, h3⟩)
      · simp at h
      · exact ⟨x, hx, h1, fun h => h2 ((hup _).2 h), h3⟩
    · rintro ⟨x, hx, h1, h2, h3⟩; exact .inr ⟨x, hx, h1, fun h => h2 ((hup _).1 h), h3⟩

/-- **C63** (nodes, counterexample): as the velocity used is that at the second point, and not that at the node, a node where the trajectory goes from below to above the plane may be reported as descending, with
`north` up.  Here the third coordinate is -1 at time 1, with speed 10, and 1 at time 2, with speed -1. -/
theorem C63_node_direction_counterexample (trajectory : ℝ → DegreesOfFreedom ℝ) :
    ∃ (p q : Point ℝ) (N : ℕ), p.time < q.time ∧ p.dof.1 < 0 ∧ 0 < q.dof.1 ∧ 0 < p.dof.2 ∧
      ∀ fuel ≥ N, ∃ t ∈ Set.Icc p.time q.time, ∃ ascending descending, computeNodes id fuel trajectory [p, q] 10 1 5 (fun _ => true) = some (ascending, descending) ∧ ascending = [] ∧
        (t, trajectory t) ∈ descending := by
  obtain ⟨N, hN⟩ := C63_nodes (id : ℝ → ℝ) trajectory [⟨1, -1, 10⟩, ⟨2, 1, -1⟩] 10 1 5 (fun _ => true) (by simp [Increasing]) (.inl (by simp))
  refine ⟨⟨1, -1, 10⟩, ⟨2, 1, -1⟩, N, by norm_num, by norm_num, by norm_num, by norm_num, fun fuel hf => ?_⟩
  obtain ⟨A, B, e, sA, sB, found, f1, f2, f3, f4, f5, f6⟩ := hN fuel hf
  have hch : signChanges (fun p : Point ℝ => id p.dof.1) ([⟨1, -1, 10⟩, ⟨2, 1, -1⟩].filter fun p => decide (p.time ≤ 10)) = [(⟨1, -1, 10⟩, ⟨2, 1, -1⟩)] := by
    have : ([⟨1, -1, 10⟩, ⟨2, 1, -1⟩] : List (Point ℝ)).filter (fun p => decide (p.time ≤ 10)) = [⟨1, -1, 10⟩, ⟨2, 1, -1⟩] := by
      rw [List.filter_eq_self]; intro p hp; simp at hp; rcases hp with rfl | rfl <;> norm_num
    rw [this, signChanges_cons_pos _ (.inl ⟨by norm_num, by norm_num⟩)]
    rfl
  rw [hch] at f1 f5
  have hq : ∀ x ∈ found, x.2 = (⟨1, -1, 10⟩, ⟨2, 1, -1⟩) := fun x hx => by
    have := f1.subset (List.mem_map_of_mem hx); simpa using this
  have hA : A = [] := by
    rw [List.eq_nil_iff_forall_not_mem]
    intro a ha
    obtain ⟨x, hx, _, h2, _⟩ := (f3 a).1 ha
    rw [hq x hx] at h2
    norm_num at h2
  have hall : found.map (·.2) = [(⟨1, -1, 10⟩, ⟨2, 1, -1⟩)] := by
    rcases f5 with h | h
    · exact h
    · rw [hA] at h; simp at h
  have hne : found ≠ [] := by rintro rfl; simp at hall
  obtain ⟨x, hx⟩ := List.exists_mem_of_ne_nil found hne
  have hn := f2 x hx
  rw [hq x hx] at hn
  refine ⟨x.1, hn.mem, A, B, e, hA, (f4 _).2 ⟨x, hx, rfl, ?_, rfl⟩⟩
  rw [hq x hx]
  norm_num

end Principia.Apsides
