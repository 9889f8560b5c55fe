import Verif.Physics.ApsidesSpec
import Verif.Numerics.Hermite3Props
import Verif.Numerics.BrentProps
import Mathlib.Analysis.Calculus.Deriv.MeanValue
import Mathlib.Topology.Order.IntermediateValue
import Mathlib.Data.List.TakeWhile
import Mathlib.Data.List.Chain

set_option linter.unusedSimpArgs false
set_option linter.unusedVariables false
set_option linter.unusedSectionVars false

/-!
# Lemmas for the apsides and the nodes: a scan of the points of a trajectory, and the extrema of a cubic
-/

namespace Principia.Apsides

open Principia.SortedMap Principia.RootFinders

/-! ### The scan -/

theorem negative_ne_iff {x y : ℝ} : negative y ≠ negative x ↔ ChangesSign x y := by
  unfold ChangesSign
  cases hx : negative x <;> cases hy : negative y
  · have := negative_eq_false.1 hx; have := negative_eq_false.1 hy
    simp; constructor <;> intro _ <;> linarith
  · have := negative_eq_false.1 hx; have := negative_eq_true.1 hy
    simp; right; constructor <;> linarith
  · have := negative_eq_true.1 hx; have := negative_eq_false.1 hy
    simp; left; constructor <;> linarith
  · have := negative_eq_true.1 hx; have := negative_eq_true.1 hy
    simp; constructor <;> intro _ <;> linarith

/-- `Control` is a functor. -/
def Control.map {S T : Type} (φ : S → T) : Control S → Control T
  | .next s => .next (φ s)
  | .exit s => .exit (φ s)
  | .undefined => .undefined

theorem forLoop_map {S T P : Type} (φ : S → T) (body : S → P → Control S) (body' : T → P → Control T) (h : ∀ s p, body' (φ s) p = (body s p).map φ) (l : List P) (s : S) :
    forLoop body' l (φ s) = (forLoop body l s).map φ := by
  induction l generalizing s with
  | nil => rfl
  | cons p l ih =>
    rw [forLoop, forLoop, h]
    cases body s p with
    | next s' => exact ih s'
    | exit s' => rfl
    | undefined => rfl

section Scan

variable {P D : Type}

/-- The parameters of the scan. -/
structure ScanData (P D : Type) where
  skip : P → Prop
  stop : P → Prop
  value : P → ℝ
  timeOf : P → P → Option ℝ
  first : P → Prop
  accept : ℝ → Prop
  traj : ℝ → D
  maxPoints : ℕ

variable (c : ScanData P D)

open Classical in
/-- The body of the scan. -/
noncomputable def scanBody (s : Option P × List (ℝ × D) × List (ℝ × D)) (p : P) : Control (Option P × List (ℝ × D) × List (ℝ × D)) :=
  if c.skip p then .next s
  else if c.stop p then .exit s
  else
    match s.1 with
    | none => .next (some p, s.2)
    | some q =>
      if ChangesSign (c.value q) (c.value p) then
        match c.timeOf q p with
        | none => .undefined
        | some t =>
          if c.accept t then
            let A := if c.first p then emplace s.2.1 t (c.traj t) else s.2.1
            let B := if c.first p then s.2.2 else emplace s.2.2 t (c.traj t)
            if A.length ≥ c.maxPoints ∧ B.length ≥ c.maxPoints then .exit (some p, A, B) else .next (some p, A, B)
          else .next (some p, s.2)
      else .next (some p, s.2)

open Classical in
/-- The points that the scan looks at. -/
noncomputable def selected (l : List P) : List P := (l.filter fun p => decide (¬ c.skip p)).takeWhile fun p => decide (¬ c.stop p)

theorem selected_skip {p : P} (l : List P) (h : c.skip p) : selected c (p :: l) = selected c l := by
  unfold selected; rw [List.filter_cons_of_neg (by simpa using h)]

theorem selected_stop {p : P} (l : List P) (h : ¬ c.skip p) (h' : c.stop p) : selected c (p :: l) = [] := by
  unfold selected; rw [List.filter_cons_of_pos (by simpa using h), List.takeWhile_cons_of_neg (by simpa using h')]

theorem selected_cons {p : P} (l : List P) (h : ¬ c.skip p) (h' : ¬ c.stop p) : selected c (p :: l) = p :: selected c l := by
  unfold selected; rw [List.filter_cons_of_pos (by simpa using h), List.takeWhile_cons_of_pos (by simpa using h')]

theorem signChanges_cons_pos {value : P → ℝ} {p q : P} (l : List P) (h : ChangesSign (value p) (value q)) :
    signChanges value (p :: q :: l) = (p, q) :: signChanges value (q :: l) := by
  unfold signChanges; rw [consecutive, List.filter_cons_of_pos (by simpa using h)]

theorem signChanges_cons_neg {value : P → ℝ} {p q : P} (l : List P) (h : ¬ ChangesSign (value p) (value q)) :
    signChanges value (p :: q :: l) = signChanges value (q :: l) := by
  unfold signChanges; rw [consecutive, List.filter_cons_of_neg (by simpa using h)]

/-- What is found. -/
structure ScanResult (changes : List (P × P)) (A B A' B' : List (ℝ × D)) (found : List (ℝ × P × P)) : Prop where
  pre : found.map (·.2) <+: changes
  time : ∀ x ∈ found, c.timeOf x.2.1 x.2.2 = some x.1
  sortedA : Sorted A'
  sortedB : Sorted B'
  memA : ∀ a, a ∈ A' ↔ a ∈ A ∨ ∃ x ∈ found, c.accept x.1 ∧ c.first x.2.2 ∧ a = (x.1, c.traj x.1)
  memB : ∀ a, a ∈ B' ↔ a ∈ B ∨ ∃ x ∈ found, c.accept x.1 ∧ ¬ c.first x.2.2 ∧ a = (x.1, c.traj x.1)
  complete : found.map (·.2) = changes ∨ c.maxPoints ≤ A'.length ∧ c.maxPoints ≤ B'.length
  bound : min A'.length B'.length ≤ c.maxPoints

theorem mem_emplace_traj {A : List (ℝ × D)} (hA : ∀ a ∈ A, a.2 = c.traj a.1) (t : ℝ) (a : ℝ × D) : a ∈ emplace A t (c.traj t) ↔ a ∈ A ∨ a = (t, c.traj t) := by
  rw [mem_emplace]
  constructor
  · rintro (h | h)
    · exact .inl h
    · exact .inr h.1
  · rintro (h | h)
    · exact .inl h
    · by_cases hb : ∃ b ∈ A, b.1 = t
      · obtain ⟨b, hb, e⟩ := hb
        refine .inl ?_
        rw [h, ← e, ← hA b hb]; exact hb
      · push Not at hb; exact .inr ⟨h, hb⟩

theorem length_emplace_le (A : List (ℝ × D)) (t : ℝ) (v : D) : (emplace A t v).length ≤ A.length + 1 := by
  cases hc : contains A t with
  | true => unfold emplace; rw [hc]; simp
  | false => rw [(emplace_perm hc).length_eq]; simp

theorem scan_spec (l : List P) (prev : Option P) (A B : List (ℝ × D)) (sA : Sorted A) (sB : Sorted B) (hA : ∀ a ∈ A, a.2 = c.traj a.1) (hB : ∀ a ∈ B, a.2 = c.traj a.1)
    (hmax : min A.length B.length < c.maxPoints ∨ A = [] ∧ B = []) (hdef : ∀ pq ∈ signChanges c.value (prev.toList ++ selected c l), ∃ t, c.timeOf pq.1 pq.2 = some t) :
    ∃ last A' B' found, forLoop (scanBody c) l (prev, A, B) = some (last, A', B') ∧ ScanResult c (signChanges c.value (prev.toList ++ selected c l)) A B A' B' found := by
  classical
  have hle : min A.length B.length ≤ c.maxPoints := by
    rcases hmax with h | ⟨h, h'⟩
    · exact h.le
    · subst h; subst h'; simp
  have short : ∀ p : Option P, signChanges c.value p.toList = [] := by
    intro p; cases p <;> rfl
  have trivial_result : ScanResult c [] A B A B [] :=
    ⟨by simp, by simp, sA, sB, by simp, by simp, .inl rfl, hle⟩
  induction l generalizing prev A B with
  | nil =>
    have e : prev.toList ++ selected c [] = prev.toList := by simp [selected]
    rw [e, short]
    exact ⟨prev, A, B, [], rfl, trivial_result⟩
  | cons p l ih =>
    rw [forLoop]
    by_cases hs : c.skip p
    · rw [selected_skip c l hs] at hdef ⊢
      have : scanBody c (prev, A, B) p = .next (prev, A, B) := by unfold scanBody; rw [if_pos hs]
      rw [this]
      exact ih prev A B sA sB hA hB hmax hdef hle trivial_result
    · by_cases hst : c.stop p
      · have : scanBody c (prev, A, B) p = .exit (prev, A, B) := by unfold scanBody; rw [if_neg hs, if_pos hst]
        rw [this, selected_stop c l hs hst, List.append_nil, short]
        exact ⟨prev, A, B, [], rfl, trivial_result⟩
      · rw [selected_cons c l hs hst] at hdef ⊢
        cases prev with
        | none =>
          have : scanBody c (none, A, B) p = .next (some p, A, B) := by unfold scanBody; rw [if_neg hs, if_neg hst]
          rw [this]
          exact ih (some p) A B sA sB hA hB hmax hdef hle trivial_result
        | some q =>
          have el : (some q).toList ++ p :: selected c l = q :: p :: selected c l := rfl
          rw [el] at hdef ⊢
          by_cases hc : ChangesSign (c.value q) (c.value p)
          · rw [signChanges_cons_pos _ hc] at hdef ⊢
            obtain ⟨t, ht⟩ := hdef (q, p) (List.mem_cons_self ..)
            have hdef' : ∀ pq ∈ signChanges c.value ((some p).toList ++ selected c l), ∃ t, c.timeOf pq.1 pq.2 = some t := fun pq h => hdef pq (List.mem_cons_of_mem _ h)
            by_cases hacc : c.accept t
            · obtain ⟨A1, hA1⟩ : ∃ A1, A1 = if c.first p then emplace A t (c.traj t) else A := ⟨_, rfl⟩
              obtain ⟨B1, hB1⟩ : ∃ B1, B1 = if c.first p then B else emplace B t (c.traj t) := ⟨_, rfl⟩
              have hbody : scanBody c (some q, A, B) p = if A1.length ≥ c.maxPoints ∧ B1.length ≥ c.maxPoints then .exit (some p, A1, B1) else .next (some p, A1, B1) := by
                unfold scanBody
                rw [if_neg hs, if_neg hst]
                simp only [ht]
                rw [if_pos hc, if_pos hacc, ← hA1, ← hB1]
              have sA1 : Sorted A1 := by rw [hA1]; split; exact sorted_emplace sA _ _; exact sA
              have sB1 : Sorted B1 := by rw [hB1]; split; exact sB; exact sorted_emplace sB _ _
              have mA1 : ∀ a, a ∈ A1 ↔ a ∈ A ∨ c.first p ∧ a = (t, c.traj t) := by
                intro a; rw [hA1]
                by_cases hf : c.first p
                · rw [if_pos hf, mem_emplace_traj c hA]; simp [hf]
                · rw [if_neg hf]; simp [hf]
              have mB1 : ∀ a, a ∈ B1 ↔ a ∈ B ∨ ¬ c.first p ∧ a = (t, c.traj t) := by
                intro a; rw [hB1]
                by_cases hf : c.first p
                · rw [if_pos hf]; simp [hf]
                · rw [if_neg hf, mem_emplace_traj c hB]; simp [hf]
              have hA1' : ∀ a ∈ A1, a.2 = c.traj a.1 := fun a ha => by
                rcases (mA1 a).1 ha with h | ⟨_, h⟩
                · exact hA a h
                · rw [h]
              have hB1' : ∀ a ∈ B1, a.2 = c.traj a.1 := fun a ha => by
                rcases (mB1 a).1 ha with h | ⟨_, h⟩
                · exact hB a h
                · rw [h]
              have hle1 : min A1.length B1.length ≤ c.maxPoints := by
                have l1 := length_emplace_le A t (c.traj t)
                have l2 := length_emplace_le B t (c.traj t)
                rw [hA1, hB1]
                rcases hmax with h | ⟨h, h'⟩
                · by_cases hf : c.first p
                  · rw [if_pos hf, if_pos hf]; omega
                  · rw [if_neg hf, if_neg hf]; omega
                · by_cases hf : c.first p
                  · rw [if_pos hf, if_pos hf, h']; simp
                  · rw [if_neg hf, if_neg hf, h]; simp
              rw [hbody]
              by_cases hm : A1.length ≥ c.maxPoints ∧ B1.length ≥ c.maxPoints
              · rw [if_pos hm]
                refine ⟨some p, A1, B1, [(t, q, p)], rfl, ⟨?_, ?_, sA1, sB1, ?_, ?_, .inr hm, hle1⟩⟩
                · exact ⟨_, rfl⟩
                · intro x hx; rw [List.mem_singleton] at hx; subst hx; exact ht
                · intro a; rw [mA1]; simp [hacc]
                · intro a; rw [mB1]; simp [hacc]
              · rw [if_neg hm]
                obtain ⟨last, A', B', found, e, R⟩ := ih (some p) A1 B1 sA1 sB1 hA1' hB1' (.inl (by omega)) hdef' hle1 ⟨by simp, by simp, sA1, sB1, by simp, by simp, .inl rfl, hle1⟩
                refine ⟨last, A', B', (t, q, p) :: found, e, ⟨?_, ?_, R.sortedA, R.sortedB, ?_, ?_, ?_, R.bound⟩⟩
                · rw [List.map_cons]; exact List.cons_prefix_cons.2 ⟨rfl, R.pre⟩
                · intro x hx
                  rcases List.mem_cons.1 hx with rfl | hx
                  · exact ht
                  · exact R.time x hx
                · intro a; rw [R.memA, mA1]; simp [hacc, or_assoc]
                · intro a; rw [R.memB, mB1]; simp [hacc, or_assoc]
                · rcases R.complete with h | h
                  · left; rw [List.map_cons, h]; rfl
                  · exact .inr h
            · have hbody : scanBody c (some q, A, B) p = .next (some p, A, B) := by
                unfold scanBody
                rw [if_neg hs, if_neg hst]
                simp only [ht]
                rw [if_pos hc, if_neg hacc]
              rw [hbody]
              obtain ⟨last, A', B', found, e, R⟩ := ih (some p) A B sA sB hA hB hmax hdef' hle trivial_result
              refine ⟨last, A', B', (t, q, p) :: found, e, ⟨?_, ?_, R.sortedA, R.sortedB, ?_, ?_, ?_, R.bound⟩⟩
              · rw [List.map_cons]; exact List.cons_prefix_cons.2 ⟨rfl, R.pre⟩
              · intro x hx
                rcases List.mem_cons.1 hx with rfl | hx
                · exact ht
                · exact R.time x hx
              · intro a; rw [R.memA]; simp [hacc]
              · intro a; rw [R.memB]; simp [hacc]
              · rcases R.complete with h | h
                · left; rw [List.map_cons, h]; rfl
                · exact .inr h
          · rw [signChanges_cons_neg _ hc] at hdef ⊢
            have hbody : scanBody c (some q, A, B) p = .next (some p, A, B) := by
              unfold scanBody
              rw [if_neg hs, if_neg hst]
              simp only
              rw [if_neg hc]
            rw [hbody]
            exact ih (some p) A B sA sB hA hB hmax hdef hle trivial_result

end Scan

theorem filter_takeWhile {E : Type} {l : List (Point E)} (h : Increasing l) (tMin tMax : ℝ) :
    ((l.filter fun p => decide (¬ p.time < tMin)).takeWhile fun p => decide (¬ p.time > tMax)) = pointsBetween tMin tMax l := by
  classical
  unfold pointsBetween
  induction l with
  | nil => rfl
  | cons p l ih =>
    obtain ⟨h1, h2⟩ := List.pairwise_cons.1 h
    by_cases hs : p.time < tMin
    · rw [List.filter_cons_of_neg (by simpa using hs), List.filter_cons_of_neg (by simp; intro; linarith), ih h2]
    · rw [List.filter_cons_of_pos (by simpa using hs)]
      by_cases ht : p.time > tMax
      · rw [List.takeWhile_cons_of_neg (by simpa using ht), List.filter_cons_of_neg (by simp; intro; linarith)]
        symm
        rw [List.filter_eq_nil_iff]
        intro q hq
        have := h1 q hq
        simp; intro; linarith
      · rw [List.takeWhile_cons_of_pos (by simpa using ht), List.filter_cons_of_pos (by simp; constructor <;> linarith), ih h2]

theorem consecutive_mem {P : Type} {R : P → P → Prop} {l : List P} (h : l.Pairwise R) {p q : P} (hpq : (p, q) ∈ consecutive l) : R p q := by
  induction l with
  | nil => simp [consecutive] at hpq
  | cons a l ih =>
    cases l with
    | nil => simp [consecutive] at hpq
    | cons b l =>
      rw [consecutive, List.mem_cons] at hpq
      obtain ⟨h1, h2⟩ := List.pairwise_cons.1 h
      rcases hpq with e | hpq
      · rw [Prod.mk.injEq] at e; rw [e.1, e.2]; exact h1 b (List.mem_cons_self ..)
      · exact ih h2 hpq

/-- The changes of sign alternate. -/
theorem signChanges_chain {P : Type} (value time : P → ℝ) (l : List P) (h : l.Pairwise fun p q => time p < time q) :
    (signChanges value l).IsChain fun x y => time x.2 ≤ time y.1 ∧ (value x.2 < 0 ↔ 0 ≤ value y.2) := by
  cases l with
  | nil => exact List.isChain_nil
  | cons p l =>
    suffices hs : (signChanges value (p :: l)).IsChain (fun x y => time x.2 ≤ time y.1 ∧ (value x.2 < 0 ↔ 0 ≤ value y.2)) ∧
        ∀ y ∈ (signChanges value (p :: l)).head?, time p ≤ time y.1 ∧ (value p < 0 ↔ 0 ≤ value y.2) from hs.1
    induction l generalizing p with
    | nil => exact ⟨List.isChain_nil, by simp [signChanges, consecutive]⟩
    | cons q l ih =>
      obtain ⟨h1, h2⟩ := List.pairwise_cons.1 h
      obtain ⟨i1, i2⟩ := ih q h2
      by_cases hc : ChangesSign (value p) (value q)
      · rw [signChanges_cons_pos l hc]
        refine ⟨List.isChain_cons.2 ⟨i2, i1⟩, fun y hy => ?_⟩
        simp only [List.head?_cons, Option.mem_def, Option.some.injEq] at hy
        subst hy
        refine ⟨le_rfl, ?_⟩
        rcases hc with ⟨h1, h2⟩ | ⟨h1, h2⟩
        · exact ⟨fun _ => h2, fun _ => h1⟩
        · exact ⟨fun h => absurd h (not_lt.2 h1), fun h => absurd h2 (not_lt.2 h)⟩
      · rw [signChanges_cons_neg l hc]
        refine ⟨i1, fun y hy => ?_⟩
        obtain ⟨j1, j2⟩ := i2 y hy
        refine ⟨(h1 q (List.mem_cons_self ..)).le.trans j1, ?_⟩
        rw [← j2]
        unfold ChangesSign at hc
        push Not at hc
        exact ⟨fun h => hc.1 h, fun h => by by_contra hh; push Not at hh; linarith [hc.2 hh]⟩

/-! ### The extrema of a cubic -/

/-- The last critical point before the function decreases is a maximum. -/
theorem quadratic_sign {g : ℝ → ℝ} {A B C : ℝ} (hg : ∀ u, g u = A + B * u + C * u ^ 2) {t0 t1 t : ℝ} (h0 : t0 ≤ t) (h1 : t ≤ t1) (ht : g t = 0) (g0 : 0 ≤ g t0) (g1 : g t1 < 0)
    (hlast : ∀ u, t0 ≤ u → u ≤ t1 → g u = 0 → u ≤ t) : (∀ u, t0 ≤ u → u ≤ t → 0 ≤ g u) ∧ ∀ u, t ≤ u → u ≤ t1 → g u ≤ 0 := by
  have hcont : Continuous g := by rw [funext hg]; fun_prop
  have after : ∀ u, t ≤ u → u ≤ t1 → g u ≤ 0 := by
    intro u hu hu1
    by_contra hh
    push Not at hh
    obtain ⟨w, ⟨hw1, hw2⟩, hw⟩ := intermediate_value_Icc' hu1 hcont.continuousOn (show (0 : ℝ) ∈ Set.Icc (g t1) (g u) from ⟨g1.le, hh.le⟩)
    have := hlast w (by linarith) hw2 hw
    have : w = u := by linarith
    rw [this] at hw; linarith
  refine ⟨fun u hu0 hut => ?_, after⟩
  -- Write g u = (u - t) ℓ u.
  have fac : ∀ u, g u = (u - t) * (B + C * (u + t)) := by
    intro u
    have e1 := hg u
    have e2 := hg t
    rw [ht] at e2
    rw [e1]; linear_combination -e2
  have htt1 : t < t1 := by
    rcases eq_or_lt_of_le h1 with e | e
    · rw [e] at ht; linarith
    · exact e
  rcases eq_or_lt_of_le hut with e | e
  · rw [e, ht]
  · have ℓ1 : B + C * (t1 + t) < 0 := by
      have := fac t1; rw [this] at g1
      by_contra hh; push Not at hh
      nlinarith
    have ℓ0 : B + C * (t0 + t) ≤ 0 := by
      have := fac t0; rw [this] at g0
      by_contra hh; push Not at hh
      nlinarith
    rw [fac]
    have : B + C * (u + t) ≤ 0 := by
      -- Affine.
      have hd : 0 < t1 - t0 := by linarith
      have : (t1 - t0) * (B + C * (u + t)) = (t1 - u) * (B + C * (t0 + t)) + (u - t0) * (B + C * (t1 + t)) := by ring
      have h2 : (t1 - t0) * (B + C * (u + t)) ≤ 0 := by
        rw [this]
        nlinarith [mul_nonneg (by linarith : 0 ≤ t1 - u) (neg_nonneg.2 ℓ0), mul_nonneg (by linarith : 0 ≤ u - t0) (neg_nonneg.2 ℓ1.le)]
      by_contra hh; push Not at hh
      nlinarith [mul_pos hd hh]
    nlinarith

theorem max_of_sign {F g : ℝ → ℝ} (hF : ∀ u, HasDerivAt F (g u) u) {t0 t1 t : ℝ} (h0 : t0 ≤ t) (h1 : t ≤ t1) (b : ∀ u, t0 ≤ u → u ≤ t → 0 ≤ g u) (a : ∀ u, t ≤ u → u ≤ t1 → g u ≤ 0) :
    ∀ u ∈ Set.Icc t0 t1, F u ≤ F t := by
  have hc : Continuous F := continuous_iff_continuousAt.2 fun u => (hF u).continuousAt
  have hd : ∀ u, deriv F u = g u := fun u => (hF u).deriv
  intro u hu
  rcases le_total u t with h | h
  · have : MonotoneOn F (Set.Icc t0 t) := monotoneOn_of_deriv_nonneg (convex_Icc _ _) hc.continuousOn (fun x _ => (hF x).differentiableAt.differentiableWithinAt)
      (fun x hx => by rw [interior_Icc] at hx; rw [hd]; exact b x hx.1.le hx.2.le)
    exact this ⟨hu.1, h⟩ ⟨h0, le_rfl⟩ h
  · have : AntitoneOn F (Set.Icc t t1) := antitoneOn_of_deriv_nonpos (convex_Icc _ _) hc.continuousOn (fun x _ => (hF x).differentiableAt.differentiableWithinAt)
      (fun x hx => by rw [interior_Icc] at hx; rw [hd]; exact a x hx.1.le hx.2.le)
    exact this ⟨le_rfl, h1⟩ ⟨h, hu.2⟩ h

/-- The coefficients of the interpolant and of its derivative. -/
theorem interpolant (t0 t1 v0 v1 d0 d1 : ℝ) (h : t0 < t1) :
    ∃ H : Hermite3.Hermite3 ℝ, Hermite3.make (t0, t1) (v0, v1) (d0, d1) = some H ∧ H.lower = t0 ∧ H.upper = t1 ∧ H.p.degree = 3 ∧ IsCubicInterpolant H.eval t0 t1 v0 v1 d0 d1 ∧
      (∃ A B C, ∀ u, H.evalDerivative u = A + B * u + C * u ^ 2) ∧ H.evalDerivative t0 = d0 ∧ H.evalDerivative t1 = d1 ∧ (d0 ≠ d1 → H.p.get 2 ≠ 0 ∨ H.p.get 3 ≠ 0) := by
  obtain ⟨H, e, hl, hu, ho, hd, g0, g1, g2, g3⟩ := Hermite3.make_eq t0 t1 v0 v1 d0 d1 h.ne
  obtain ⟨H', e', i1, i2, i3, i4⟩ := Hermite3.C26_interpolates t0 t1 v0 v1 d0 d1 h.ne
  rw [e, Option.some.injEq] at e'
  subst e'
  have ev : ∀ t, H.eval t = H.p.get 0 + (t - t0) * H.p.get 1 + (t - t0) ^ 2 * H.p.get 2 + (t - t0) ^ 3 * H.p.get 3 := by
    intro t; rw [Hermite3.eval_eq, Hermite3.value4 H.p (by omega), ho]; simp only [smul_eq_mul]
  have ed : ∀ t, H.evalDerivative t = H.p.get 1 + (2 * (t - t0)) * H.p.get 2 + (3 * (t - t0) ^ 2) * H.p.get 3 := by
    intro t
    have := Hermite3.derivative4 H.p (by omega) t
    rw [ho] at this
    simp only [smul_eq_mul] at this
    exact this
  have dd0 : H.evalDerivative t0 = d0 := (Hermite3.hasDerivAt_eval H t0).unique i3
  have dd1 : H.evalDerivative t1 = d1 := (Hermite3.hasDerivAt_eval H t1).unique i4
  refine ⟨H, e, hl, hu, hd, ⟨?_, i1, i2, i3, i4⟩, ?_, dd0, dd1, ?_⟩
  · refine ⟨H.p.get 0 - t0 * H.p.get 1 + t0 ^ 2 * H.p.get 2 - t0 ^ 3 * H.p.get 3, H.p.get 1 - 2 * t0 * H.p.get 2 + 3 * t0 ^ 2 * H.p.get 3, H.p.get 2 - 3 * t0 * H.p.get 3, H.p.get 3, fun t => ?_⟩
    rw [ev]; ring
  · refine ⟨H.p.get 1 - 2 * t0 * H.p.get 2 + 3 * t0 ^ 2 * H.p.get 3, 2 * H.p.get 2 - 6 * t0 * H.p.get 3, 3 * H.p.get 3, fun t => ?_⟩
    rw [ed]; ring
  · intro hne
    by_contra hh
    push Not at hh
    rw [ed, hh.1, hh.2] at dd0 dd1
    apply hne
    rw [← dd0, ← dd1]; ring

theorem getLast_of_sorted {l : List ℝ} (h : l.Pairwise (· < ·)) {x : ℝ} (hx : x ∈ l) : ∃ t, l.getLast? = some t ∧ t ∈ l ∧ ∀ u ∈ l, u ≤ t := by
  have hne : l ≠ [] := List.ne_nil_of_mem hx
  refine ⟨l.getLast hne, List.getLast?_eq_some_getLast hne, List.getLast_mem hne, fun u hu => ?_⟩
  rw [← List.dropLast_append_getLast hne] at hu h
  rcases List.mem_append.1 hu with hu | hu
  · exact ((List.pairwise_append.1 h).2.2 u hu _ (List.mem_singleton_self _)).le
  · rw [List.mem_singleton] at hu; exact hu.le

/-- The cubic interpolant is the only one. -/
theorem IsCubicInterpolant.unique {h h' : ℝ → ℝ} {t1 t2 v1 v2 d1 d2 : ℝ} (ht : t1 ≠ t2) (a : IsCubicInterpolant h t1 t2 v1 v2 d1 d2) (b : IsCubicInterpolant h' t1 t2 v1 v2 d1 d2) : h = h' := by
  obtain ⟨a0, a1, a2, a3, ha⟩ := a.cubic
  obtain ⟨b0, b1, b2, b3, hb⟩ := b.cubic
  have deriv_of : ∀ (c0 c1 c2 c3 : ℝ) (f : ℝ → ℝ), (∀ t, f t = c0 + c1 * t + c2 * t ^ 2 + c3 * t ^ 3) → ∀ t, HasDerivAt f (c1 + 2 * c2 * t + 3 * c3 * t ^ 2) t := by
    intro c0 c1 c2 c3 f hf t
    rw [funext hf]
    have e1 := (hasDerivAt_id t).const_mul c1
    have e2 := ((hasDerivAt_id t).pow 2).const_mul c2
    have e3 := ((hasDerivAt_id t).pow 3).const_mul c3
    refine (((e1.const_add c0).add e2).add e3).congr_deriv ?_
    simp; ring
  have p1 := (deriv_of _ _ _ _ _ ha t1).unique a.derivative1
  have p2 := (deriv_of _ _ _ _ _ ha t2).unique a.derivative2
  have q1 := (deriv_of _ _ _ _ _ hb t1).unique b.derivative1
  have q2 := (deriv_of _ _ _ _ _ hb t2).unique b.derivative2
  have v1' := ha t1 ▸ a.value1
  have v2' := ha t2 ▸ a.value2
  have w1' := hb t1 ▸ b.value1
  have w2' := hb t2 ▸ b.value2
  have hne : t2 - t1 ≠ 0 := sub_ne_zero.2 (Ne.symm ht)
  have k3 : a3 = b3 := by
    have : (a3 - b3) * (t2 - t1) ^ 3 = 0 := by
      linear_combination (t2 - t1) * (p1 - q1) + (t2 - t1) * (p2 - q2) - 2 * (v2' - w2') + 2 * (v1' - w1')
    rcases mul_eq_zero.1 this with h | h
    · linarith
    · exact absurd h (pow_ne_zero 3 hne)
  have k2 : a2 = b2 := by
    have : (a2 - b2) * (2 * (t2 - t1)) = 0 := by
      rw [k3] at p1 p2
      linear_combination p2 - q2 - (p1 - q1)
    rcases mul_eq_zero.1 this with h | h
    · linarith
    · exact absurd h (mul_ne_zero two_ne_zero hne)
  have k1 : a1 = b1 := by rw [k3, k2] at p1; linarith
  have k0 : a0 = b0 := by rw [k3, k2, k1] at v1'; linarith
  funext t
  rw [ha, hb, k0, k1, k2, k3]

end Principia.Apsides
