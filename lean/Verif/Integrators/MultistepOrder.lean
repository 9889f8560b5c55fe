import Verif.Integrators.OrderSteps
import Verif.Integrators.MultistepModel
import Verif.Integrators.MethodsModel
import Mathlib.Analysis.Analytic.Basic
import Mathlib.Analysis.Calculus.FDeriv.Analytic

/-!
The local error of the steps of the multistep integrators, in terms of the order conditions.
-/

set_option linter.unusedSimpArgs false
set_option linter.unusedVariables false
set_option linter.unusedSectionVars false

namespace Principia.Integrators

open Asymptotics Filter Topology

variable {V : Type*} [NormedAddCommGroup V] [NormedSpace ℝ V]

/-! ### The explicit linear multistep methods -/

/-- The order conditions. -/
structure ELMS.OrderConditions (m : ELMS) (p : ℕ) : Prop where
  first : m.α 0 = 1
  sum : ∑ j ∈ Finset.range (m.steps + 1), m.α j = 0
  moment (i : ℕ) : i < p → ∑ j ∈ Finset.range (m.steps + 1), m.α j * ((1 - j : ℝ) ^ (i + 1) / (i + 1)) = ∑ j ∈ Finset.range m.steps, m.βNumerator (j + 1) / m.βDenominator * (-j : ℝ) ^ i

/-- The steps that follow a solution and the last of which is at `t0`. -/
noncomputable def firstOrderSteps (f : RightHandSide V) (y : ℝ → V) (t0 h : ℝ) (n : ℕ) : List (FStep V) :=
  (List.range n).map fun i : ℕ => ⟨t0 + (i + 1 - n : ℝ) * h, y (t0 + (i + 1 - n : ℝ) * h), (f (t0 + (i + 1 - n : ℝ) * h) (y (t0 + (i + 1 - n : ℝ) * h))).1⟩

theorem foldl_pair (l : List ℕ) (A B : ℕ → V) (s : V × V) :
    l.foldl (fun (s : V × V) j => (s.1 - A j, s.2 + B j)) s = (s.1 - (l.map A).sum, s.2 + (l.map B).sum) := by
  induction l generalizing s with
  | nil => simp
  | cons a l ih =>
    rw [List.foldl_cons, ih]
    simp only [List.map_cons, List.sum_cons]
    refine Prod.ext ?_ ?_ <;> simp only <;> abel

theorem sum_map_range' (F : ℕ → V) (s n : ℕ) : ((List.range' s n).map F).sum = ∑ j ∈ Finset.range n, F (s + j) := by
  induction n with
  | zero => simp
  | succ n ih => rw [List.range'_concat, List.map_append, List.sum_append, ih, Finset.sum_range_succ]; simp

theorem ELMS.sums_eq (m : ELMS) (l : List (FStep V)) :
    m.sums l = (-∑ j ∈ Finset.range m.steps, m.α (j + 1) • (fstepBack l (j + 1)).y, ∑ j ∈ Finset.range m.steps, m.βNumerator (j + 1) • (fstepBack l (j + 1)).y') := by
  rw [ELMS.sums, foldl_pair, sum_map_range', sum_map_range']
  simp [add_comm]

theorem firstOrderSteps_back (f : RightHandSide V) (y : ℝ → V) (t0 h : ℝ) (n j : ℕ) (hj : j < n) :
    fstepBack (firstOrderSteps f y t0 h n) (j + 1) = ⟨t0 + (-j : ℝ) * h, y (t0 + (-j : ℝ) * h), (f (t0 + (-j : ℝ) * h) (y (t0 + (-j : ℝ) * h))).1⟩ := by
  have hc : (((n - (j + 1) : ℕ) : ℝ) + 1 - n) = -j := by
    rw [Nat.cast_sub (by omega)]
    push_cast
    ring
  rw [fstepBack, List.getD_eq_getElem?_getD]
  simp only [firstOrderSteps, List.length_map, List.length_range]
  rw [List.getElem?_map, List.getElem?_range (by omega)]
  simp only [Option.map_some, Option.getD_some, hc]

theorem ELMS.local_error (f : RightHandSide V) (t0 : ℝ) (y : ℝ → V) (hf : AnalyticAt ℝ f.uncurried (t0, y t0)) (hy : ∀ᶠ t in 𝓝 t0, HasDerivAt y (f t (y t)).1 t) (p : ℕ) (m : ELMS)
    (hm : m.OrderConditions p) (hs : 0 < m.steps) (x : ℝ → FState V) (status : ℝ → Status) :
    (fun h => ((m.multistepper f).advance h (firstOrderSteps f y t0 h m.steps) (x h) (status h)).2.1.y - y (t0 + h)) =O[𝓝 0] fun h => h ^ (p + 1) := by
  obtain ⟨P, hP⟩ := hf
  obtain ⟨hk, hJ⟩ := first_order_exp f t0 y hP hy p
  set A := valueCoeff [true] ((1, 0) : ℝ × V) (fun _ => ContinuousLinearMap.inr ℝ ℝ V) P Forest.exact with hA
  have e1 := HasExp.sum (Finset.range (m.steps + 1)) fun j _ => (hJ.scale (1 - j : ℝ)).const_smul (m.α j)
  have e2 := (HasExp.sum (Finset.range m.steps) fun j _ => (hk.scale (-j : ℝ)).const_smul (m.βNumerator (j + 1) / m.βDenominator)).pow_smul 1
  have e3 := (e2.sub e1).isBigO fun i hi => by
    rcases Nat.eq_zero_or_pos i with rfl | hpos
    · simp [integratedTimes, integrated]
    · obtain ⟨i, rfl⟩ := Nat.exists_eq_add_of_le hpos
      have hi : (0 : ℕ).succ + i < p + 1 := hi
      have hmom := hm.moment i (by omega)
      rw [if_pos (by omega)]
      simp only [integratedTimes, if_true, integrated]
      rw [show ((0 : ℕ).succ + i - 1) = i by omega, show (0 : ℕ).succ + i = i + 1 by omega]
      simp only [Nat.succ_ne_zero, if_false, smul_smul]
      rw [← Finset.sum_smul, ← Finset.sum_smul, ← hmom, ← sub_smul]
      rw [show (∑ j ∈ Finset.range (m.steps + 1), m.α j * ((1 - j : ℝ) ^ (i + 1) / (i + 1)) - ∑ j ∈ Finset.range (m.steps + 1), m.α j * ((1 - j : ℝ) ^ (i + 1) * (1 / ((i + 1 : ℕ) : ℝ)))) = 0 by
        rw [← Finset.sum_sub_distrib]
        refine Finset.sum_eq_zero fun j _ => ?_
        push_cast
        ring]
      exact zero_smul _ _
  refine (e3.congr_left fun h => ?_)
  show _ = (m.sums (firstOrderSteps f y t0 h m.steps)).1 + (h / m.βDenominator) • (m.sums (firstOrderSteps f y t0 h m.steps)).2 - y (t0 + h)
  rw [ELMS.sums_eq]
  have hb : ∀ j ∈ Finset.range m.steps, fstepBack (firstOrderSteps f y t0 h m.steps) (j + 1) = ⟨t0 + (-j : ℝ) * h, y (t0 + (-j : ℝ) * h), (f (t0 + (-j : ℝ) * h) (y (t0 + (-j : ℝ) * h))).1⟩ :=
    fun j hj => firstOrderSteps_back f y t0 h m.steps j (Finset.mem_range.mp hj)
  have s1 : ∑ j ∈ Finset.range m.steps, m.α (j + 1) • (fstepBack (firstOrderSteps f y t0 h m.steps) (j + 1)).y = ∑ j ∈ Finset.range m.steps, m.α (j + 1) • y (t0 + (-j : ℝ) * h) :=
    Finset.sum_congr rfl fun j hj => by rw [hb j hj]
  have s2 : ∑ j ∈ Finset.range m.steps, m.βNumerator (j + 1) • (fstepBack (firstOrderSteps f y t0 h m.steps) (j + 1)).y' =
      ∑ j ∈ Finset.range m.steps, m.βNumerator (j + 1) • (f (t0 + (-j : ℝ) * h) (y (t0 + (-j : ℝ) * h))).1 :=
    Finset.sum_congr rfl fun j hj => by rw [hb j hj]
  simp only [s1, s2]
  have s3 : ∑ j ∈ Finset.range (m.steps + 1), m.α j • (y (t0 + (1 - j : ℝ) * h) - y t0) = ∑ j ∈ Finset.range m.steps, m.α (j + 1) • y (t0 + (-j : ℝ) * h) + y (t0 + h) := by
    simp only [smul_sub]
    rw [Finset.sum_sub_distrib, ← Finset.sum_smul, hm.sum, zero_smul, sub_zero, Finset.sum_range_succ']
    simp only [hm.first, Nat.cast_zero, sub_zero, one_mul, one_smul, Nat.cast_add, Nat.cast_one]
    congr 1
    refine Finset.sum_congr rfl fun j _ => ?_
    rw [show (1 - ((j : ℝ) + 1)) = -j by ring]
  rw [s3, pow_one, Finset.smul_sum, Finset.smul_sum]
  simp only [smul_smul]
  rw [show ∑ j ∈ Finset.range m.steps, (h * (m.βNumerator (j + 1) / m.βDenominator)) • (f (t0 + (-j : ℝ) * h) (y (t0 + (-j : ℝ) * h))).1 =
    ∑ j ∈ Finset.range m.steps, (h / m.βDenominator * m.βNumerator (j + 1)) • (f (t0 + (-j : ℝ) * h) (y (t0 + (-j : ℝ) * h))).1 from
    Finset.sum_congr rfl fun j _ => by rw [show h * (m.βNumerator (j + 1) / m.βDenominator) = h / m.βDenominator * m.βNumerator (j + 1) by ring]]
  abel

/-! ### The symmetric linear multistep methods -/

/-- The coefficients of index `i` are equal to those of index `order - i`, only half of them are given. -/
def SLMS.half (m : SLMS) (i : ℕ) : ℕ := min i (m.order - i)

/-- The order conditions. -/
structure SLMS.OrderConditions (m : SLMS) (p : ℕ) : Prop where
  first : m.α 0 = 1
  sum : ∑ i ∈ Finset.range (m.order + 1), m.α (m.half i) = 0
  first_moment : ∑ i ∈ Finset.range (m.order + 1), m.α (m.half i) * (i + 1 - m.order : ℝ) = 0
  moment (n : ℕ) : n < p → ∑ i ∈ Finset.range (m.order + 1), m.α (m.half i) * ((i + 1 - m.order : ℝ) ^ (n + 2) / ((n + 1) * (n + 2))) =
    ∑ i ∈ Finset.range m.order, m.βNumerator (m.half i) / m.βDenominator * (i + 1 - m.order : ℝ) ^ n
  velocity (n : ℕ) : n < p → ∑ i ∈ Finset.range m.order, m.choNumerators i / m.choDenominator * (1 - i : ℝ) ^ n = 1 / (n + 2)

/-- The steps that follow a solution and the last of which is at `t0`. -/
noncomputable def secondOrderSteps (f : RightHandSide V) (q : ℝ → V) (t0 h : ℝ) (n : ℕ) : List (NStep V) :=
  (List.range n).map fun i : ℕ => ⟨t0 + (i + 1 - n : ℝ) * h, q (t0 + (i + 1 - n : ℝ) * h), (f (t0 + (i + 1 - n : ℝ) * h) (q (t0 + (i + 1 - n : ℝ) * h))).1⟩

theorem secondOrderSteps_at (f : RightHandSide V) (q : ℝ → V) (t0 h : ℝ) (n i : ℕ) (hi : i < n) :
    stepAt (secondOrderSteps f q t0 h n) i = ⟨t0 + (i + 1 - n : ℝ) * h, q (t0 + (i + 1 - n : ℝ) * h), (f (t0 + (i + 1 - n : ℝ) * h) (q (t0 + (i + 1 - n : ℝ) * h))).1⟩ := by
  rw [stepAt, List.getD_eq_getElem?_getD, secondOrderSteps, List.getElem?_map, List.getElem?_range hi]
  rfl

theorem sum_range_symmetric (F : ℕ → V) (r : ℕ) : ∑ i ∈ Finset.range (2 * r + 2), F i = F 0 + ∑ j ∈ Finset.range r, (F (1 + j) + F (2 * r + 2 - (1 + j))) + F (r + 1) := by
  rw [show 2 * r + 2 = (r + 1) + (r + 1) by ring, Finset.sum_range_add, Finset.sum_range_succ', Finset.sum_range_succ']
  rw [← Finset.sum_range_reflect (fun k => F (r + 1 + (k + 1))) r, Finset.sum_add_distrib]
  have h1 : ∑ j ∈ Finset.range r, F (r + 1 + (r - 1 - j + 1)) = ∑ j ∈ Finset.range r, F (r + 1 + (r + 1) - (1 + j)) :=
    Finset.sum_congr rfl fun j hj => by
      have := Finset.mem_range.mp hj
      congr 1
      omega
  have h2 : ∑ j ∈ Finset.range r, F (1 + j) = ∑ j ∈ Finset.range r, F (j + 1) := Finset.sum_congr rfl fun j _ => by rw [add_comm]
  rw [h1, h2]
  simp only [add_zero]
  abel

theorem SLMS.sums_eq (m : SLMS) (l : List (NStep V)) (heven : m.order % 2 = 0) (hpos : 0 < m.order) :
    m.sums l = (-∑ i ∈ Finset.range m.order, m.α (m.half i) • (stepAt l i).displacements, ∑ i ∈ Finset.range m.order, m.βNumerator (m.half i) • (stepAt l i).accelerations) := by
  obtain ⟨r, hr⟩ : ∃ r, m.order = 2 * r + 2 := ⟨m.order / 2 - 1, by omega⟩
  have hfold := foldl_pair (List.range' 1 (m.order / 2 - 1)) (fun j => m.α j • (stepAt l j).displacements + m.α j • (stepAt l (m.order - j)).displacements)
    (fun j => m.βNumerator j • ((stepAt l j).accelerations + (stepAt l (m.order - j)).accelerations)) ((-m.α 0) • (stepAt l 0).displacements, m.βNumerator 0 • (stepAt l 0).accelerations)
  simp only [SLMS.sums, sub_sub] at hfold ⊢
  rw [hfold, sum_map_range', sum_map_range']
  have hd : m.order / 2 - 1 = r := by omega
  have hd2 : m.order / 2 = r + 1 := by omega
  rw [hd, hd2]
  have half0 : m.half 0 = 0 := by simp [SLMS.half]
  have halfr : m.half (r + 1) = r + 1 := by simp only [SLMS.half]; omega
  have half1 : ∀ j, j < r → m.half (1 + j) = 1 + j := fun j hj => by simp only [SLMS.half]; omega
  have half2 : ∀ j, j < r → m.half (2 * r + 2 - (1 + j)) = 1 + j := fun j hj => by simp only [SLMS.half]; omega
  refine Prod.ext ?_ ?_
  · show _ = -∑ i ∈ Finset.range m.order, m.α (m.half i) • (stepAt l i).displacements
    rw [hr, sum_range_symmetric, half0, halfr]
    rw [show ∑ j ∈ Finset.range r, (m.α (m.half (1 + j)) • (stepAt l (1 + j)).displacements + m.α (m.half (2 * r + 2 - (1 + j))) • (stepAt l (2 * r + 2 - (1 + j))).displacements) =
      ∑ j ∈ Finset.range r, (m.α (1 + j) • (stepAt l (1 + j)).displacements + m.α (1 + j) • (stepAt l (2 * r + 2 - (1 + j))).displacements) from
      Finset.sum_congr rfl fun j hj => by rw [half1 j (Finset.mem_range.mp hj), half2 j (Finset.mem_range.mp hj)]]
    simp only [neg_smul, sub_eq_add_neg, neg_add, add_assoc]
  · show _ = ∑ i ∈ Finset.range m.order, m.βNumerator (m.half i) • (stepAt l i).accelerations
    rw [hr, sum_range_symmetric, half0, halfr]
    rw [show ∑ j ∈ Finset.range r, (m.βNumerator (m.half (1 + j)) • (stepAt l (1 + j)).accelerations + m.βNumerator (m.half (2 * r + 2 - (1 + j))) • (stepAt l (2 * r + 2 - (1 + j))).accelerations) =
      ∑ j ∈ Finset.range r, m.βNumerator (1 + j) • ((stepAt l (1 + j)).accelerations + (stepAt l (2 * r + 2 - (1 + j))).accelerations) from
      Finset.sum_congr rfl fun j hj => by rw [half1 j (Finset.mem_range.mp hj), half2 j (Finset.mem_range.mp hj), smul_add]]

/-- The position that follows. -/
noncomputable def SLMS.next (m : SLMS) (f : RightHandSide V) (q : ℝ → V) (t0 h : ℝ) : V :=
  -(∑ i ∈ Finset.range m.order, m.α (m.half i) • q (t0 + (i + 1 - m.order : ℝ) * h)) +
    (h * h / m.βDenominator) • ∑ i ∈ Finset.range m.order, m.βNumerator (m.half i) • (f (t0 + (i + 1 - m.order : ℝ) * h) (q (t0 + (i + 1 - m.order : ℝ) * h))).1

theorem SLMS.advance_positions (m : SLMS) (f : RightHandSide V) (q : ℝ → V) (t0 h : ℝ) (heven : m.order % 2 = 0) (hpos : 0 < m.order) (x : NState V) (status : Status) :
    ((m.multistepper f).advance h (secondOrderSteps f q t0 h m.order) x status).2.1.positions = m.next f q t0 h := by
  show (m.sums (secondOrderSteps f q t0 h m.order)).1 + (h * h / m.βDenominator) • (m.sums (secondOrderSteps f q t0 h m.order)).2 = _
  rw [m.sums_eq _ heven hpos, SLMS.next]
  simp only
  congr 2
  · refine Finset.sum_congr rfl fun i hi => ?_
    rw [secondOrderSteps_at f q t0 h _ i (Finset.mem_range.mp hi)]
  · refine Finset.sum_congr rfl fun i hi => ?_
    rw [secondOrderSteps_at f q t0 h _ i (Finset.mem_range.mp hi)]

theorem SLMS.advance_velocities (m : SLMS) (f : RightHandSide V) (q : ℝ → V) (t0 h : ℝ) (heven : m.order % 2 = 0) (hpos : 0 < m.order) (x : NState V) (status : Status) :
    ((m.multistepper f).advance h (secondOrderSteps f q t0 h m.order) x status).2.1.velocities =
      (1 / h) • (m.next f q t0 h - q t0) + (h / m.choDenominator) • (m.choNumerators 0 • (f (t0 + h) (m.next f q t0 h)).1 +
        ∑ i ∈ Finset.range (m.order - 1), m.choNumerators (i + 1) • (f (t0 + (-i : ℝ) * h) (q (t0 + (-i : ℝ) * h))).1) := by
  have hq := m.advance_positions f q t0 h heven hpos x status
  have hlen : (secondOrderSteps f q t0 h m.order).length = m.order := by simp [secondOrderSteps]
  have ht : (stepAt (secondOrderSteps f q t0 h m.order) ((secondOrderSteps f q t0 h m.order).length - 1)).time + h = t0 + h := by
    rw [hlen, secondOrderSteps_at f q t0 h _ _ (by omega)]
    have : ((m.order - 1 : ℕ) : ℝ) + 1 - m.order = 0 := by rw [Nat.cast_sub (by omega)]; push_cast; ring
    simp [this]
  set p : NStep V := ⟨t0 + h, m.next f q t0 h, (f (t0 + h) (m.next f q t0 h)).1⟩ with hp
  have hq' : (m.sums (secondOrderSteps f q t0 h m.order)).1 + (h * h / m.βDenominator) • (m.sums (secondOrderSteps f q t0 h m.order)).2 = m.next f q t0 h := hq
  have hvel : ((m.multistepper f).advance h (secondOrderSteps f q t0 h m.order) x status).2.1.velocities = m.velocity h (secondOrderSteps f q t0 h m.order ++ [p]).tail := by
    have e : p = ⟨(stepAt (secondOrderSteps f q t0 h m.order) ((secondOrderSteps f q t0 h m.order).length - 1)).time + h,
        (m.sums (secondOrderSteps f q t0 h m.order)).1 + (h * h / m.βDenominator) • (m.sums (secondOrderSteps f q t0 h m.order)).2,
        (f ((stepAt (secondOrderSteps f q t0 h m.order) ((secondOrderSteps f q t0 h m.order).length - 1)).time + h)
          ((m.sums (secondOrderSteps f q t0 h m.order)).1 + (h * h / m.βDenominator) • (m.sums (secondOrderSteps f q t0 h m.order)).2)).1⟩ := by rw [hp, hq', ht]
    rw [e]
    rfl
  rw [hvel, SLMS.velocity]
  have hl : (secondOrderSteps f q t0 h m.order ++ [p]).tail.length = m.order := by simp [hlen]
  have hat : ∀ i, stepAt (secondOrderSteps f q t0 h m.order ++ [p]).tail i = stepAt (secondOrderSteps f q t0 h m.order ++ [p]) (i + 1) := fun i => by
    simp only [stepAt, List.getD_eq_getElem?_getD, List.getElem?_tail]
  have hlast : stepAt (secondOrderSteps f q t0 h m.order ++ [p]) m.order = p := by
    rw [stepAt, List.getD_eq_getElem?_getD, List.getElem?_append_right (by rw [hlen]), hlen]
    simp
  have hother : ∀ i, i < m.order → stepAt (secondOrderSteps f q t0 h m.order ++ [p]) i = stepAt (secondOrderSteps f q t0 h m.order) i := fun i hi => by
    simp only [stepAt, List.getD_eq_getElem?_getD]
    rw [List.getElem?_append_left (by rw [hlen]; exact hi)]
  have hprev : ∀ i, i < m.order - 1 → stepAt (secondOrderSteps f q t0 h m.order ++ [p]) (m.order - 1 - i) =
      ⟨t0 + (-i : ℝ) * h, q (t0 + (-i : ℝ) * h), (f (t0 + (-i : ℝ) * h) (q (t0 + (-i : ℝ) * h))).1⟩ := fun i hi => by
    have hc : ((m.order - 1 - i : ℕ) : ℝ) + 1 - m.order = -i := by rw [Nat.cast_sub (by omega), Nat.cast_sub (by omega)]; push_cast; ring
    rw [hother _ (by omega), secondOrderSteps_at f q t0 h _ _ (by omega), hc]
  simp only [hl, hat]
  rw [show m.order - 1 + 1 = m.order by omega, show m.order - 2 + 1 = m.order - 1 - 0 by omega, hlast, hprev 0 (by omega)]
  have hsum : ∑ i ∈ Finset.range m.order, m.choNumerators i • (stepAt (secondOrderSteps f q t0 h m.order ++ [p]) (m.order - 1 - i + 1)).accelerations =
      m.choNumerators 0 • (f (t0 + h) (m.next f q t0 h)).1 + ∑ i ∈ Finset.range (m.order - 1), m.choNumerators (i + 1) • (f (t0 + (-i : ℝ) * h) (q (t0 + (-i : ℝ) * h))).1 := by
    conv_lhs => rw [show m.order = m.order - 1 + 1 by omega, Finset.sum_range_succ']
    rw [show m.order - 1 + 1 = m.order by omega, show m.order - 1 - 0 + 1 = m.order by omega, hlast, add_comm]
    congr 1
    refine Finset.sum_congr rfl fun i hi => ?_
    have := Finset.mem_range.mp hi
    rw [show m.order - 1 - (i + 1) + 1 = m.order - 1 - i by omega, hprev i this]
  rw [hsum]
  simp [hp]

theorem SLMS.local_error (f : RightHandSide V) (t0 : ℝ) (q v : ℝ → V) (hf : AnalyticAt ℝ f.uncurried (t0, q t0)) (hq : ∀ᶠ t in 𝓝 t0, HasDerivAt q (v t) t)
    (hv : ∀ᶠ t in 𝓝 t0, HasDerivAt v (f t (q t)).1 t) (p : ℕ) (m : SLMS) (hm : m.OrderConditions p) (heven : m.order % 2 = 0) (hpos : 0 < m.order) (x : ℝ → NState V) (status : ℝ → Status) :
    (fun h => ((m.multistepper f).advance h (secondOrderSteps f q t0 h m.order) (x h) (status h)).2.1.positions - q (t0 + h)) =O[𝓝 0] (fun h => h ^ (p + 2)) ∧
    (fun h => ((m.multistepper f).advance h (secondOrderSteps f q t0 h m.order) (x h) (status h)).2.1.velocities - v (t0 + h)) =O[𝓝[≠] 0] fun h => h ^ (p + 1) := by
  have hf' := hf
  obtain ⟨P, hP⟩ := hf
  obtain ⟨hk, hJv, hJq⟩ := second_order_exp f t0 q v hP hq hv p
  set A := valueCoeff [false] ((1, v t0) : ℝ × V) (fun _ => ContinuousLinearMap.inr ℝ ℝ V) P Forest.exact with hA
  simp only [degree, Bool.false_eq_true, if_false, if_true, integratedTimes] at hJv hJq
  -- The positions.
  have hposerr : (fun h => m.next f q t0 h - q (t0 + h)) =O[𝓝 0] fun h => h ^ (p + 2) := by
    have e1 := HasExp.sum (Finset.range (m.order + 1)) fun i _ => (hJq.scale (i + 1 - m.order : ℝ)).const_smul (m.α (m.half i))
    have e2 := (HasExp.sum (Finset.range m.order) fun i _ => (hk.scale (i + 1 - m.order : ℝ)).const_smul (m.βNumerator (m.half i) / m.βDenominator)).pow_smul 2
    have e3 := (e2.sub e1).isBigO fun n hn => by
      rcases n with _ | _ | n
      · simp [integrated]
      · simp [integrated]
      · have hmom := hm.moment n (by omega)
        rw [if_pos (by omega)]
        simp only [integrated, Nat.succ_ne_zero, if_false, Nat.add_sub_cancel, show n + 1 + 1 - 2 = n by omega, smul_smul]
        rw [← Finset.sum_smul, ← Finset.sum_smul, ← hmom, ← sub_smul, ← Finset.sum_sub_distrib]
        rw [Finset.sum_eq_zero fun i _ => ?_, zero_smul]
        have h1 : (n : ℝ) + 1 ≠ 0 := by positivity
        have h2 : (n : ℝ) + 2 ≠ 0 := by positivity
        have h3 : (n : ℝ) + 1 + 1 ≠ 0 := by positivity
        push_cast
        field_simp
        ring
    refine e3.congr_left fun h => ?_
    rw [SLMS.next]
    have s1 : ∑ i ∈ Finset.range (m.order + 1), m.α (m.half i) • (q (t0 + (i + 1 - m.order : ℝ) * h) - q t0 - ((i + 1 - m.order : ℝ) * h) • v t0) =
        ∑ i ∈ Finset.range m.order, m.α (m.half i) • q (t0 + (i + 1 - m.order : ℝ) * h) + q (t0 + h) := by
      simp only [smul_sub, smul_smul]
      rw [Finset.sum_sub_distrib, Finset.sum_sub_distrib, ← Finset.sum_smul, ← Finset.sum_smul, hm.sum, zero_smul, sub_zero]
      rw [show ∑ i ∈ Finset.range (m.order + 1), m.α (m.half i) * ((i + 1 - m.order : ℝ) * h) = (∑ i ∈ Finset.range (m.order + 1), m.α (m.half i) * (i + 1 - m.order : ℝ)) * h by
        rw [Finset.sum_mul]; exact Finset.sum_congr rfl fun i _ => by ring]
      rw [hm.first_moment, zero_mul, zero_smul, sub_zero, Finset.sum_range_succ]
      have hh : m.half m.order = 0 := by simp [SLMS.half]
      have hc : (m.order : ℝ) + 1 - m.order = 1 := by ring
      rw [hh, hm.first, one_smul, hc, one_mul]
    rw [s1, pow_two, Finset.smul_sum, Finset.smul_sum]
    simp only [smul_smul]
    rw [show ∑ i ∈ Finset.range m.order, (h * h * (m.βNumerator (m.half i) / m.βDenominator)) • (f (t0 + (i + 1 - m.order : ℝ) * h) (q (t0 + (i + 1 - m.order : ℝ) * h))).1 =
      ∑ i ∈ Finset.range m.order, (h * h / m.βDenominator * m.βNumerator (m.half i)) • (f (t0 + (i + 1 - m.order : ℝ) * h) (q (t0 + (i + 1 - m.order : ℝ) * h))).1 from
      Finset.sum_congr rfl fun i _ => by rw [show h * h * (m.βNumerator (m.half i) / m.βDenominator) = h * h / m.βDenominator * m.βNumerator (m.half i) by ring]]
    abel
  refine ⟨hposerr.congr_left fun h => by rw [m.advance_positions f q t0 h heven hpos], ?_⟩
  -- The acceleration of the last step.
  have hqlim : Tendsto (fun h => q (t0 + h)) (𝓝 0) (𝓝 (q t0)) := by
    have h1 : ContinuousAt q (t0 + 0) := by rw [add_zero]; exact hq.self_of_nhds.continuousAt
    have h2 : ContinuousAt (fun h : ℝ => t0 + h) 0 := by fun_prop
    have := ContinuousAt.comp (f := fun h : ℝ => t0 + h) (g := q) h1 h2
    simpa [ContinuousAt, Function.comp_def] using this
  have hnextlim : Tendsto (fun h => m.next f q t0 h) (𝓝 0) (𝓝 (q t0)) := by
    have h1 : Tendsto (fun h => m.next f q t0 h - q (t0 + h)) (𝓝 0) (𝓝 0) := by
      refine hposerr.trans_tendsto ?_
      have : ContinuousAt (fun h : ℝ => h ^ (p + 2)) 0 := by fun_prop
      simpa [ContinuousAt] using this
    simpa using h1.add hqlim
  have hacc : (fun h => (f (t0 + h) (m.next f q t0 h)).1 - (f (t0 + h) (q (t0 + h))).1) =O[𝓝 0] fun h => h ^ (p + 2) := by
    have htime : Tendsto (fun h : ℝ => t0 + h) (𝓝 0) (𝓝 t0) := by
      have : ContinuousAt (fun h : ℝ => t0 + h) 0 := by fun_prop
      simpa [ContinuousAt] using this
    have hstrict := hf'.hasStrictFDerivAt.isBigO_sub
    have hlim : Tendsto (fun h => (((t0 + h, m.next f q t0 h) : ℝ × V), ((t0 + h, q (t0 + h)) : ℝ × V))) (𝓝 0) (𝓝 ((t0, q t0), (t0, q t0))) :=
      (htime.prodMk_nhds hnextlim).prodMk_nhds (htime.prodMk_nhds hqlim)
    have h1 := hstrict.comp_tendsto hlim
    refine (h1.trans ?_).trans hposerr
    refine IsBigO.of_bound 1 (Eventually.of_forall fun h => ?_)
    simp [Prod.norm_def]
  -- The velocities.
  have hvel : (fun h => (m.next f q t0 h - q t0) + (h * h / m.choDenominator) • (m.choNumerators 0 • (f (t0 + h) (m.next f q t0 h)).1 +
        ∑ i ∈ Finset.range (m.order - 1), m.choNumerators (i + 1) • (f (t0 + (-i : ℝ) * h) (q (t0 + (-i : ℝ) * h))).1) - h • v (t0 + h)) =O[𝓝 0] fun h => h ^ (p + 2) := by
    have e1 := (HasExp.sum (Finset.range m.order) fun i _ => (hk.scale (1 - i : ℝ)).const_smul (m.choNumerators i / m.choDenominator)).pow_smul 2
    have e2 := hJv.pow_smul 1
    have e3 := ((e1.add hJq).sub e2).isBigO fun n hn => by
      rcases n with _ | _ | n
      · simp [integrated]
      · simp [integrated]
      · have hmom := hm.velocity n (by omega)
        rw [if_pos (by omega), if_pos (by omega)]
        simp only [integrated, Nat.succ_ne_zero, if_false, Nat.add_sub_cancel, show n + 1 + 1 - 2 = n by omega, smul_smul]
        rw [← Finset.sum_smul, hmom, ← add_smul, ← sub_smul]
        convert zero_smul ℝ (A n) using 2
        have h1 : (n : ℝ) + 1 ≠ 0 := by positivity
        have h2 : (n : ℝ) + 2 ≠ 0 := by positivity
        have h3 : (n : ℝ) + 1 + 1 ≠ 0 := by positivity
        push_cast
        field_simp
        ring
    have hcorr : (fun h : ℝ => (h * h / m.choDenominator * m.choNumerators 0) • ((f (t0 + h) (m.next f q t0 h)).1 - (f (t0 + h) (q (t0 + h))).1)) =O[𝓝 0] fun h => h ^ (p + 2) := by
      have hb : (fun h : ℝ => h * h / m.choDenominator * m.choNumerators 0) =O[𝓝 0] fun _ : ℝ => (1 : ℝ) := by
        have : ContinuousAt (fun h : ℝ => h * h / m.choDenominator * m.choNumerators 0) 0 := by fun_prop
        exact this.tendsto.isBigO_one ℝ
      simpa using hb.smul hacc
    refine ((e3.add hposerr).add hcorr).congr_left fun h => ?_
    have s1 : ∑ i ∈ Finset.range m.order, (m.choNumerators i / m.choDenominator) • (f (t0 + (1 - i : ℝ) * h) (q (t0 + (1 - i : ℝ) * h))).1 =
        (m.choNumerators 0 / m.choDenominator) • (f (t0 + h) (q (t0 + h))).1 +
          (1 / m.choDenominator) • ∑ i ∈ Finset.range (m.order - 1), m.choNumerators (i + 1) • (f (t0 + (-i : ℝ) * h) (q (t0 + (-i : ℝ) * h))).1 := by
      conv_lhs => rw [show m.order = m.order - 1 + 1 by omega, Finset.sum_range_succ']
      rw [add_comm, Finset.smul_sum]
      congr 1
      · simp
      · refine Finset.sum_congr rfl fun i _ => ?_
        rw [smul_smul, Nat.cast_add, Nat.cast_one, show (1 - ((i : ℝ) + 1)) = -i by ring]
        congr 1
        ring
    rw [s1]
    generalize ∑ i ∈ Finset.range (m.order - 1), m.choNumerators (i + 1) • (f (t0 + (-i : ℝ) * h) (q (t0 + (-i : ℝ) * h))).1 = S
    simp only [pow_one, pow_two, div_eq_mul_inv]
    module
  have hid : ∀ᶠ h : ℝ in 𝓝[≠] 0, h ≠ 0 := eventually_mem_nhdsWithin
  obtain ⟨K, hK⟩ := (hvel.mono nhdsWithin_le_nhds).bound
  refine IsBigO.of_bound K ?_
  filter_upwards [hK, hid] with h hh hne
  rw [m.advance_velocities f q t0 h heven hpos]
  have hpos' : 0 < ‖h‖ := norm_pos_iff.mpr hne
  refine le_of_mul_le_mul_left ?_ hpos'
  rw [← norm_smul]
  refine le_trans (le_of_eq ?_) (hh.trans (le_of_eq ?_))
  · congr 1
    rw [smul_sub, smul_add, smul_smul, smul_smul, mul_one_div_cancel hne, one_smul, mul_div_assoc]
  · rw [norm_pow, norm_pow, pow_succ]
    ring

end Principia.Integrators
