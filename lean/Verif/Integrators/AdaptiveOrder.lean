import Verif.Integrators.AdaptiveSteps
import Verif.Integrators.OrderProps
import Mathlib.Analysis.SpecialFunctions.Exponential
import Mathlib.Tactic.IntervalCases

/-!
The embedded methods have the orders that are stated for them, except for `Fine1987RKNG34`, one coefficient of which is wrong.
-/

set_option linter.unusedSimpArgs false
set_option linter.unusedVariables false
set_option linter.unusedSectionVars false

namespace Principia.Integrators

open Asymptotics Filter Topology

/-! ### The error of a quadrature -/

section Defect

variable {U V : Type*} [NormedAddCommGroup U] [NormedSpace ℝ U] [NormedAddCommGroup V] [NormedSpace ℝ V]

/-- The order conditions. -/
def Conditions (kinds : List Bool) (stages : ℕ) (c : ℕ → ℝ) (a : Bool → ℕ → ℕ → ℝ) (b : ℕ → ℝ) (κ : Bool) (p : ℕ) : Prop :=
  ∀ φ : Forest, φ.Uses kinds → φ.order < p → ∑ i ∈ Finset.range stages, b i * φ.stage c a i = if κ then φ.exact / (φ.order + 1) else φ.exact / ((φ.order + 1) * (φ.order + 2))

theorem defect_bound (kinds : List Bool) {F : U → V} {x0 : U} (x1 : U) (ι : Bool → V →L[ℝ] U) {P : FormalMultilinearSeries ℝ U V} (hF : HasFPowerSeriesAt F P x0) (c : ℕ → ℝ)
    (a : Bool → ℕ → ℕ → ℝ) (b : ℕ → ℝ) (s : ℕ) (κ : Bool) {J : ℝ → V} {p : ℕ} (hJ : HasExp (p + degree κ) J (integratedTimes κ (valueCoeff kinds x1 ι P Forest.exact)))
    (hb : Conditions kinds s c a b κ p) :
    ∃ K, ∀ᶠ h in 𝓝 (0 : ℝ), ‖h ^ degree κ • ∑ i ∈ Finset.range s, b i • stageValue kinds F x0 x1 ι c a h i - J h‖ ≤ K * |h| ^ (p + degree κ) := by
  have hdef := defect_exp kinds x1 ι hF c a b s κ hJ
  have hz : ∀ m < p + degree κ, (if degree κ ≤ m then valueCoeff kinds x1 ι P
      (fun φ => ∑ i ∈ Finset.range s, b i * φ.stage c a i - (if κ then φ.exact / (φ.order + 1) else φ.exact / ((φ.order + 1) * (φ.order + 2)))) (m - degree κ) else 0) = 0 := by
    intro m hm
    by_cases h1 : degree κ ≤ m
    · rw [if_pos h1]
      have := valueCoeff_bound kinds x1 ι P
        (fun φ => ∑ i ∈ Finset.range s, b i * φ.stage c a i - (if κ then φ.exact / (φ.order + 1) else φ.exact / ((φ.order + 1) * (φ.order + 2)))) (m - degree κ) 0 (fun φ hφ ho => by
          rw [hb φ hφ (by omega), sub_self, abs_zero])
      rw [zero_mul] at this
      exact norm_eq_zero.mp (le_antisymm this (norm_nonneg _))
    · rw [if_neg h1]
  have hdef0 : HasExp (p + degree κ) (fun h => h ^ degree κ • ∑ i ∈ Finset.range s, b i • stageValue kinds F x0 x1 ι c a h i - J h) (fun _ => 0) := hdef.coeff hz
  obtain ⟨K, hK⟩ := IsBigO.bound hdef0
  refine ⟨K, ?_⟩
  filter_upwards [hK] with h hh
  simpa using hh

end Defect

variable {V : Type*} [NormedAddCommGroup V] [NormedSpace ℝ V]

/-! ### The embedded Runge-Kutta methods -/

theorem EERK.IsStep.value {m : EERK} {f : RightHandSide V} {h : ℝ} {x x' : FState V} {e : V} (hs : m.IsStep f h x x' e) :
    x'.y = x.y + h • ∑ i ∈ Finset.range m.stages, m.b i • m.toERK.value f h x i ∧
    x'.y + e = x.y + h • ∑ i ∈ Finset.range m.stages, m.bLow i • m.toERK.value f h x i := by
  obtain ⟨k, hk, rfl, rfl⟩ := hs
  have h1 : ∀ i, i < m.stages → k i = m.toERK.value f h x i := by
    intro i
    induction i using Nat.strong_induction_on with
    | _ i ih =>
      intro hi
      rw [hk i hi, m.toERK.value_eq]
      congr 4
      exact Finset.sum_congr rfl fun j hj => by rw [ih j (Finset.mem_range.mp hj) ((Finset.mem_range.mp hj).trans hi)]
  have h2 : ∀ w : ℕ → ℝ, ∑ i ∈ Finset.range m.stages, w i • k i = ∑ i ∈ Finset.range m.stages, w i • m.toERK.value f h x i := fun w =>
    Finset.sum_congr rfl fun j hj => by rw [h1 j (Finset.mem_range.mp hj)]
  rw [h2, h2]
  exact ⟨rfl, by simp⟩

theorem EERK.order (m : EERK) (p p' : ℕ) (hp : Conditions [true] m.stages m.c (fun _ => m.a) m.b true p) (hp' : Conditions [true] m.stages m.c (fun _ => m.a) m.bLow true p')
    (f : RightHandSide V) (t0 : ℝ) (y : ℝ → V) (hsol : FirstOrderSolution f t0 y) :
    ∃ K, ∀ᶠ h in 𝓝 0, ∀ x' e, m.IsStep f h ⟨t0, y t0⟩ x' e → ‖x'.y - y (t0 + h)‖ ≤ K * |h| ^ (p + 1) ∧ ‖x'.y + e - y (t0 + h)‖ ≤ K * |h| ^ (p' + 1) := by
  obtain ⟨P, hP⟩ := hsol.analytic
  have hP : HasFPowerSeriesAt f.uncurried P (t0, y t0) := hP
  obtain ⟨K, hK⟩ := defect_bound [true] ((1, 0) : ℝ × V) (fun _ => ContinuousLinearMap.inr ℝ ℝ V) hP m.c (fun _ => m.a) m.b m.stages true (first_order_exp f t0 y hP hsol.deriv p).2 hp
  obtain ⟨K', hK'⟩ := defect_bound [true] ((1, 0) : ℝ × V) (fun _ => ContinuousLinearMap.inr ℝ ℝ V) hP m.c (fun _ => m.a) m.bLow m.stages true (first_order_exp f t0 y hP hsol.deriv p').2 hp'
  refine ⟨max K K', ?_⟩
  filter_upwards [hK, hK'] with h hh hh' x' e hs
  obtain ⟨h1, h2⟩ := hs.value
  constructor
  · refine le_trans (Eq.trans_le ?_ hh) (mul_le_mul_of_nonneg_right (le_max_left _ _) (by positivity))
    rw [h1]
    congr 1
    simp only [ERK.value, degree, if_true, pow_one]
    abel
  · refine le_trans (Eq.trans_le ?_ hh') (mul_le_mul_of_nonneg_right (le_max_right _ _) (by positivity))
    rw [h2]
    congr 1
    simp only [ERK.value, degree, if_true, pow_one]
    abel

/-! ### The embedded Runge-Kutta-Nyström methods -/

/-- `q` is a solution of `qʺ = f(t, q, qʹ)` near `t0`, where `f` is analytic, and `v` is its velocity. -/
structure GeneralSolution (f : GeneralRightHandSide V) (t0 : ℝ) (q v : ℝ → V) : Prop where
  analytic : AnalyticAt ℝ (fun x : ℝ × V × V => (f x.1 x.2.1 x.2.2).1) (t0, q t0, v t0)
  velocity : ∀ᶠ t in 𝓝 t0, HasDerivAt q (v t) t
  acceleration : ∀ᶠ t in 𝓝 t0, HasDerivAt v (f t (q t) (v t)).1 t

theorem EERKN.IsStep.value {m : EERKN} {f : GeneralRightHandSide V} {h : ℝ} {x x' : NState V} {e : V × V} (hs : m.IsStep f h x x' e) (G : ℕ → V)
    (hG : ∀ i, G i = (f (x.time + m.c i * h) (x.positions + (m.c i * h) • x.velocities + h ^ 2 • ∑ j ∈ Finset.range i, m.a i j • G j)
      (x.velocities + h • ∑ j ∈ Finset.range i, m.a' i j • G j)).1) :
    (x'.positions = x.positions + h • x.velocities + h ^ 2 • ∑ i ∈ Finset.range m.stages, m.bHat i • G i ∧ x'.velocities = x.velocities + h • ∑ i ∈ Finset.range m.stages, m.bHat' i • G i) ∧
    x'.positions + e.1 = x.positions + h • x.velocities + h ^ 2 • ∑ i ∈ Finset.range m.stages, m.b i • G i ∧
    x'.velocities + e.2 = x.velocities + h • ∑ i ∈ Finset.range m.stages, m.b' i • G i := by
  obtain ⟨k, hk, rfl, rfl⟩ := hs
  have h1 : ∀ i, i < m.stages → k i = G i := by
    intro i
    induction i using Nat.strong_induction_on with
    | _ i ih =>
      intro hi
      rw [hk i hi, hG]
      have h2 : ∀ w : ℕ → ℝ, ∑ j ∈ Finset.range i, w j • k j = ∑ j ∈ Finset.range i, w j • G j := fun w =>
        Finset.sum_congr rfl fun j hj => by rw [ih j (Finset.mem_range.mp hj) ((Finset.mem_range.mp hj).trans hi)]
      rw [h2, h2]
  have h2 : ∀ w : ℕ → ℝ, ∑ i ∈ Finset.range m.stages, w i • k i = ∑ i ∈ Finset.range m.stages, w i • G i := fun w =>
    Finset.sum_congr rfl fun j hj => by rw [h1 j (Finset.mem_range.mp hj)]
  rw [h2, h2, h2, h2]
  exact ⟨⟨rfl, rfl⟩, by simp, by simp⟩

/-- The four conditions on the weights of an embedded method. -/
structure EERKN.Orders (m : EERKN) (kinds : List Bool) (p p' : ℕ) : Prop where
  position : Conditions kinds m.stages m.c (fun κ => if κ then m.a' else m.a) m.bHat false (p - 1)
  velocity : Conditions kinds m.stages m.c (fun κ => if κ then m.a' else m.a) m.bHat' true p
  lowPosition : Conditions kinds m.stages m.c (fun κ => if κ then m.a' else m.a) m.b false (p' - 1)
  lowVelocity : Conditions kinds m.stages m.c (fun κ => if κ then m.a' else m.a) m.b' true p'
  positive : 0 < p ∧ 0 < p'

/-- The distances between a step of size `h` from a point of a solution and the solution. -/
def EERKN.Accurate (m : EERKN) (f : GeneralRightHandSide V) (t0 : ℝ) (q v : ℝ → V) (p p' : ℕ) : Prop :=
  ∃ K, ∀ᶠ h in 𝓝 0, ∀ x' e, m.IsStep f h ⟨t0, q t0, v t0⟩ x' e →
    (‖x'.positions - q (t0 + h)‖ ≤ K * |h| ^ (p + 1) ∧ ‖x'.velocities - v (t0 + h)‖ ≤ K * |h| ^ (p + 1)) ∧
    ‖x'.positions + e.1 - q (t0 + h)‖ ≤ K * |h| ^ (p' + 1) ∧ ‖x'.velocities + e.2 - v (t0 + h)‖ ≤ K * |h| ^ (p' + 1)

theorem EERKN.accurate_of_stageValue (m : EERKN) (f : GeneralRightHandSide V) (t0 : ℝ) (q v : ℝ → V) (kinds : List Bool) {U : Type*} [NormedAddCommGroup U] [NormedSpace ℝ U] (F : U → V) (x0 x1 : U)
    (ι : Bool → V →L[ℝ] U) (p p' : ℕ) (ho : m.Orders kinds p p') {P : FormalMultilinearSeries ℝ U V} (hP : HasFPowerSeriesAt F P x0)
    (hv : ∀ n, HasExp (n + degree true) (fun h => v (t0 + h) - v t0) (integratedTimes true (valueCoeff kinds x1 ι P Forest.exact)))
    (hq : ∀ n, HasExp (n + degree false) (fun h => q (t0 + h) - q t0 - h • v t0) (integratedTimes false (valueCoeff kinds x1 ι P Forest.exact)))
    (hG : ∀ h i, stageValue kinds F x0 x1 ι m.c (fun κ => if κ then m.a' else m.a) h i = (f (t0 + m.c i * h)
      (q t0 + (m.c i * h) • v t0 + h ^ 2 • ∑ j ∈ Finset.range i, m.a i j • stageValue kinds F x0 x1 ι m.c (fun κ => if κ then m.a' else m.a) h j)
      (v t0 + h • ∑ j ∈ Finset.range i, m.a' i j • stageValue kinds F x0 x1 ι m.c (fun κ => if κ then m.a' else m.a) h j)).1) :
    m.Accurate f t0 q v p p' := by
  obtain ⟨K1, h1⟩ := defect_bound kinds x1 ι hP m.c _ m.bHat m.stages false (hq (p - 1)) ho.position
  obtain ⟨K2, h2⟩ := defect_bound kinds x1 ι hP m.c _ m.bHat' m.stages true (hv p) ho.velocity
  obtain ⟨K3, h3⟩ := defect_bound kinds x1 ι hP m.c _ m.b m.stages false (hq (p' - 1)) ho.lowPosition
  obtain ⟨K4, h4⟩ := defect_bound kinds x1 ι hP m.c _ m.b' m.stages true (hv p') ho.lowVelocity
  have hd1 : p - 1 + degree false = p + 1 := by have := ho.positive.1; simp only [degree, Bool.false_eq_true, if_false]; omega
  have hd2 : p + degree true = p + 1 := rfl
  have hd3 : p' - 1 + degree false = p' + 1 := by have := ho.positive.2; simp only [degree, Bool.false_eq_true, if_false]; omega
  have hd4 : p' + degree true = p' + 1 := rfl
  rw [hd1] at h1
  rw [hd2] at h2
  rw [hd3] at h3
  rw [hd4] at h4
  refine ⟨max (max K1 K2) (max K3 K4), ?_⟩
  filter_upwards [h1, h2, h3, h4] with h h1 h2 h3 h4 x' e hs
  obtain ⟨⟨e1, e2⟩, e3, e4⟩ := hs.value (stageValue kinds F x0 x1 ι m.c (fun κ => if κ then m.a' else m.a) h) (hG h)
  rw [e3, e4, e1, e2]
  simp only [degree, if_true, pow_one, Bool.false_eq_true, if_false] at h1 h2 h3 h4
  refine ⟨⟨?_, ?_⟩, ?_, ?_⟩
  · refine le_trans (Eq.trans_le ?_ h1) (mul_le_mul_of_nonneg_right ((le_max_left _ _).trans (le_max_left _ _)) (by positivity))
    congr 1
    abel
  · refine le_trans (Eq.trans_le ?_ h2) (mul_le_mul_of_nonneg_right ((le_max_right _ _).trans (le_max_left _ _)) (by positivity))
    congr 1
    abel
  · refine le_trans (Eq.trans_le ?_ h3) (mul_le_mul_of_nonneg_right ((le_max_left _ _).trans (le_max_right _ _)) (by positivity))
    congr 1
    abel
  · refine le_trans (Eq.trans_le ?_ h4) (mul_le_mul_of_nonneg_right ((le_max_right _ _).trans (le_max_right _ _)) (by positivity))
    congr 1
    abel

theorem EERKN.special_accurate (m : EERKN) (p p' : ℕ) (ho : m.Orders [false] p p') (f : RightHandSide V) (t0 : ℝ) (q v : ℝ → V) (hsol : SecondOrderSolution f t0 q v) :
    m.Accurate f.general t0 q v p p' := by
  obtain ⟨P, hP⟩ := hsol.analytic
  have hP : HasFPowerSeriesAt f.uncurried P (t0, q t0) := hP
  refine m.accurate_of_stageValue f.general t0 q v [false] f.uncurried (t0, q t0) (1, v t0) (fun _ => ContinuousLinearMap.inr ℝ ℝ V) p p' ho hP
    (fun n => (second_order_exp f t0 q v hP hsol.velocity hsol.acceleration n).2.1) (fun n => (second_order_exp f t0 q v hP hsol.velocity hsol.acceleration n).2.2) fun h i => ?_
  rw [stageValue_eq]
  simp [-map_sum, RightHandSide.uncurried, RightHandSide.general, degree, add_assoc]

theorem general_exp (f : GeneralRightHandSide V) (t0 : ℝ) (q v : ℝ → V) (hsol : GeneralSolution f t0 q v) {P : FormalMultilinearSeries ℝ (ℝ × V × V) V}
    (hP : HasFPowerSeriesAt (fun x : ℝ × V × V => (f x.1 x.2.1 x.2.2).1) P (t0, q t0, v t0)) (ι : Bool → V →L[ℝ] ℝ × V × V) (hι : ∀ w, ι false w = (0, w, 0) ∧ ι true w = (0, 0, w)) (n : ℕ) :
    HasExp (n + degree true) (fun h => v (t0 + h) - v t0) (integratedTimes true (valueCoeff [false, true] (1, v t0, 0) ι P Forest.exact)) ∧
    HasExp (n + degree false) (fun h => q (t0 + h) - q t0 - h • v t0) (integratedTimes false (valueCoeff [false, true] (1, v t0, 0) ι P Forest.exact)) := by
  have hd : ∀ᶠ h in 𝓝 (0 : ℝ), HasDerivAt (fun h => v (t0 + h) - v t0) (f (t0 + h) (q (t0 + h)) (v (t0 + h))).1 h := by
    filter_upwards [eventually_shift hsol.acceleration] with h hh
    exact (HasDerivAt.comp_const_add t0 h hh).sub_const _
  have h0 : (fun h => v (t0 + h) - v t0) 0 = 0 := by simp
  have hd' : ∀ᶠ h in 𝓝 (0 : ℝ), HasDerivAt (fun h => q (t0 + h) - q t0 - h • v t0) (v (t0 + h) - v t0) h := by
    filter_upwards [eventually_shift hsol.velocity] with h hh
    have h1 : HasDerivAt (fun h : ℝ => h • v t0) (v t0) h := by simpa using (hasDerivAt_id h).smul_const (v t0)
    exact ((HasDerivAt.comp_const_add t0 h hh).sub_const _).sub h1
  have h0' : (fun h : ℝ => q (t0 + h) - q t0 - h • v t0) 0 = 0 := by simp
  have hJ0 : Tendsto (fun h => q (t0 + h) - q t0 - h • v t0) (𝓝 0) (𝓝 0) := by
    have := hd'.self_of_nhds.continuousAt.tendsto
    simpa using this
  have hJ1 : Tendsto (fun h => v (t0 + h) - v t0) (𝓝 0) (𝓝 0) := by
    have := hd.self_of_nhds.continuousAt.tendsto
    simpa using this
  have hk := exact_exp [false, true] ((1, v t0, 0) : ℝ × V × V) ι hP (k := fun h => (f (t0 + h) (q (t0 + h)) (v (t0 + h))).1)
    (J := fun κ h => if κ then v (t0 + h) - v t0 else q (t0 + h) - q t0 - h • v t0)
    (Eventually.of_forall fun h => by simp [hι]) (fun κ _ => by cases κ; exacts [hJ0, hJ1]) (fun κ _ n a ha => by
      cases κ
      · exact exp_twice hd h0 hd' h0' n a ha
      · exact exp_once hd h0 n a ha)
  exact ⟨exp_once hd h0 n _ (hk n), exp_twice hd h0 hd' h0' n _ (hk n)⟩

theorem EERKN.general_accurate (m : EERKN) (p p' : ℕ) (ho : m.Orders [false, true] p p') (f : GeneralRightHandSide V) (t0 : ℝ) (q v : ℝ → V) (hsol : GeneralSolution f t0 q v) :
    m.Accurate f t0 q v p p' := by
  obtain ⟨P, hP⟩ := hsol.analytic
  set ι : Bool → V →L[ℝ] ℝ × V × V := fun κ =>
    if κ then (ContinuousLinearMap.inr ℝ ℝ (V × V)).comp (ContinuousLinearMap.inr ℝ V V) else (ContinuousLinearMap.inr ℝ ℝ (V × V)).comp (ContinuousLinearMap.inl ℝ V V) with hιdef
  have hι : ∀ w, ι false w = (0, w, 0) ∧ ι true w = (0, 0, w) := fun w => ⟨rfl, rfl⟩
  refine m.accurate_of_stageValue f t0 q v [false, true] (fun x : ℝ × V × V => (f x.1 x.2.1 x.2.2).1) (t0, q t0, v t0) (1, v t0, 0) ι p p' ho hP
    (fun n => (general_exp f t0 q v hsol hP ι hι n).1) (fun n => (general_exp f t0 q v hsol hP ι hι n).2) fun h i => ?_
  rw [stageValue_eq]
  simp [-map_sum, degree, add_assoc, hι]

/-! ### The tables -/

def EmbeddedTable.check (t : EmbeddedTable) (p p' : ℕ) : Bool :=
  checkRational [true] t.stages (fun i => t.c.getD i 0) (fun _ i j => (t.a.getD i []).getD j 0) (fun i => t.bHat.getD i 0) true p &&
  checkRational [true] t.stages (fun i => t.c.getD i 0) (fun _ i j => (t.a.getD i []).getD j 0) (fun i => t.b.getD i 0) true p'

def GeneralizedNystromTable.check (t : GeneralizedNystromTable) (kinds : List Bool) (p p' : ℕ) : Bool :=
  let cond := fun (w : List ℚ) κ p =>
    checkRational kinds t.stages (fun i => t.c.getD i 0) (fun κ i j => ((if κ then t.a' else t.a).getD i []).getD j 0) (fun i => w.getD i 0) κ p
  cond t.bHat false (p - 1) && cond t.bHat' true p && cond t.b false (p' - 1) && cond t.b' true p' && decide (0 < p) && decide (0 < p')

theorem GeneralizedNystromTable.check_spec (t : GeneralizedNystromTable) (kinds : List Bool) (p p' : ℕ) (h : t.check kinds p p' = true) : t.method.Orders kinds p p' := by
  simp only [GeneralizedNystromTable.check, Bool.and_eq_true, decide_eq_true_eq] at h
  obtain ⟨⟨⟨⟨⟨h1, h2⟩, h3⟩, h4⟩, h5⟩, h6⟩ := h
  have ha : (fun κ i j => ((((if κ then t.a' else t.a).getD i []).getD j 0 : ℚ) : ℝ)) = fun κ : Bool => if κ then t.method.a' else t.method.a := by
    funext κ i j
    cases κ <;> rfl
  have key : ∀ (w : List ℚ) κ p, checkRational kinds t.stages (fun i => t.c.getD i 0) (fun κ i j => ((if κ then t.a' else t.a).getD i []).getD j 0) (fun i => w.getD i 0) κ p = true →
      Conditions kinds t.stages t.method.c (fun κ => if κ then t.method.a' else t.method.a) (fun i => ((w.getD i 0 : ℚ) : ℝ)) κ p := by
    intro w κ p hc φ hu ho
    have := checkRational_spec _ _ _ _ _ _ _ hc φ hu ho
    rw [ha] at this
    exact this
  exact ⟨key _ _ _ h1, key _ _ _ h2, key _ _ _ h3, key _ _ _ h4, h5, h6⟩

theorem EmbeddedTable.check_spec (t : EmbeddedTable) (p p' : ℕ) (h : t.check p p' = true) :
    Conditions [true] t.method.stages t.method.c (fun _ => t.method.a) t.method.b true p ∧ Conditions [true] t.method.stages t.method.c (fun _ => t.method.a) t.method.bLow true p' := by
  rw [EmbeddedTable.check, Bool.and_eq_true] at h
  exact ⟨fun φ hu ho => checkRational_spec _ _ _ _ _ _ _ h.1 φ hu ho, fun φ hu ho => checkRational_spec _ _ _ _ _ _ _ h.2 φ hu ho⟩

/-! ### C45 -/

/-- The two methods embedded in `DormandPrince1986RK547FC` have the orders that are stated for it, 5 and 4. -/
theorem C45_embedded_runge_kutta_order (f : RightHandSide V) (t0 : ℝ) (y : ℝ → V) (hsol : FirstOrderSolution f t0 y) :
    ∃ K, ∀ᶠ h in 𝓝 0, ∀ x' e, Methods.dormandPrince1986RK547FC.method.IsStep f h ⟨t0, y t0⟩ x' e →
      ‖x'.y - y (t0 + h)‖ ≤ K * |h| ^ (Methods.dormandPrince1986RK547FC.higherOrder + 1) ∧ ‖x'.y + e - y (t0 + h)‖ ≤ K * |h| ^ (Methods.dormandPrince1986RK547FC.lowerOrder + 1) := by
  have h := Methods.dormandPrince1986RK547FC.check_spec 5 4 (by decide +kernel)
  exact EERK.order _ 5 4 h.1 h.2 f t0 y hsol

/-- The two methods embedded in `DormandElMikkawyPrince1986RKN434FM` have the orders that are stated for it, 4 and 3. -/
theorem C45_embedded_nystrom_order (f : RightHandSide V) (t0 : ℝ) (q v : ℝ → V) (hsol : SecondOrderSolution f t0 q v) :
    Methods.dormandElMikkawyPrince1986RKN434FM.method.Accurate f.general t0 q v Methods.dormandElMikkawyPrince1986RKN434FM.higherOrder Methods.dormandElMikkawyPrince1986RKN434FM.lowerOrder :=
  EERKN.special_accurate _ 4 3 (GeneralizedNystromTable.check_spec _ [false] 4 3 (by decide +kernel)) f t0 q v hsol

/-- The two methods embedded in `Fine1987RKNG45` have the orders that are stated for it, 5 and 4. -/
theorem C45_embedded_generalized_nystrom_order (f : GeneralRightHandSide V) (t0 : ℝ) (q v : ℝ → V) (hsol : GeneralSolution f t0 q v) :
    Methods.fine1987RKNG45.method.Accurate f t0 q v Methods.fine1987RKNG45.higherOrder Methods.fine1987RKNG45.lowerOrder :=
  EERKN.general_accurate _ 5 4 (GeneralizedNystromTable.check_spec _ [false, true] 5 4 (by decide +kernel)) f t0 q v hsol

/-- `Fine1987RKNG34` has the orders that are stated for it, 4 and 3, for the equations where the acceleration doesn't depend on the velocity. -/
theorem C45_fine34_velocity_independent_order (f : RightHandSide V) (t0 : ℝ) (q v : ℝ → V) (hsol : SecondOrderSolution f t0 q v) :
    Methods.fine1987RKNG34.method.Accurate f.general t0 q v Methods.fine1987RKNG34.higherOrder Methods.fine1987RKNG34.lowerOrder :=
  EERKN.special_accurate _ 4 3 (GeneralizedNystromTable.check_spec _ [false] 4 3 (by decide +kernel)) f t0 q v hsol

/-- `Fine1987RKNG34` where the coefficient `-234 / 128.0` at integrators/methods.hpp:560 is replaced by `-243 / 128.0`, so that the sum of the coefficients of the stage is its node. -/
def fine1987RKNG34Corrected : GeneralizedNystromTable where
  toNystromTable := Methods.fine1987RKNG34.toNystromTable
  a' := [[], [2 / 9], [1 / 12, 1 / 4], [69 / 128, -243 / 128, 135 / 64], [-17 / 12, 27 / 4, -27 / 5, 16 / 15]]

/-- With this change the method has the orders that are stated for it, 4 and 3. -/
theorem C45_fine34_corrected_order (f : GeneralRightHandSide V) (t0 : ℝ) (q v : ℝ → V) (hsol : GeneralSolution f t0 q v) :
    fine1987RKNG34Corrected.method.Accurate f t0 q v Methods.fine1987RKNG34.higherOrder Methods.fine1987RKNG34.lowerOrder :=
  EERKN.general_accurate _ 4 3 (GeneralizedNystromTable.check_spec _ [false, true] 4 3 (by decide +kernel)) f t0 q v hsol

/-- The equation `qʺ = qʹ`, one solution of which is the exponential. -/
theorem generalExponential : GeneralSolution (V := ℝ) (fun _ _ v => (v, .ok)) 0 Real.exp Real.exp where
  analytic := analyticAt_snd.comp analyticAt_snd
  velocity := Eventually.of_forall Real.hasDerivAt_exp
  acceleration := Eventually.of_forall Real.hasDerivAt_exp

/-- The stages of a step for that equation. -/
noncomputable def fine34Stage (h : ℝ) : ℕ → ℝ
  | 0 => 1
  | 1 => 1 + 2 / 9 * h
  | 2 => 1 + 1 / 3 * h + 1 / 18 * h ^ 2
  | 3 => 1 + 105 / 128 * h + 19 / 64 * h ^ 2 + 15 / 128 * h ^ 3
  | _ => 1 + h + 23 / 40 * h ^ 2 + 1 / 60 * h ^ 3 + 1 / 8 * h ^ 4

theorem fine34_step (h : ℝ) : ∃ x' e, Methods.fine1987RKNG34.method.IsStep (V := ℝ) (fun _ _ v => (v, .ok)) h ⟨0, Real.exp 0, Real.exp 0⟩ x' e ∧
    x'.velocities = 1 + h + 21 / 40 * h ^ 2 + 257 / 1440 * h ^ 3 + 31 / 720 * h ^ 4 + 1 / 96 * h ^ 5 := by
  refine ⟨_, _, ⟨fine34Stage h, fun i hi => ?_, rfl, rfl⟩, ?_⟩
  · change i < 5 at hi
    interval_cases i <;> simp [Finset.sum_range_succ, fine34Stage, GeneralizedNystromTable.method, Methods.fine1987RKNG34] <;> ring
  · simp [Finset.sum_range_succ, fine34Stage, GeneralizedNystromTable.method, Methods.fine1987RKNG34]
    ring

/-- With the coefficients given in the code, `Fine1987RKNG34` doesn't have the orders that are stated for it: for the equation `qʺ = qʹ`, whose solutions are the exponentials, it is not even of order 2. -/
theorem C45_fine34_counterexample :
    GeneralSolution (V := ℝ) (fun _ _ v => (v, .ok)) 0 Real.exp Real.exp ∧
    ¬ Methods.fine1987RKNG34.method.Accurate (V := ℝ) (fun _ _ v => (v, .ok)) 0 Real.exp Real.exp Methods.fine1987RKNG34.higherOrder Methods.fine1987RKNG34.lowerOrder ∧
    ¬ ∃ K, ∀ᶠ h in 𝓝 0, ∀ x' e, Methods.fine1987RKNG34.method.IsStep (V := ℝ) (fun _ _ v => (v, .ok)) h ⟨0, Real.exp 0, Real.exp 0⟩ x' e → ‖x'.velocities - Real.exp (0 + h)‖ ≤ K * |h| ^ (2 + 1) := by
  have key : ¬ ∃ K, ∀ᶠ h in 𝓝 0, ∀ x' e, Methods.fine1987RKNG34.method.IsStep (V := ℝ) (fun _ _ v => (v, .ok)) h ⟨0, Real.exp 0, Real.exp 0⟩ x' e →
      ‖x'.velocities - Real.exp (0 + h)‖ ≤ K * |h| ^ (2 + 1) := by
    rintro ⟨K, hK⟩
    obtain ⟨ε, hε, hball⟩ := Metric.eventually_nhds_iff.mp hK
    set h : ℝ := min (ε / 2) (1 / (80 * (|K| + 2))) with hh
    have hKn := abs_nonneg K
    have hpos : 0 < h := lt_min (by positivity) (by positivity)
    have h1 : h ≤ 1 / (80 * (|K| + 2)) := min_le_right _ _
    have h2 : h * (80 * (|K| + 2)) ≤ 1 := by rwa [le_div_iff₀ (by positivity)] at h1
    have h3 : h ≤ 1 := by nlinarith
    obtain ⟨x', e, hs, hv⟩ := fine34_step h
    have h4 := hball (show dist h 0 < ε by
      rw [Real.dist_0_eq_abs, abs_of_pos hpos]
      exact lt_of_le_of_lt (min_le_left _ _) (by linarith)) x' e hs
    rw [hv, zero_add, Real.norm_eq_abs, abs_of_pos hpos] at h4
    have h5 := Real.exp_bound (x := h) (by rw [abs_of_pos hpos]; exact h3) (n := 3) (by norm_num)
    simp only [Finset.sum_range_succ, Finset.sum_range_zero, Nat.factorial, abs_of_pos hpos] at h5
    norm_num at h5
    have h6 := (abs_le.mp h4).2
    have h7 := (abs_le.mp h5).2
    have h8 : K * h ^ 3 ≤ |K| * h ^ 3 := mul_le_mul_of_nonneg_right (le_abs_self K) (by positivity)
    have h9 : h ^ 2 * (h * (80 * (|K| + 2))) ≤ h ^ 2 * 1 := mul_le_mul_of_nonneg_left h2 (by positivity)
    have h10 : 0 < h ^ 2 := by positivity
    have h11 : 0 < h ^ 3 := by positivity
    have h12 : 0 < h ^ 4 := by positivity
    have h13 : 0 < h ^ 5 := by positivity
    have h14 : 0 ≤ |K| * h ^ 3 := by positivity
    nlinarith
  refine ⟨generalExponential, fun ⟨K, hK⟩ => key ⟨K, ?_⟩, key⟩
  have hone : ∀ᶠ h : ℝ in 𝓝 0, |h| ≤ 1 := by
    filter_upwards [Metric.ball_mem_nhds (0 : ℝ) one_pos] with h h1
    rw [Metric.mem_ball, dist_zero_right, Real.norm_eq_abs] at h1
    exact h1.le
  filter_upwards [hK, hone] with h hh h1 x' e hs
  have h2 := (hh x' e hs).1.2
  refine h2.trans ?_
  have hK0 : 0 ≤ K * |h| ^ (4 + 1) := (norm_nonneg _).trans h2
  rcases (abs_nonneg h).eq_or_lt with h3 | h3
  · rw [← h3]
    simp [Methods.fine1987RKNG34]
  · have hK1 : 0 ≤ K := by
      by_contra hc
      push Not at hc
      have : 0 < |h| ^ (4 + 1) := by positivity
      nlinarith
    exact mul_le_mul_of_nonneg_left (pow_le_pow_of_le_one (abs_nonneg h) h1 (by decide)) hK1

/-! The hypotheses are met. -/

example : ∃ K, ∀ᶠ h in 𝓝 0, ∀ x' e, Methods.dormandPrince1986RK547FC.method.IsStep (V := ℝ) (fun _ y => (y, .ok)) h ⟨0, Real.exp 0⟩ x' e →
    ‖x'.y - Real.exp (0 + h)‖ ≤ K * |h| ^ (5 + 1) ∧ ‖x'.y + e - Real.exp (0 + h)‖ ≤ K * |h| ^ (4 + 1) := C45_embedded_runge_kutta_order _ _ _ exponential

example : Methods.dormandElMikkawyPrince1986RKN434FM.method.Accurate (V := ℝ) (RightHandSide.general fun _ q => (-q, .ok)) 0 Real.cos (fun t => -Real.sin t) 4 3 :=
  C45_embedded_nystrom_order _ _ _ _ oscillator

example : Methods.fine1987RKNG45.method.Accurate (V := ℝ) (fun _ _ v => (v, .ok)) 0 Real.exp Real.exp 5 4 := C45_embedded_generalized_nystrom_order _ _ _ _ generalExponential

end Principia.Integrators
