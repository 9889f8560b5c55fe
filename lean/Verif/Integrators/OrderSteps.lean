import Verif.Integrators.FixedStepModel
import Verif.Integrators.OrderTheory
import Mathlib.Analysis.Calculus.Deriv.Shift

/-!
The local error of the steps of the one-step integrators, in terms of the order conditions.
-/

set_option linter.unusedSimpArgs false
set_option linter.unusedVariables false
set_option linter.unusedSectionVars false

namespace Principia.Integrators

open Asymptotics Filter Topology

/-! ### From expansions to bounds -/

section Bounds

variable {E : Type*} [NormedAddCommGroup E] [NormedSpace ℝ E]

theorem HasExp.bound {n : ℕ} {g : ℝ → E} {a : ℕ → E} (hg : HasExp n g a) (h0 : a 0 = 0) {ε : ℝ} (hε : 0 ≤ ε) {D : ℕ → ℝ} (hD : ∀ m, 0 ≤ D m) (ha : ∀ m < n, ‖a m‖ ≤ ε * D m) :
    ∃ K, ∀ᶠ h : ℝ in 𝓝 0, ‖g h‖ ≤ ε * (∑ m ∈ Finset.range n, D m) * |h| + K * |h| ^ n := by
  obtain ⟨K, hK⟩ := IsBigO.bound hg
  refine ⟨K, ?_⟩
  filter_upwards [hK, Metric.ball_mem_nhds (0 : ℝ) one_pos] with h hh h1
  have habs : |h| ≤ 1 := by
    rw [Metric.mem_ball, dist_zero_right, Real.norm_eq_abs] at h1
    exact h1.le
  have hsum : ‖∑ m ∈ Finset.range n, h ^ m • a m‖ ≤ ε * (∑ m ∈ Finset.range n, D m) * |h| := by
    refine (norm_sum_le _ _).trans ?_
    rw [Finset.mul_sum, Finset.sum_mul]
    refine Finset.sum_le_sum fun m hm => ?_
    rw [norm_smul, norm_pow, Real.norm_eq_abs]
    rcases Nat.eq_zero_or_pos m with rfl | hpos
    · rw [h0, norm_zero, mul_zero]
      exact mul_nonneg (mul_nonneg hε (hD 0)) (abs_nonneg _)
    · have h2 : |h| ^ m ≤ |h| := by simpa using pow_le_pow_of_le_one (abs_nonneg h) habs hpos
      calc |h| ^ m * ‖a m‖ ≤ |h| * (ε * D m) := mul_le_mul h2 (ha m (Finset.mem_range.mp hm)) (norm_nonneg _) (abs_nonneg _)
        _ = ε * D m * |h| := mul_comm _ _
  have h3 : g h = (g h - ∑ m ∈ Finset.range n, h ^ m • a m) + ∑ m ∈ Finset.range n, h ^ m • a m := by abel
  rw [h3]
  refine (norm_add_le _ _).trans ?_
  rw [norm_pow, Real.norm_eq_abs] at hh
  linarith

end Bounds

variable {U V : Type*} [NormedAddCommGroup U] [NormedSpace ℝ U] [NormedAddCommGroup V] [NormedSpace ℝ V]

theorem valueCoeff_bound (kinds : List Bool) (x1 : U) (ι : Bool → V →L[ℝ] U) (p : FormalMultilinearSeries ℝ U V) (w : Forest → ℝ) (m : ℕ) (ε : ℝ)
    (hw : ∀ φ : Forest, φ.Uses kinds → φ.order = m → |w φ| ≤ ε) :
    ‖valueCoeff kinds x1 ι p w m‖ ≤ ε * ((forests kinds m).map fun φ => ‖φ.differential x1 ι p‖).sum := by
  rw [valueCoeff]
  have hw' : ∀ φ ∈ forests kinds m, |w φ| ≤ ε := fun φ hφ => by
    rw [mem_forests] at hφ
    exact hw φ hφ.2 hφ.1
  generalize forests kinds m = l at hw'
  induction l with
  | nil => simp
  | cons φ l ih =>
    rw [List.map_cons, List.sum_cons, List.map_cons, List.sum_cons, mul_add]
    refine (norm_add_le _ _).trans (add_le_add ?_ (ih fun ψ hψ => hw' ψ (by simp [hψ])))
    rw [norm_smul, Real.norm_eq_abs]
    exact mul_le_mul_of_nonneg_right (hw' φ (by simp)) (norm_nonneg _)

theorem sum_norm_nonneg (l : List Forest) (x1 : U) (ι : Bool → V →L[ℝ] U) (p : FormalMultilinearSeries ℝ U V) : 0 ≤ (l.map fun φ => ‖φ.differential x1 ι p‖).sum := by
  refine List.sum_nonneg fun x hx => ?_
  obtain ⟨φ, _, rfl⟩ := List.mem_map.mp hx
  exact norm_nonneg _

/-! ### The primitives of the right-hand side along a solution -/

theorem exp_once {k J : ℝ → V} (hd : ∀ᶠ h in 𝓝 (0 : ℝ), HasDerivAt J (k h) h) (h0 : J 0 = 0) (n : ℕ) (a : ℕ → V) (hk : HasExp n k a) : HasExp (n + degree true) J (integratedTimes true a) :=
  HasExp.integral hd h0 hk

theorem exp_twice {k J J' : ℝ → V} (hd : ∀ᶠ h in 𝓝 (0 : ℝ), HasDerivAt J (k h) h) (h0 : J 0 = 0) (hd' : ∀ᶠ h in 𝓝 (0 : ℝ), HasDerivAt J' (J h) h) (h0' : J' 0 = 0) (n : ℕ) (a : ℕ → V)
    (hk : HasExp n k a) : HasExp (n + degree false) J' (integratedTimes false a) :=
  HasExp.integral hd' h0' (HasExp.integral hd h0 hk)

theorem eventually_shift {P : ℝ → Prop} {t0 : ℝ} (h : ∀ᶠ t in 𝓝 t0, P t) : ∀ᶠ h in 𝓝 (0 : ℝ), P (t0 + h) := by
  have : Tendsto (fun h : ℝ => t0 + h) (𝓝 0) (𝓝 t0) := by
    have := (by fun_prop : Continuous fun h : ℝ => t0 + h).tendsto 0
    rwa [add_zero] at this
  exact this.eventually h

/-! ### The explicit Runge-Kutta methods -/

/-- The right-hand side, as a function of one argument. -/
def RightHandSide.uncurried (f : RightHandSide V) (x : ℝ × V) : V := (f x.1 x.2).1

/-- The order conditions, up to an error of `ε`. -/
def ERK.OrderConditions (m : ERK) (p : ℕ) (ε : ℝ) : Prop :=
  ∀ φ : Forest, φ.Uses [true] → φ.order < p → |∑ i ∈ Finset.range m.stages, m.b i * φ.stage m.c (fun _ => m.a) i - φ.exact / (φ.order + 1)| ≤ ε

/-- The value of the right-hand side at a stage. -/
noncomputable def ERK.value (m : ERK) (f : RightHandSide V) (h : ℝ) (x : FState V) (i : ℕ) : V :=
  stageValue [true] f.uncurried (x.s, x.y) (1, 0) (fun _ => ContinuousLinearMap.inr ℝ ℝ V) m.c (fun _ => m.a) h i

theorem ERK.value_eq (m : ERK) (f : RightHandSide V) (h : ℝ) (x : FState V) (i : ℕ) :
    m.value f h x i = (f (x.s + m.c i * h) (x.y + h • ∑ j ∈ Finset.range i, m.a i j • m.value f h x j)).1 := by
  rw [ERK.value, stageValue_eq]
  simp [-map_sum, RightHandSide.uncurried, degree, ERK.value]

theorem ERK.stages_eq (m : ERK) (f : RightHandSide V) (h : ℝ) (x : FState V) (lastF : V) (hl : m.firstSameAsLast = true → lastF = (f x.s x.y).1) (hc : m.firstSameAsLast = true → m.c 0 = 0)
    (status : Status) (n : ℕ) :
    ((List.range n).foldl (m.stage f h x lastF) { k := [], f := 0, status := status }).k = (List.range n).map fun i => h • m.value f h x i := by
  induction n with
  | zero => rfl
  | succ n ih =>
    rw [List.range_succ, List.foldl_append, List.foldl_cons, List.foldl_nil, List.map_append, List.map_cons, List.map_nil]
    generalize (List.range n).foldl (m.stage f h x lastF) { k := [], f := 0, status := status } = st at ih ⊢
    unfold ERK.stage
    split_ifs with hcond
    · obtain ⟨rfl, hf⟩ := hcond
      simp only [ih]
      rw [m.value_eq f h x 0, hl hf, hc hf]
      simp
    · simp only [ih]
      rw [m.value_eq f h x n]
      congr 6
      rw [Finset.smul_sum]
      refine Finset.sum_congr rfl fun j hj => ?_
      rw [List.getD_eq_getElem?_getD, List.getElem?_map, List.getElem?_range (Finset.mem_range.mp hj)]
      simp only [Option.map_some, Option.getD_some]
      exact smul_comm _ _ _

theorem ERK.step_eq (m : ERK) (f : RightHandSide V) (h : ℝ) (x : FState V) (hc : m.firstSameAsLast = true → m.c 0 = 0) (status : Status) :
    ((m.stepper f).advance h x ((m.stepper f).start x).1 status).1.y = x.y + h • ∑ i ∈ Finset.range m.stages, m.b i • m.value f h x i := by
  show x.y + ∑ i ∈ Finset.range m.stages, m.b i • (m.allStages f h x ((m.stepper f).start x).1 status).k.getD i 0 = _
  have h1 : (m.allStages f h x ((m.stepper f).start x).1 status).k = (List.range m.stages).map fun i => h • m.value f h x i := by
    refine m.stages_eq f h x _ (fun hf => ?_) hc status m.stages
    show (if m.firstSameAsLast = true then f x.s x.y else (0, .ok)).1 = _
    rw [if_pos hf]
  rw [h1, Finset.smul_sum]
  congr 1
  refine Finset.sum_congr rfl fun i hi => ?_
  rw [List.getD_eq_getElem?_getD, List.getElem?_map, List.getElem?_range (Finset.mem_range.mp hi)]
  simp only [Option.map_some, Option.getD_some]
  exact smul_comm _ _ _

/-- The expansion of the right-hand side along a solution, and of the solution itself. -/
theorem first_order_exp (f : RightHandSide V) (t0 : ℝ) (y : ℝ → V) {p : FormalMultilinearSeries ℝ (ℝ × V) V} (hf : HasFPowerSeriesAt f.uncurried p (t0, y t0))
    (hy : ∀ᶠ t in 𝓝 t0, HasDerivAt y (f t (y t)).1 t) (n : ℕ) :
    HasExp n (fun h => (f (t0 + h) (y (t0 + h))).1) (valueCoeff [true] (1, 0) (fun _ => ContinuousLinearMap.inr ℝ ℝ V) p Forest.exact) ∧
    HasExp (n + degree true) (fun h => y (t0 + h) - y t0) (integratedTimes true (valueCoeff [true] (1, 0) (fun _ => ContinuousLinearMap.inr ℝ ℝ V) p Forest.exact)) := by
  have hd : ∀ᶠ h in 𝓝 (0 : ℝ), HasDerivAt (fun h => y (t0 + h) - y t0) (f (t0 + h) (y (t0 + h))).1 h := by
    filter_upwards [eventually_shift hy] with h hh
    exact (HasDerivAt.comp_const_add t0 h hh).sub_const _
  have h0 : (fun h => y (t0 + h) - y t0) 0 = 0 := by simp
  have hJ0 : Tendsto (fun h => y (t0 + h) - y t0) (𝓝 0) (𝓝 0) := by
    have := hd.self_of_nhds.continuousAt.tendsto
    simpa using this
  have hk := exact_exp [true] ((1, 0) : ℝ × V) (fun _ => ContinuousLinearMap.inr ℝ ℝ V) hf (k := fun h => (f (t0 + h) (y (t0 + h))).1) (J := fun _ h => y (t0 + h) - y t0)
    (Eventually.of_forall fun h => by simp [RightHandSide.uncurried]) (fun κ _ => hJ0) (fun κ hκ n a ha => by
      obtain rfl : κ = true := by simpa using hκ
      exact exp_once hd h0 n a ha)
  exact ⟨hk n, exp_once hd h0 n _ (hk n)⟩

theorem ERK.local_error (f : RightHandSide V) (t0 : ℝ) (y : ℝ → V) (hf : AnalyticAt ℝ f.uncurried (t0, y t0)) (hy : ∀ᶠ t in 𝓝 t0, HasDerivAt y (f t (y t)).1 t) (p : ℕ) :
    ∃ C, ∀ m : ERK, (m.firstSameAsLast = true → m.c 0 = 0) → ∀ ε, 0 ≤ ε → m.OrderConditions p ε → ∃ K, ∀ status, ∀ᶠ h in 𝓝 0,
      ‖((m.stepper f).advance h ⟨t0, y t0⟩ ((m.stepper f).start ⟨t0, y t0⟩).1 status).1.y - y (t0 + h)‖ ≤ ε * C * |h| + K * |h| ^ (p + 1) := by
  obtain ⟨P, hP⟩ := hf
  set D : ℕ → ℝ := fun m => ((forests [true] (m - degree true)).map fun φ => ‖φ.differential ((1, 0) : ℝ × V) (fun _ => ContinuousLinearMap.inr ℝ ℝ V) P‖).sum with hDdef
  refine ⟨∑ m ∈ Finset.range (p + 1), D m, fun m hc ε hε hcond => ?_⟩
  have hdef := defect_exp [true] ((1, 0) : ℝ × V) (fun _ => ContinuousLinearMap.inr ℝ ℝ V) hP m.c (fun _ => m.a) m.b m.stages true (first_order_exp f t0 y hP hy p).2
  obtain ⟨K, hK⟩ := hdef.bound (by simp [degree]) hε (D := D) (fun m => sum_norm_nonneg _ _ _ _) (fun i hi => by
    by_cases h1 : degree true ≤ i
    · rw [if_pos h1]
      refine valueCoeff_bound _ _ _ _ _ _ _ fun φ hφ ho => ?_
      simp only [if_true]
      refine hcond φ hφ ?_
      simp only [degree, if_true] at hi h1 ho
      omega
    · rw [if_neg h1, norm_zero]
      exact mul_nonneg hε (sum_norm_nonneg _ _ _ _))
  refine ⟨K, fun status => ?_⟩
  filter_upwards [hK] with h hh
  rw [m.step_eq f h _ hc]
  refine Eq.trans_le ?_ hh
  congr 1
  simp only [ERK.value, degree, if_true, pow_one]
  abel

/-! ### The symplectic Runge-Kutta-Nyström methods -/

/-- The coefficients of the method, seen as a Runge-Kutta-Nyström method. -/
noncomputable def SRKN.nystrom (m : SRKN) (i j : ℕ) : ℝ := m.b j * (m.c i - m.c j)

/-- The order conditions, up to an error of `ε`. -/
structure SRKN.OrderConditions (m : SRKN) (p : ℕ) (ε : ℝ) : Prop where
  sum : |m.c m.stages - 1| ≤ ε
  position (φ : Forest) : φ.Uses [false] → φ.order + 1 < p →
    |∑ i ∈ Finset.range m.stages, m.nystrom m.stages i * φ.stage m.c (fun _ => m.nystrom) i - φ.exact / ((φ.order + 1) * (φ.order + 2))| ≤ ε
  velocity (φ : Forest) : φ.Uses [false] → φ.order < p → |∑ i ∈ Finset.range m.stages, m.b i * φ.stage m.c (fun _ => m.nystrom) i - φ.exact / (φ.order + 1)| ≤ ε

/-- The value of the right-hand side at a stage. -/
noncomputable def SRKN.value (m : SRKN) (f : RightHandSide V) (h : ℝ) (x : NState V) (i : ℕ) : V :=
  stageValue [false] f.uncurried (x.time, x.positions) (1, x.velocities) (fun _ => ContinuousLinearMap.inr ℝ ℝ V) m.c (fun _ => m.nystrom) h i

theorem SRKN.value_eq (m : SRKN) (f : RightHandSide V) (h : ℝ) (x : NState V) (i : ℕ) :
    m.value f h x i = (f (x.time + m.c i * h) (x.positions + ((h * m.c i) • x.velocities + (h * h) • ∑ j ∈ Finset.range i, m.nystrom i j • m.value f h x j))).1 := by
  rw [SRKN.value, stageValue_eq]
  simp [-map_sum, RightHandSide.uncurried, degree, SRKN.value, pow_two, mul_comm h]

theorem SRKN.c_succ (m : SRKN) (i : ℕ) : m.c (i + 1) = m.c i + m.a i := Finset.sum_range_succ _ _

theorem SRKN.nystrom_sum_succ (m : SRKN) (k : ℕ → V) (i : ℕ) :
    ∑ j ∈ Finset.range (i + 1), m.nystrom (i + 1) j • k j = ∑ j ∈ Finset.range i, m.nystrom i j • k j + m.a i • ∑ j ∈ Finset.range (i + 1), m.b j • k j := by
  have h1 : ∀ j, m.nystrom (i + 1) j • k j = m.nystrom i j • k j + m.a i • m.b j • k j := by
    intro j
    rw [SRKN.nystrom, SRKN.nystrom, m.c_succ, smul_smul, ← add_smul]
    congr 1
    ring
  simp only [h1, Finset.sum_add_distrib, Finset.smul_sum]
  congr 1
  rw [Finset.sum_range_succ]
  simp [SRKN.nystrom]

/-- The increments before stage `i`. -/
noncomputable def SRKN.At (m : SRKN) (f : RightHandSide V) (h : ℝ) (x : NState V) (i : ℕ) (s : Stage V) : Prop :=
  s.dq = (h * m.c i) • x.velocities + (h * h) • ∑ j ∈ Finset.range i, m.nystrom i j • m.value f h x j ∧ s.dv = h • ∑ j ∈ Finset.range i, m.b j • m.value f h x j

theorem SRKN.stage_at (m : SRKN) (f : RightHandSide V) (h : ℝ) (x : NState V) (i : ℕ) (s : Stage V) (hs : m.At f h x i s) : m.At f h x (i + 1) (m.stage f h x s i) := by
  obtain ⟨hq, hv⟩ := hs
  have hr : (f (x.time + m.c i * h) (x.positions + s.dq)).1 = m.value f h x i := by rw [m.value_eq, hq]
  have hdv : s.dv + (h * m.b i) • (f (x.time + m.c i * h) (x.positions + s.dq)).1 = h • ∑ j ∈ Finset.range (i + 1), m.b j • m.value f h x j := by
    rw [hr, hv, Finset.sum_range_succ, smul_add, smul_smul]
  refine ⟨?_, hdv⟩
  show s.dq + (h * m.a i) • (x.velocities + (s.dv + (h * m.b i) • (f (x.time + m.c i * h) (x.positions + s.dq)).1)) = _
  rw [hdv, hq, m.nystrom_sum_succ, m.c_succ]
  module

theorem SRKN.initial_at (m : SRKN) (f : RightHandSide V) (h : ℝ) (x : NState V) (hb : m.composition = .ABA → m.b 0 = 0) (status : Status) :
    m.At f h x m.firstStage (m.initialStage h x ((m.stepper f).start x).1 status) := by
  have hst : ((m.stepper f).start x).1 = (match m.composition with | .BAB => ((f x.time x.positions).1, Status.ok.update (f x.time x.positions).2) | _ => (0, .ok)).1 := rfl
  have hc1 : m.c 1 = m.a 0 := by simp [SRKN.c]
  have hc0 : m.c 0 = 0 := by simp [SRKN.c]
  have hn : m.nystrom 1 0 = m.b 0 * m.a 0 := by rw [SRKN.nystrom, hc1, hc0, sub_zero]
  unfold SRKN.At SRKN.firstStage SRKN.initialStage
  rcases hcomp : m.composition with _ | _ | _
  · simp [hc0]
  · simp [hc1, hn, hb hcomp]
  · rw [hst, hcomp]
    have hv0 : m.value f h x 0 = (f x.time x.positions).1 := by
      rw [m.value_eq, hc0]
      simp
    simp only [Finset.sum_range_one, hv0, hc1, hn, smul_add, smul_smul]
    refine ⟨?_, trivial⟩
    congr 2
    ring

theorem SRKN.stages_at (m : SRKN) (f : RightHandSide V) (h : ℝ) (x : NState V) : ∀ (n i : ℕ) (s : Stage V), m.At f h x i s → m.At f h x (i + n) ((List.range' i n).foldl (m.stage f h x) s)
  | 0, i, s, hs => hs
  | n + 1, i, s, hs => by
    rw [List.range'_succ, List.foldl_cons, show i + (n + 1) = i + 1 + n by omega]
    exact SRKN.stages_at m f h x n (i + 1) _ (m.stage_at f h x i s hs)

theorem SRKN.step_eq (m : SRKN) (f : RightHandSide V) (h : ℝ) (x : NState V) (hs : m.firstStage ≤ m.stages) (hb : m.composition = .ABA → m.b 0 = 0) (status : Status) :
    ((m.stepper f).advance h x ((m.stepper f).start x).1 status).1.positions =
      x.positions + ((h * m.c m.stages) • x.velocities + (h * h) • ∑ j ∈ Finset.range m.stages, m.nystrom m.stages j • m.value f h x j) ∧
    ((m.stepper f).advance h x ((m.stepper f).start x).1 status).1.velocities = x.velocities + h • ∑ j ∈ Finset.range m.stages, m.b j • m.value f h x j := by
  have := m.stages_at f h x (m.stages - m.firstStage) m.firstStage _ (m.initial_at f h x hb status)
  rw [Nat.add_sub_cancel' hs] at this
  obtain ⟨h1, h2⟩ := this
  constructor
  · show x.positions + (m.allStages f h x ((m.stepper f).start x).1 status).dq = _
    unfold SRKN.allStages
    rw [h1]
  · show x.velocities + (m.allStages f h x ((m.stepper f).start x).1 status).dv = _
    unfold SRKN.allStages
    rw [h2]

/-- The expansion of the right-hand side along a solution of a second-order equation, and of the solution itself. -/
theorem second_order_exp (f : RightHandSide V) (t0 : ℝ) (q v : ℝ → V) {p : FormalMultilinearSeries ℝ (ℝ × V) V} (hf : HasFPowerSeriesAt f.uncurried p (t0, q t0))
    (hq : ∀ᶠ t in 𝓝 t0, HasDerivAt q (v t) t) (hv : ∀ᶠ t in 𝓝 t0, HasDerivAt v (f t (q t)).1 t) (n : ℕ) :
    HasExp n (fun h => (f (t0 + h) (q (t0 + h))).1) (valueCoeff [false] (1, v t0) (fun _ => ContinuousLinearMap.inr ℝ ℝ V) p Forest.exact) ∧
    HasExp (n + degree true) (fun h => v (t0 + h) - v t0) (integratedTimes true (valueCoeff [false] (1, v t0) (fun _ => ContinuousLinearMap.inr ℝ ℝ V) p Forest.exact)) ∧
    HasExp (n + degree false) (fun h => q (t0 + h) - q t0 - h • v t0) (integratedTimes false (valueCoeff [false] (1, v t0) (fun _ => ContinuousLinearMap.inr ℝ ℝ V) p Forest.exact)) := by
  have hd : ∀ᶠ h in 𝓝 (0 : ℝ), HasDerivAt (fun h => v (t0 + h) - v t0) (f (t0 + h) (q (t0 + h))).1 h := by
    filter_upwards [eventually_shift hv] with h hh
    exact (HasDerivAt.comp_const_add t0 h hh).sub_const _
  have h0 : (fun h => v (t0 + h) - v t0) 0 = 0 := by simp
  have hd' : ∀ᶠ h in 𝓝 (0 : ℝ), HasDerivAt (fun h => q (t0 + h) - q t0 - h • v t0) (v (t0 + h) - v t0) h := by
    filter_upwards [eventually_shift hq] with h hh
    have h1 : HasDerivAt (fun h : ℝ => h • v t0) (v t0) h := by simpa using (hasDerivAt_id h).smul_const (v t0)
    exact ((HasDerivAt.comp_const_add t0 h hh).sub_const _).sub h1
  have h0' : (fun h : ℝ => q (t0 + h) - q t0 - h • v t0) 0 = 0 := by simp
  have hJ0 : Tendsto (fun h => q (t0 + h) - q t0 - h • v t0) (𝓝 0) (𝓝 0) := by
    have := hd'.self_of_nhds.continuousAt.tendsto
    simpa using this
  have hk := exact_exp [false] ((1, v t0) : ℝ × V) (fun _ => ContinuousLinearMap.inr ℝ ℝ V) hf (k := fun h => (f (t0 + h) (q (t0 + h))).1) (J := fun _ h => q (t0 + h) - q t0 - h • v t0)
    (Eventually.of_forall fun h => by simp [RightHandSide.uncurried]) (fun κ _ => hJ0) (fun κ hκ n a ha => by
      obtain rfl : κ = false := by simpa using hκ
      exact exp_twice hd h0 hd' h0' n a ha)
  exact ⟨hk n, exp_once hd h0 n _ (hk n), exp_twice hd h0 hd' h0' n _ (hk n)⟩

theorem SRKN.local_error (f : RightHandSide V) (t0 : ℝ) (q v : ℝ → V) (hf : AnalyticAt ℝ f.uncurried (t0, q t0)) (hq : ∀ᶠ t in 𝓝 t0, HasDerivAt q (v t) t)
    (hv : ∀ᶠ t in 𝓝 t0, HasDerivAt v (f t (q t)).1 t) (p : ℕ) :
    ∃ C, ∀ m : SRKN, m.firstStage ≤ m.stages → (m.composition = .ABA → m.b 0 = 0) → ∀ ε, 0 ≤ ε → m.OrderConditions p ε → ∃ K, ∀ status, ∀ᶠ h in 𝓝 0,
      ‖((m.stepper f).advance h ⟨t0, q t0, v t0⟩ ((m.stepper f).start ⟨t0, q t0, v t0⟩).1 status).1.positions - q (t0 + h)‖ ≤ ε * C * |h| + K * |h| ^ (p + 1) ∧
      ‖((m.stepper f).advance h ⟨t0, q t0, v t0⟩ ((m.stepper f).start ⟨t0, q t0, v t0⟩).1 status).1.velocities - v (t0 + h)‖ ≤ ε * C * |h| + K * |h| ^ (p + 1) := by
  obtain ⟨P, hP⟩ := hf
  set x1 : ℝ × V := (1, v t0) with hx1
  set ι : Bool → V →L[ℝ] ℝ × V := fun _ => ContinuousLinearMap.inr ℝ ℝ V with hι
  set D : ℕ → ℕ → ℝ := fun d m => ((forests [false] (m - d)).map fun φ => ‖φ.differential x1 ι P‖).sum with hDdef
  have hDnn : ∀ d m, 0 ≤ D d m := fun d m => sum_norm_nonneg _ _ _ _
  set C : ℝ := ∑ m ∈ Finset.range (p + 1), D 1 m + ∑ m ∈ Finset.range (p + 1), D 2 m + ‖v t0‖ with hC
  refine ⟨C, fun m hs hb ε hε hcond => ?_⟩
  obtain ⟨-, hexpv, hexpq⟩ := second_order_exp f t0 q v hP hq hv p
  have hdefv := defect_exp [false] x1 ι hP m.c (fun _ => m.nystrom) m.b m.stages true hexpv
  have hdefq := (defect_exp [false] x1 ι hP m.c (fun _ => m.nystrom) (m.nystrom m.stages) m.stages false hexpq).mono (show p + 1 ≤ p + degree false by simp [degree])
  obtain ⟨Kv, hKv⟩ := hdefv.bound (by simp [degree]) hε (D := D 1) (hDnn 1) (fun i hi => by
    by_cases h1 : degree true ≤ i
    · rw [if_pos h1]
      refine valueCoeff_bound _ _ _ _ _ _ _ fun φ hφ ho => ?_
      simp only [if_true]
      refine hcond.velocity φ hφ ?_
      simp only [degree, if_true] at hi h1 ho
      omega
    · rw [if_neg h1, norm_zero]
      exact mul_nonneg hε (hDnn _ _))
  obtain ⟨Kq, hKq⟩ := hdefq.bound (by simp [degree]) hε (D := D 2) (hDnn 2) (fun i hi => by
    by_cases h1 : degree false ≤ i
    · rw [if_pos h1]
      refine valueCoeff_bound _ _ _ _ _ _ _ fun φ hφ ho => ?_
      simp only [Bool.false_eq_true, if_false]
      refine hcond.position φ hφ ?_
      simp only [degree, Bool.false_eq_true, if_false] at hi h1 ho
      omega
    · rw [if_neg h1, norm_zero]
      exact mul_nonneg hε (hDnn _ _))
  refine ⟨max Kv Kq, fun status => ?_⟩
  have hsum1 : 0 ≤ ∑ m ∈ Finset.range (p + 1), D 1 m := Finset.sum_nonneg fun m _ => hDnn _ _
  have hsum2 : 0 ≤ ∑ m ∈ Finset.range (p + 1), D 2 m := Finset.sum_nonneg fun m _ => hDnn _ _
  filter_upwards [hKv, hKq] with h hhv hhq
  obtain ⟨hpos, hvel⟩ := m.step_eq f h ⟨t0, q t0, v t0⟩ hs hb status
  have hpow : 0 ≤ |h| ^ (p + 1) := by positivity
  have habs := abs_nonneg h
  constructor
  · rw [hpos]
    have hsplit : q t0 + ((h * m.c m.stages) • v t0 + (h * h) • ∑ j ∈ Finset.range m.stages, m.nystrom m.stages j • m.value f h ⟨t0, q t0, v t0⟩ j) - q (t0 + h) =
        (h * (m.c m.stages - 1)) • v t0 + (h ^ degree false • ∑ i ∈ Finset.range m.stages, m.nystrom m.stages i • stageValue [false] f.uncurried (t0, q t0) x1 ι m.c (fun _ => m.nystrom) h i -
          (q (t0 + h) - q t0 - h • v t0)) := by
      simp only [SRKN.value, degree, Bool.false_eq_true, if_false, pow_two]
      module
    rw [hsplit]
    refine (norm_add_le _ _).trans ?_
    have h1 : ‖(h * (m.c m.stages - 1)) • v t0‖ ≤ ε * ‖v t0‖ * |h| := by
      rw [norm_smul, norm_mul, Real.norm_eq_abs, Real.norm_eq_abs]
      have := mul_le_mul_of_nonneg_right hcond.sum (mul_nonneg habs (norm_nonneg (v t0)))
      nlinarith
    have h2 : Kq * |h| ^ (p + 1) ≤ max Kv Kq * |h| ^ (p + 1) := mul_le_mul_of_nonneg_right (le_max_right _ _) hpow
    have h3 : 0 ≤ ε * (∑ m ∈ Finset.range (p + 1), D 1 m) * |h| := mul_nonneg (mul_nonneg hε hsum1) habs
    have h4 : ε * C * |h| = ε * (∑ m ∈ Finset.range (p + 1), D 1 m) * |h| + ε * (∑ m ∈ Finset.range (p + 1), D 2 m) * |h| + ε * ‖v t0‖ * |h| := by rw [hC]; ring
    rw [h4]
    linarith
  · rw [hvel]
    have hsplit : v t0 + h • ∑ j ∈ Finset.range m.stages, m.b j • m.value f h ⟨t0, q t0, v t0⟩ j - v (t0 + h) =
        h ^ degree true • ∑ i ∈ Finset.range m.stages, m.b i • stageValue [false] f.uncurried (t0, q t0) x1 ι m.c (fun _ => m.nystrom) h i - (v (t0 + h) - v t0) := by
      simp only [SRKN.value, degree, if_true, pow_one]
      abel
    rw [hsplit]
    have h2 : Kv * |h| ^ (p + 1) ≤ max Kv Kq * |h| ^ (p + 1) := mul_le_mul_of_nonneg_right (le_max_left _ _) hpow
    have h3 : 0 ≤ ε * (∑ m ∈ Finset.range (p + 1), D 2 m) * |h| := mul_nonneg (mul_nonneg hε hsum2) habs
    have h5 : 0 ≤ ε * ‖v t0‖ * |h| := mul_nonneg (mul_nonneg hε (norm_nonneg _)) habs
    have h4 : ε * C * |h| = ε * (∑ m ∈ Finset.range (p + 1), D 1 m) * |h| + ε * (∑ m ∈ Finset.range (p + 1), D 2 m) * |h| + ε * ‖v t0‖ * |h| := by rw [hC]; ring
    rw [h4]
    refine hhv.trans ?_
    simp only [degree, if_true]
    linarith

end Principia.Integrators
