import Verif.Integrators.OrderCheck
import Verif.Integrators.MultistepOrder
import Mathlib.Analysis.SpecialFunctions.Trigonometric.Deriv
import Mathlib.Tactic.NormNum

/-!
The methods have the order that is stated for them.

A method has order `p` if a step of length `h` from a point of a solution of a differential equation ends at a point whose distance to the solution is O(hᵖ⁺¹).  For the multistep methods, the previous steps are
points of the solution.  The differential equation is arbitrary, as long as its right-hand side is analytic at the point where the step starts.
-/

set_option linter.unusedSimpArgs false
set_option linter.unusedVariables false
set_option linter.unusedSectionVars false

namespace Principia.Integrators

open Asymptotics Filter Topology

variable {V : Type*} [NormedAddCommGroup V] [NormedSpace ℝ V]

/-! ### What it is to be a solution -/

/-- `y` is a solution of `yʹ = f(t, y)` near `t0`, where `f` is analytic. -/
structure FirstOrderSolution (f : RightHandSide V) (t0 : ℝ) (y : ℝ → V) : Prop where
  analytic : AnalyticAt ℝ (fun x : ℝ × V => (f x.1 x.2).1) (t0, y t0)
  deriv : ∀ᶠ t in 𝓝 t0, HasDerivAt y (f t (y t)).1 t

/-- `q` is a solution of `qʺ = f(t, q)` near `t0`, where `f` is analytic, and `v` is its velocity. -/
structure SecondOrderSolution (f : RightHandSide V) (t0 : ℝ) (q v : ℝ → V) : Prop where
  analytic : AnalyticAt ℝ (fun x : ℝ × V => (f x.1 x.2).1) (t0, q t0)
  velocity : ∀ᶠ t in 𝓝 t0, HasDerivAt q (v t) t
  acceleration : ∀ᶠ t in 𝓝 t0, HasDerivAt v (f t (q t)).1 t

/-! ### The symplectic methods -/

/-- What the constructor of the integrator needs. -/
def SymplecticTable.wellFormed (t : SymplecticTable) : Bool :=
  decide (0 < t.order) && decide (1 < t.b.length) && decide (t.composition = .ABA → t.b.getD 0 0 = 0)

theorem symplectic_wellFormed : ∀ t ∈ Methods.symplectic, t.wellFormed = true := by decide +kernel

/-- The methods whose coefficients have been given with fewer correct digits. -/
def Methods.inexact : List PartitionedTable := [Methods.yoshida1990Order8C, Methods.yoshida1990Order8D]

deriving instance DecidableEq for SymplecticTable

set_option maxRecDepth 100000 in
theorem symplectic_check_exact : ∀ t ∈ Methods.symplectic, (∀ u ∈ Methods.inexact, ∀ c, t ≠ u.as c) → t.check t.order 15 = true := by
  have h : (Methods.symplectic.all fun t => t.check t.order 15 || Methods.inexact.any fun u => [Composition.BA, .ABA, .BAB].any fun c => decide (t = u.as c)) = true := by decide +kernel
  intro t ht hne
  rw [List.all_eq_true] at h
  have h1 := h t ht
  rw [Bool.or_eq_true, List.any_eq_true] at h1
  rcases h1 with h1 | ⟨u, hu, h2⟩
  · exact h1
  · rw [List.any_eq_true] at h2
    obtain ⟨c, _, h3⟩ := h2
    exact absurd (of_decide_eq_true h3) (hne u hu c)

set_option maxRecDepth 100000 in
theorem symplectic_check_inexact : ∀ u ∈ Methods.inexact, ∀ c ∈ [Composition.ABA, .BAB], (u.as c).check (u.as c).order 12 = true := by decide +kernel

theorem SRKN.OrderConditions.mono {m : SRKN} {p : ℕ} {ε ε' : ℝ} (h : m.OrderConditions p ε) (hε : ε ≤ ε') : m.OrderConditions p ε' :=
  ⟨h.sum.trans hε, fun φ h1 h2 => (h.position φ h1 h2).trans hε, fun φ h1 h2 => (h.velocity φ h1 h2).trans hε⟩

theorem SymplecticTable.order_pos {t : SymplecticTable} (h : t.wellFormed = true) : 0 < t.order := by
  rw [SymplecticTable.wellFormed, Bool.and_eq_true, Bool.and_eq_true, decide_eq_true_eq] at h
  exact h.1.1

theorem symplectic_conditions : ∀ t ∈ Methods.symplectic, t.method.OrderConditions t.order (1 / 10 ^ 12) := by
  intro t ht
  have hpos := SymplecticTable.order_pos (symplectic_wellFormed t ht)
  by_cases h : ∀ u ∈ Methods.inexact, ∀ c, t ≠ u.as c
  · exact (t.check_spec _ _ hpos (symplectic_check_exact t ht h)).mono (by norm_num)
  · push Not at h
    obtain ⟨u, hu, c, rfl⟩ := h
    refine SymplecticTable.check_spec _ _ _ hpos (symplectic_check_inexact u hu c ?_)
    cases c
    · revert ht
      simp only [Methods.inexact, List.mem_cons, List.not_mem_nil, or_false] at hu
      rcases hu with rfl | rfl
      · exact fun h => absurd h (by decide +kernel)
      · exact fun h => absurd h (by decide +kernel)
    · simp
    · simp

theorem symplectic_order_aux (f : RightHandSide V) (t0 : ℝ) (q v : ℝ → V) (hsol : SecondOrderSolution f t0 q v) (p : ℕ) :
    ∃ C, ∀ t : SymplecticTable, t.order = p → t.wellFormed = true → ∀ k, t.method.OrderConditions t.order (1 / 10 ^ k) → ∃ K, ∀ status, ∀ᶠ h in 𝓝 0,
      ‖((t.method.stepper f).advance h ⟨t0, q t0, v t0⟩ ((t.method.stepper f).start ⟨t0, q t0, v t0⟩).1 status).1.positions - q (t0 + h)‖ ≤ 1 / 10 ^ k * C * |h| + K * |h| ^ (p + 1) ∧
      ‖((t.method.stepper f).advance h ⟨t0, q t0, v t0⟩ ((t.method.stepper f).start ⟨t0, q t0, v t0⟩).1 status).1.velocities - v (t0 + h)‖ ≤ 1 / 10 ^ k * C * |h| + K * |h| ^ (p + 1) := by
  obtain ⟨C, hC⟩ := SRKN.local_error f t0 q v hsol.analytic hsol.velocity hsol.acceleration p
  refine ⟨C, fun t ht hw k hk => ?_⟩
  rw [SymplecticTable.wellFormed, Bool.and_eq_true, Bool.and_eq_true, decide_eq_true_eq, decide_eq_true_eq, decide_eq_true_eq] at hw
  refine hC t.method ?_ ?_ (1 / 10 ^ k) (by positivity) ?_
  · show (match t.composition with | .BA => 0 | _ => 1) ≤ t.b.length
    split <;> omega
  · intro hc
    show ((t.b.getD 0 0 : ℤ) : ℝ) / t.denominator = 0
    rw [hw.2 hc]
    simp
  · rw [← ht]
    exact hk

/-- Every symplectic integrator has the order that is stated for it, up to the accuracy with which its coefficients are given: the local error is `O(hᵖ⁺¹)`, plus the product of `h`, of 10⁻¹² and of a number that depends
on the equation and on the order of the method but not on the method. -/
theorem C45_symplectic_order (f : RightHandSide V) (t0 : ℝ) (q v : ℝ → V) (hsol : SecondOrderSolution f t0 q v) (p : ℕ) :
    ∃ C, ∀ t ∈ Methods.symplectic, t.order = p → ∃ K, ∀ status, ∀ᶠ h in 𝓝 0,
      ‖((t.method.stepper f).advance h ⟨t0, q t0, v t0⟩ ((t.method.stepper f).start ⟨t0, q t0, v t0⟩).1 status).1.positions - q (t0 + h)‖ ≤ 1 / 10 ^ 12 * C * |h| + K * |h| ^ (p + 1) ∧
      ‖((t.method.stepper f).advance h ⟨t0, q t0, v t0⟩ ((t.method.stepper f).start ⟨t0, q t0, v t0⟩).1 status).1.velocities - v (t0 + h)‖ ≤ 1 / 10 ^ 12 * C * |h| + K * |h| ^ (p + 1) := by
  obtain ⟨C, hC⟩ := symplectic_order_aux f t0 q v hsol p
  exact ⟨C, fun t ht hp => hC t hp (symplectic_wellFormed t ht) 12 (symplectic_conditions t ht)⟩

/-- With the exception of 吉田1990Order8C and 吉田1990Order8D, this is so with 10⁻¹⁵. -/
theorem C45_symplectic_order_accurate (f : RightHandSide V) (t0 : ℝ) (q v : ℝ → V) (hsol : SecondOrderSolution f t0 q v) (p : ℕ) :
    ∃ C, ∀ t ∈ Methods.symplectic, (∀ c, t ≠ Methods.yoshida1990Order8C.as c ∧ t ≠ Methods.yoshida1990Order8D.as c) → t.order = p → ∃ K, ∀ status, ∀ᶠ h in 𝓝 0,
      ‖((t.method.stepper f).advance h ⟨t0, q t0, v t0⟩ ((t.method.stepper f).start ⟨t0, q t0, v t0⟩).1 status).1.positions - q (t0 + h)‖ ≤ 1 / 10 ^ 15 * C * |h| + K * |h| ^ (p + 1) ∧
      ‖((t.method.stepper f).advance h ⟨t0, q t0, v t0⟩ ((t.method.stepper f).start ⟨t0, q t0, v t0⟩).1 status).1.velocities - v (t0 + h)‖ ≤ 1 / 10 ^ 15 * C * |h| + K * |h| ^ (p + 1) := by
  obtain ⟨C, hC⟩ := symplectic_order_aux f t0 q v hsol p
  refine ⟨C, fun t ht hne hp => hC t hp (symplectic_wellFormed t ht) 15 (t.check_spec _ _ (SymplecticTable.order_pos (symplectic_wellFormed t ht)) (symplectic_check_exact t ht fun u hu c => ?_))⟩
  simp only [Methods.inexact, List.mem_cons, List.not_mem_nil, or_false] at hu
  rcases hu with rfl | rfl
  · exact (hne c).1
  · exact (hne c).2

/-- A harmonic oscillator meets the hypotheses. -/
theorem oscillator : SecondOrderSolution (V := ℝ) (fun _ q => (-q, .ok)) 0 Real.cos (fun t => -Real.sin t) where
  analytic := analyticAt_snd.neg
  velocity := Eventually.of_forall Real.hasDerivAt_cos
  acceleration := Eventually.of_forall fun t => (Real.hasDerivAt_sin t).neg

example : ∃ C, ∀ t ∈ Methods.symplectic, t.order = 8 → ∃ K, ∀ status, ∀ᶠ h in 𝓝 (0 : ℝ),
    ‖((t.method.stepper (V := ℝ) fun _ q => (-q, .ok)).advance h ⟨0, Real.cos 0, -Real.sin 0⟩ ((t.method.stepper (V := ℝ) fun _ q => (-q, .ok)).start ⟨0, Real.cos 0, -Real.sin 0⟩).1 status).1.positions -
      Real.cos (0 + h)‖ ≤ 1 / 10 ^ 12 * C * |h| + K * |h| ^ (8 + 1) := by
  obtain ⟨C, hC⟩ := C45_symplectic_order _ _ _ _ oscillator 8
  refine ⟨C, fun t ht h8 => ?_⟩
  obtain ⟨K, hK⟩ := hC t ht h8
  exact ⟨K, fun s => (hK s).mono fun h hh => hh.1⟩

/-- There are methods of the orders 2 to 6 and 8. -/
example : ∀ p ∈ [2, 3, 4, 5, 6, 8], ∃ t ∈ Methods.symplectic, t.order = p := by decide +kernel

/-! ### The Runge-Kutta method -/

/-- The order conditions of a Runge-Kutta table, computed. -/
def RungeKuttaTable.check (t : RungeKuttaTable) (p : ℕ) : Bool :=
  checkRational [true] t.stages (fun i => t.c.getD i 0) (fun _ i j => (t.a.getD i []).getD j 0) (fun i => t.b.getD i 0) true p

theorem RungeKuttaTable.check_spec (t : RungeKuttaTable) (p : ℕ) (h : t.check p = true) : t.method.OrderConditions p 0 := by
  intro φ hu ho
  have := checkRational_spec _ _ _ _ _ _ _ h φ hu ho
  rw [if_pos rfl] at this
  rw [abs_le]
  have h2 : ∑ i ∈ Finset.range t.method.stages, t.method.b i * φ.stage t.method.c (fun _ => t.method.a) i - φ.exact / (φ.order + 1) = 0 := sub_eq_zero.mpr this
  rw [h2]
  simp

theorem kutta_check : Methods.kutta1901.check 4 = true := by decide +kernel

/-- The explicit Runge-Kutta integrator has the order that is stated for it. -/
theorem C45_runge_kutta_order (f : RightHandSide V) (t0 : ℝ) (y : ℝ → V) (hsol : FirstOrderSolution f t0 y) (status : ℝ → Status) :
    (fun h => ((Methods.kutta1901.method.stepper f).advance h ⟨t0, y t0⟩ ((Methods.kutta1901.method.stepper f).start ⟨t0, y t0⟩).1 (status h)).1.y - y (t0 + h)) =O[𝓝 0]
      fun h => h ^ (Methods.kutta1901.order + 1) := by
  obtain ⟨C, hC⟩ := ERK.local_error f t0 y hsol.analytic hsol.deriv 4
  obtain ⟨K, hK⟩ := hC Methods.kutta1901.method (fun h => absurd h (by decide)) 0 le_rfl (Methods.kutta1901.check_spec 4 kutta_check)
  refine IsBigO.of_bound K ?_
  filter_upwards [hK .ok] with h hh
  have hs : ∀ s, ((Methods.kutta1901.method.stepper f).advance h ⟨t0, y t0⟩ ((Methods.kutta1901.method.stepper f).start ⟨t0, y t0⟩).1 s).1.y =
      ((Methods.kutta1901.method.stepper f).advance h ⟨t0, y t0⟩ ((Methods.kutta1901.method.stepper f).start ⟨t0, y t0⟩).1 .ok).1.y := fun s => by
    rw [ERK.step_eq _ _ _ _ (fun h => absurd h (by decide)), ERK.step_eq _ _ _ _ (fun h => absurd h (by decide))]
  rw [hs]
  simpa [Real.norm_eq_abs, Methods.kutta1901] using hh

/-- An exponential meets the hypotheses. -/
theorem exponential : FirstOrderSolution (V := ℝ) (fun _ y => (y, .ok)) 0 Real.exp where
  analytic := analyticAt_snd
  deriv := Eventually.of_forall Real.hasDerivAt_exp

example : (fun h => ((Methods.kutta1901.method.stepper (V := ℝ) fun _ y => (y, .ok)).advance h ⟨0, Real.exp 0⟩ ((Methods.kutta1901.method.stepper (V := ℝ) fun _ y => (y, .ok)).start ⟨0, Real.exp 0⟩).1 .ok).1.y -
    Real.exp (0 + h)) =O[𝓝 0] fun h => h ^ (4 + 1) := C45_runge_kutta_order _ 0 Real.exp exponential fun _ => .ok

/-! ### The multistep methods -/

/-- The order conditions of a multistep table, computed. -/
def MultistepTable.check (t : MultistepTable) (p : ℕ) : Bool :=
  decide (0 < t.steps) && decide (t.α.getD 0 0 = 1) && decide (∑ j ∈ Finset.range (t.steps + 1), t.α.getD j 0 = 0) &&
    (List.range p).all fun i => decide (∑ j ∈ Finset.range (t.steps + 1), t.α.getD j 0 * ((1 - j : ℚ) ^ (i + 1) / (i + 1)) =
      ∑ j ∈ Finset.range t.steps, t.βNumerator.getD (j + 1) 0 / t.βDenominator * (-j : ℚ) ^ i)

theorem MultistepTable.check_spec (t : MultistepTable) (p : ℕ) (h : t.check p = true) : 0 < t.steps ∧ t.method.OrderConditions p := by
  simp only [MultistepTable.check, Bool.and_eq_true, decide_eq_true_eq, List.all_eq_true, List.mem_range] at h
  obtain ⟨⟨⟨h0, h1⟩, h2⟩, h3⟩ := h
  refine ⟨h0, ?_, ?_, fun i hi => ?_⟩
  · show ((t.α.getD 0 0 : ℚ) : ℝ) = 1
    exact_mod_cast h1
  · show ∑ j ∈ Finset.range (t.steps + 1), ((t.α.getD j 0 : ℚ) : ℝ) = 0
    exact_mod_cast h2
  · show ∑ j ∈ Finset.range (t.steps + 1), ((t.α.getD j 0 : ℚ) : ℝ) * ((1 - j : ℝ) ^ (i + 1) / (i + 1)) =
      ∑ j ∈ Finset.range t.steps, ((t.βNumerator.getD (j + 1) 0 : ℚ) : ℝ) / ((t.βDenominator : ℚ) : ℝ) * (-j : ℝ) ^ i
    exact_mod_cast congrArg (Rat.cast : ℚ → ℝ) (h3 i hi)

theorem multistep_check : ∀ t ∈ Methods.multistep, t.check t.order = true := by decide +kernel

/-- Every explicit linear multistep integrator has the order that is stated for it. -/
theorem C45_multistep_order (f : RightHandSide V) (t0 : ℝ) (y : ℝ → V) (hsol : FirstOrderSolution f t0 y) (t : MultistepTable) (ht : t ∈ Methods.multistep) (x : ℝ → FState V) (status : ℝ → Status) :
    (fun h => ((t.method.multistepper f).advance h (firstOrderSteps f y t0 h t.steps) (x h) (status h)).2.1.y - y (t0 + h)) =O[𝓝 0] fun h => h ^ (t.order + 1) := by
  obtain ⟨hs, hc⟩ := t.check_spec t.order (multistep_check t ht)
  exact ELMS.local_error f t0 y hsol.analytic hsol.deriv t.order t.method hc hs x status

/-- The order conditions of a symmetric multistep table, computed. -/
def SymmetricTable.check (t : SymmetricTable) (p : ℕ) : Bool :=
  decide (t.order % 2 = 0) && decide (0 < t.order) && decide (t.α.getD 0 0 = 1) &&
    decide (∑ i ∈ Finset.range (t.order + 1), t.α.getD (min i (t.order - i)) 0 = 0) && decide (∑ i ∈ Finset.range (t.order + 1), t.α.getD (min i (t.order - i)) 0 * (i + 1 - t.order : ℚ) = 0) &&
    ((List.range p).all fun n => decide (∑ i ∈ Finset.range (t.order + 1), t.α.getD (min i (t.order - i)) 0 * ((i + 1 - t.order : ℚ) ^ (n + 2) / ((n + 1) * (n + 2))) =
      ∑ i ∈ Finset.range t.order, t.βNumerator.getD (min i (t.order - i)) 0 / t.βDenominator * (i + 1 - t.order : ℚ) ^ n)) &&
    (List.range p).all fun n => decide (∑ i ∈ Finset.range t.order, t.cohenHubbardOesterwinter.1.getD i 0 / t.cohenHubbardOesterwinter.2 * (1 - i : ℚ) ^ n = 1 / (n + 2))

theorem SymmetricTable.check_spec (t : SymmetricTable) (p : ℕ) (h : t.check p = true) : t.order % 2 = 0 ∧ 0 < t.order ∧ t.method.OrderConditions p := by
  simp only [SymmetricTable.check, Bool.and_eq_true, decide_eq_true_eq, List.all_eq_true, List.mem_range] at h
  obtain ⟨⟨⟨⟨⟨⟨he, h0⟩, h1⟩, h2⟩, h3⟩, h4⟩, h5⟩ := h
  refine ⟨he, h0, ?_, ?_, ?_, fun i hi => ?_, fun i hi => ?_⟩
  · show ((t.α.getD 0 0 : ℚ) : ℝ) = 1
    exact_mod_cast h1
  · show ∑ i ∈ Finset.range (t.order + 1), ((t.α.getD (min i (t.order - i)) 0 : ℚ) : ℝ) = 0
    exact_mod_cast h2
  · show ∑ i ∈ Finset.range (t.order + 1), ((t.α.getD (min i (t.order - i)) 0 : ℚ) : ℝ) * (i + 1 - t.order : ℝ) = 0
    exact_mod_cast congrArg (Rat.cast : ℚ → ℝ) h3
  · show ∑ j ∈ Finset.range (t.order + 1), ((t.α.getD (min j (t.order - j)) 0 : ℚ) : ℝ) * ((j + 1 - t.order : ℝ) ^ (i + 2) / ((i + 1) * (i + 2))) =
      ∑ j ∈ Finset.range t.order, ((t.βNumerator.getD (min j (t.order - j)) 0 : ℚ) : ℝ) / ((t.βDenominator : ℚ) : ℝ) * (j + 1 - t.order : ℝ) ^ i
    exact_mod_cast congrArg (Rat.cast : ℚ → ℝ) (h4 i hi)
  · show ∑ j ∈ Finset.range t.order, ((t.cohenHubbardOesterwinter.1.getD j 0 : ℚ) : ℝ) / ((t.cohenHubbardOesterwinter.2 : ℚ) : ℝ) * (1 - j : ℝ) ^ i = 1 / (i + 2)
    have := congrArg (Rat.cast : ℚ → ℝ) (h5 i hi)
    push_cast at this
    exact this

theorem symmetric_check : ∀ t ∈ Methods.symmetric, t.check t.order = true := by decide +kernel

/-- Every symmetric linear multistep integrator has the order that is stated for it; the positions are better by one. -/
theorem C45_symmetric_multistep_order (f : RightHandSide V) (t0 : ℝ) (q v : ℝ → V) (hsol : SecondOrderSolution f t0 q v) (t : SymmetricTable) (ht : t ∈ Methods.symmetric) (x : ℝ → NState V) (status : ℝ → Status) :
    (fun h => ((t.method.multistepper f).advance h (secondOrderSteps f q t0 h t.order) (x h) (status h)).2.1.positions - q (t0 + h)) =O[𝓝 0] (fun h => h ^ (t.order + 2)) ∧
    (fun h => ((t.method.multistepper f).advance h (secondOrderSteps f q t0 h t.order) (x h) (status h)).2.1.velocities - v (t0 + h)) =O[𝓝[≠] 0] fun h => h ^ (t.order + 1) := by
  obtain ⟨he, hs, hc⟩ := t.check_spec t.order (symmetric_check t ht)
  exact SLMS.local_error f t0 q v hsol.analytic hsol.velocity hsol.acceleration t.order t.method hc he hs x status

example : (fun h => ((Methods.quinlanTremaine1990Order12.method.multistepper (V := ℝ) fun _ q => (-q, .ok)).advance h (secondOrderSteps (fun _ q => (-q, .ok)) Real.cos 0 h 12) ⟨0, 0, 0⟩ .ok).2.1.positions -
    Real.cos (0 + h)) =O[𝓝 0] fun h => h ^ (12 + 2) :=
  (C45_symmetric_multistep_order _ 0 Real.cos _ oscillator Methods.quinlanTremaine1990Order12 (by simp [Methods.symmetric]) (fun _ => ⟨0, 0, 0⟩) fun _ => .ok).1

example : (fun h => ((Methods.adamsBashforthOrder6.method.multistepper (V := ℝ) fun _ y => (y, .ok)).advance h (firstOrderSteps (fun _ y => (y, .ok)) Real.exp 0 h 6) ⟨0, 0⟩ .ok).2.1.y - Real.exp (0 + h)) =O[𝓝 0]
    fun h => h ^ (6 + 1) :=
  C45_multistep_order _ 0 Real.exp exponential Methods.adamsBashforthOrder6 (by simp [Methods.multistep]) (fun _ => ⟨0, 0⟩) fun _ => .ok

/-- The coefficients for the velocity, of every order that is available, are such that the velocity is computed exactly for the accelerations that are polynomials of a degree less than the order. -/
theorem C45_cohen_hubbard_oesterwinter_exact : ∀ n, 1 ≤ n → n ≤ 15 →
    ∀ cho ∈ ([Methods.cohenHubbardOesterwinter1, Methods.cohenHubbardOesterwinter2, Methods.cohenHubbardOesterwinter3, Methods.cohenHubbardOesterwinter4, Methods.cohenHubbardOesterwinter5,
      Methods.cohenHubbardOesterwinter6, Methods.cohenHubbardOesterwinter7, Methods.cohenHubbardOesterwinter8, Methods.cohenHubbardOesterwinter9, Methods.cohenHubbardOesterwinter10,
      Methods.cohenHubbardOesterwinter11, Methods.cohenHubbardOesterwinter12, Methods.cohenHubbardOesterwinter13, Methods.cohenHubbardOesterwinter14, Methods.cohenHubbardOesterwinter15] : List (List ℚ × ℚ))[n - 1]?,
      cho.1.length = n ∧ ∀ d < n, ∑ i ∈ Finset.range n, cho.1.getD i 0 / cho.2 * (1 - i : ℚ) ^ d = 1 / (d + 2) := by
  intro n h1 h2
  have : n ∈ Finset.Icc 1 15 := Finset.mem_Icc.mpr ⟨h1, h2⟩
  revert n
  decide +kernel

end Principia.Integrators
