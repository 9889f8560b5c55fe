import Verif.Numerics.GradientDescentLineSearch
import Mathlib.Analysis.InnerProductSpace.Calculus
import Mathlib.Analysis.InnerProductSpace.Dual
import Mathlib.Analysis.Calculus.Deriv.Comp
import Mathlib.Tactic.Module
import Mathlib.Tactic.FieldSimp
import Mathlib.Tactic.NormNum

/-!
C84: the gradient descent.
-/

set_option linter.unusedSimpArgs false
set_option linter.unusedVariables false

namespace Principia.Numerics.GradientDescent

open RealInnerProductSpace

noncomputable section

variable {V : Type} [NormedAddCommGroup V] [InnerProductSpace ℝ V]

/-! ## The line search -/

/-- C84.  In a descent direction, for any function, the line search never fails, and if it returns a step with the indication that it satisfies the strong Wolfe conditions, it does: the function decreases
enough, and the derivative in the direction of the search is small enough. -/
theorem C84_wolfe (fuel : ℕ) (x p g : V) (f : V → ℝ) (gateaux : V → V → ℝ) (hg : gateaux x p = ⟪g, p⟫) (hp : ⟪g, p⟫ < 0) :
    lineSearch fuel x p g f gateaux = .running ∨ ∃ α b, lineSearch fuel x p g f gateaux = .done (α, b) ∧ 0 < α ∧
      (b = true → f (x + α • p) ≤ f x + 1 / 10000 * α * ⟪g, p⟫ ∧ |gateaux (x + α • p) p| ≤ 9 / 10 * |⟪g, p⟫|) := by
  have e1 : f x = (fun α : ℝ => f (x + α • p)) 0 := by simp
  have e2 : ⟪g, p⟫ = (fun α : ℝ => gateaux (x + α • p) p) 0 := by simp [hg]
  rw [e2] at hp
  have h := lineSearchLoop_correct (fun α : ℝ => f (x + α • p)) (fun α => gateaux (x + α • p) p) hp fuel fuel 1 one_pos
  rw [lineSearch, e1, e2]
  exact h

/-- C84.  In a descent direction, if the function is bounded below and its derivative along the line is continuous, the line search terminates. -/
theorem C84_line_search_terminates (x p g : V) (f : V → ℝ) (gateaux : V → V → ℝ) (hg : gateaux x p = ⟪g, p⟫) (hp : ⟪g, p⟫ < 0)
    (hd : ∀ t : ℝ, HasDerivAt (fun t : ℝ => f (x + t • p)) (gateaux (x + t • p) p) t) (hc : Continuous fun t : ℝ => gateaux (x + t • p) p) (B : ℝ) (hB : ∀ y, B ≤ f y) :
    ∃ N, ∀ fuel, N ≤ fuel → ∃ α b, lineSearch fuel x p g f gateaux = .done (α, b) := by
  set ϕ : ℝ → ℝ := fun α : ℝ => f (x + α • p) with hϕ
  set ϕ' : ℝ → ℝ := fun α : ℝ => gateaux (x + α • p) p with hϕ'
  have e1 : f x = ϕ 0 := by simp [hϕ]
  have e2 : ⟪g, p⟫ = ϕ' 0 := by simp [hϕ', hg]
  have h0 : ϕ' 0 < 0 := by rw [← e2]; exact hp
  set A : ℝ := max 1 ((ϕ 0 - B + 1) / (-(c₁ * ϕ' 0))) with hA
  have hc1 : 0 < -(c₁ * ϕ' 0) := by rw [c₁]; linarith
  have hA1 : 1 ≤ A := le_max_left _ _
  have hA2 : B > ϕ 0 + c₁ * A * ϕ' 0 := by
    have := le_max_right 1 ((ϕ 0 - B + 1) / (-(c₁ * ϕ' 0)))
    rw [← hA, div_le_iff₀ hc1] at this
    linarith
  have hu : UniformContinuousOn ϕ' (Set.Icc 0 (2 * A)) := isCompact_Icc.uniformContinuousOn_of_continuous hc.continuousOn
  rw [Metric.uniformContinuousOn_iff] at hu
  obtain ⟨δ, hδ, hu⟩ := hu (8 / 10 * |ϕ' 0|) (by have := abs_pos.mpr h0.ne; linarith)
  obtain ⟨n, hn⟩ := exists_pow_lt_of_lt_one (show 0 < δ / (2 * A) by positivity) (show (99 / 100 : ℝ) < 1 by norm_num)
  obtain ⟨m, hm⟩ := pow_unbounded_of_one_lt A (show (1 : ℝ) < 2 by norm_num)
  refine ⟨max n (m + 1), fun fuel hf => ?_⟩
  have hfn : (99 / 100 : ℝ) ^ fuel * (2 * A) < δ := by
    have h1 : (99 / 100 : ℝ) ^ fuel ≤ (99 / 100) ^ n := pow_le_pow_of_le_one (by norm_num) (by norm_num) (by omega)
    have h2 := lt_of_le_of_lt h1 hn
    rwa [lt_div_iff₀ (by positivity)] at h2
  obtain ⟨k, rfl⟩ : ∃ k, fuel = k + 1 := ⟨fuel - 1, by omega⟩
  have hfm : A ≤ 2 ^ k * 1 := by
    rw [mul_one]
    exact hm.le.trans (pow_le_pow_right₀ (by norm_num) (by omega))
  have ht := lineSearchLoop_terminates ϕ ϕ' hd B δ A h0 (fun t => hB _) hA2
    (fun s t s0 sA t0 tA hst => by have := hu s ⟨s0, sA⟩ t ⟨t0, tA⟩ (by rw [Real.dist_eq]; exact hst); rwa [Real.dist_eq] at this)
    (k + 1) hfn k 1 one_pos (by linarith) hfm
  have h := lineSearchLoop_correct ϕ ϕ' h0 (k + 1) (k + 1) 1 one_pos
  rw [← e1, ← e2] at h ht
  rcases h with h | ⟨α, b, h, -⟩
  · exact absurd h ht
  · exact ⟨α, b, h⟩

/-- The hypotheses of C84_wolfe and C84_line_search_terminates: the square, from 1, in the direction of -1. -/
example : ∃ N, ∀ fuel, N ≤ fuel → ∃ α b, lineSearch fuel (1 : ℝ) (-1) 2 (fun x => x ^ 2) (fun x d => 2 * x * d) = .done (α, b) := by
  refine C84_line_search_terminates (1 : ℝ) (-1) 2 (fun x => x ^ 2) (fun x d => 2 * x * d) (by simp) (by simp) ?_ (by fun_prop) 0 (fun y => sq_nonneg y)
  intro t
  have h := ((hasDerivAt_id t).smul_const (-1 : ℝ)).const_add (1 : ℝ)
  have h2 := h.pow 2
  refine (show HasDerivAt (fun t : ℝ => (1 + t • (-1 : ℝ)) ^ 2) _ t from h2).congr_deriv ?_
  simp

/-! ## The approximation of the inverse of the Hessian -/

/-- The bilinear form of `H` is symmetric and positive definite. -/
def PositiveDefinite (H : V →ₗ[ℝ] V) : Prop := (∀ v w, ⟪H v, w⟫ = ⟪v, H w⟫) ∧ ∀ v, v ≠ 0 → 0 < ⟪v, H v⟫

theorem updateH_apply (H : V →ₗ[ℝ] V) (s y v : V) :
    updateH H s y v = H v + (1 / ⟪s, y⟫ * ((1 / ⟪s, y⟫ * ⟪y, H y⟫ + 1) * ⟪s, v⟫)) • s - (1 / ⟪s, y⟫ * ⟪s, v⟫) • H y - (1 / ⟪s, y⟫ * ⟪H y, v⟫) • s := by
  simp only [updateH, LinearMap.add_apply, LinearMap.smul_apply, LinearMap.sub_apply]
  simp only [symmetricSquare, symmetricProduct, LinearMap.coe_mk, AddHom.coe_mk]
  module

/-- C84.  The update keeps the approximation symmetric and positive definite, and makes it satisfy the secant equation, for the displacements and variations of gradient whose inner product is positive. -/
theorem C84_update (H : V →ₗ[ℝ] V) (hH : PositiveDefinite H) (s y : V) (hsy : 0 < ⟪s, y⟫) : PositiveDefinite (updateH H s y) ∧ updateH H s y y = s := by
  have hne : ⟪s, y⟫ ≠ 0 := hsy.ne'
  refine ⟨⟨fun v w => ?_, fun v hv => ?_⟩, ?_⟩
  · rw [updateH_apply, updateH_apply]
    simp only [inner_add_left, inner_sub_left, inner_add_right, inner_sub_right, inner_smul_left, inner_smul_right, conj_trivial]
    rw [hH.1 v w, real_inner_comm s v, real_inner_comm (H y) v]
    ring
  · have key : ⟪v, updateH H s y v⟫ = ⟪v - (⟪s, v⟫ / ⟪s, y⟫) • y, H (v - (⟪s, v⟫ / ⟪s, y⟫) • y)⟫ + ⟪s, v⟫ ^ 2 / ⟪s, y⟫ := by
      rw [updateH_apply]
      simp only [map_sub, map_smul, inner_add_left, inner_sub_left, inner_add_right, inner_sub_right, inner_smul_left, inner_smul_right, conj_trivial]
      have h1 : ⟪H y, v⟫ = ⟪y, H v⟫ := hH.1 y v
      have h2 : ⟪v, H y⟫ = ⟪y, H v⟫ := by rw [real_inner_comm]; exact h1
      rw [h1, h2, real_inner_comm s v]
      field_simp
      ring
    rw [key]
    by_cases hs : ⟪s, v⟫ = 0
    · rw [hs]; simp only [zero_div, zero_smul, sub_zero]
      have := hH.2 v hv
      simpa using this
    · have h1 : 0 < ⟪s, v⟫ ^ 2 / ⟪s, y⟫ := by positivity
      have h2 : 0 ≤ ⟪v - (⟪s, v⟫ / ⟪s, y⟫) • y, H (v - (⟪s, v⟫ / ⟪s, y⟫) • y)⟫ := by
        by_cases h0 : v - (⟪s, v⟫ / ⟪s, y⟫) • y = 0
        · rw [h0]; simp
        · exact (hH.2 _ h0).le
      linarith
  · rw [updateH_apply]
    have h1 : 1 / ⟪s, y⟫ * ⟪s, y⟫ = 1 := by field_simp
    have h2 : ⟪H y, y⟫ = ⟪y, H y⟫ := hH.1 y y
    have h3 : 1 / ⟪s, y⟫ * ((1 / ⟪s, y⟫ * ⟪y, H y⟫ + 1) * ⟪s, y⟫) = 1 / ⟪s, y⟫ * ⟪y, H y⟫ + 1 := by field_simp
    rw [h1, h2, h3]; module

theorem initialH_positive (s y : V) (hsy : 0 < ⟪s, y⟫) : PositiveDefinite (initialH s y) := by
  have hy : y ≠ 0 := by rintro rfl; simp at hsy
  have hc : 0 < ⟪s, y⟫ / ‖y‖ ^ 2 := by have := norm_pos_iff.mpr hy; positivity
  refine ⟨fun v w => ?_, fun v hv => ?_⟩
  · simp [initialH, inner_smul_left, inner_smul_right]
  · simp only [initialH, LinearMap.smul_apply, LinearMap.id_apply, inner_smul_right, real_inner_self_eq_norm_sq]
    have := norm_pos_iff.mpr hv
    positivity

/-! ## The algorithm -/

/-- A step of the line search in a descent direction which satisfies the strong Wolfe conditions makes the function decrease, and the displacement and the variation of the gradient have a positive inner product. -/
theorem step (fuel : ℕ) (x p : V) (f : V → ℝ) (gradF : V → V) (α : ℝ) (hp : ⟪gradF x, p⟫ < 0)
    (h : lineSearch fuel x p (gradF x) f (fun x d => ⟪gradF x, d⟫) = .done (α, true)) :
    f (x + α • p) < f x ∧ 0 < ⟪(x + α • p) - x, gradF (x + α • p) - gradF x⟫ := by
  rcases C84_wolfe fuel x p (gradF x) f (fun x d => ⟪gradF x, d⟫) rfl hp with h' | ⟨β, b, h', hβ, hw⟩
  · rw [h'] at h; cases h
  · rw [h'] at h
    obtain ⟨rfl, rfl⟩ : β = α ∧ b = true := by cases h; exact ⟨rfl, rfl⟩
    obtain ⟨h1, h2⟩ := hw rfl
    have hneg := mul_neg_of_pos_of_neg hβ hp
    refine ⟨by linarith, ?_⟩
    rw [add_sub_cancel_left, inner_smul_left, conj_trivial, inner_sub_right, real_inner_comm, real_inner_comm (gradF x) p]
    apply mul_pos hβ
    rw [abs_of_neg hp] at h2
    have := (abs_le.mp h2).1
    linarith

/-- What is known of the result `x`: it was obtained by a step, from `previous`, and it is at the tolerance, or it was obtained by a line search which was abandoned. -/
inductive Final (searchFuel : ℕ) (f : V → ℝ) (gradF : V → V) (tolerance : ℝ) (radius : Option ℝ) (start : V) : Result V → Prop
  | stationary (h : gradF start = 0) : Final searchFuel f gradF tolerance radius start (.ok start)
  | converged (x previous : V) (H : V →ₗ[ℝ] V) (hprevious : f previous ≤ f start) (hx : f x < f previous) (hH : PositiveDefinite H)
      (hsecant : H (gradF x - gradF previous) = x - previous ∨ (previous = start ∧ ∃ c : ℝ, H = c • LinearMap.id ∧ ⟪x - previous - c • (gradF x - gradF previous), gradF x - gradF previous⟫ = 0))
      (hradius : ∀ r, radius = some r → ‖x - start‖ ≤ r) (htolerance : ‖H (gradF x)‖ ≤ tolerance) :
      Final searchFuel f gradF tolerance radius start (.ok x)
  | abandoned (previous p : V) (α : ℝ) (hprevious : f previous ≤ f start) (hp : ⟪gradF previous, p⟫ < 0) (hα : 0 < α)
      (hs : lineSearch searchFuel previous p (gradF previous) f (fun x d => ⟪gradF x, d⟫) = .done (α, false)) :
      Final searchFuel f gradF tolerance radius start (.ok (previous + α • p))
  | noMinimum (x : V) (r : ℝ) (hr : radius = some r) (hx : f x < f start) (h : r < ‖x - start‖) : Final searchFuel f gradF tolerance radius start .noMinimum

theorem loop_final (searchFuel fuel : ℕ) (f : V → ℝ) (gradF : V → V) (tolerance : ℝ) (ht : 0 ≤ tolerance) (radius : Option ℝ) (start : V) (x previous : V) (H : V →ₗ[ℝ] V)
    (hprevious : f previous ≤ f start) (hx : f x < f previous) (hH : PositiveDefinite H)
    (hsecant : H (gradF x - gradF previous) = x - previous ∨ (previous = start ∧ ∃ c : ℝ, H = c • LinearMap.id ∧ ⟪x - previous - c • (gradF x - gradF previous), gradF x - gradF previous⟫ = 0)) :
    loop searchFuel f gradF (fun x d => ⟪gradF x, d⟫) tolerance radius start fuel x (gradF x) H = .running ∨
      ∃ r, loop searchFuel f gradF (fun x d => ⟪gradF x, d⟫) tolerance radius start fuel x (gradF x) H = .done r ∧ Final searchFuel f gradF tolerance radius start r := by
  induction fuel generalizing x previous H with
  | zero => exact Or.inl rfl
  | succ fuel ih =>
    rw [loop]
    by_cases hr : ∃ r ∈ radius, ‖x - start‖ > r
    · rw [if_pos hr]
      obtain ⟨r, h1, h2⟩ := hr
      exact Or.inr ⟨_, rfl, .noMinimum x r h1 (by linarith) h2⟩
    · rw [if_neg hr]
      have hr' : ∀ r, radius = some r → ‖x - start‖ ≤ r := by
        intro r h
        by_contra h'
        exact hr ⟨r, h, not_le.mp h'⟩
      simp only
      by_cases htol : ‖-(H (gradF x))‖ ≤ tolerance
      · rw [if_pos htol]
        rw [norm_neg] at htol
        exact Or.inr ⟨_, rfl, .converged x previous H hprevious hx hH hsecant hr' htol⟩
      · rw [if_neg htol]
        have hg : gradF x ≠ 0 := by
          intro h
          rw [h] at htol; simp at htol; linarith
        have hp : ⟪gradF x, -(H (gradF x))⟫ < 0 := by
          rw [inner_neg_right]; linarith [hH.2 _ hg]
        rcases C84_wolfe searchFuel x (-(H (gradF x))) (gradF x) f (fun x d => ⟪gradF x, d⟫) rfl hp with h | ⟨α, b, h, hα, -⟩
        · rw [h]; exact Or.inl rfl
        · rw [h]
          simp only
          cases b with
          | false =>
            rw [if_pos rfl]
            exact Or.inr ⟨_, rfl, .abandoned x _ α (by linarith) hp hα h⟩
          | true =>
            obtain ⟨h1, h2⟩ := step searchFuel x _ f gradF α hp h
            rw [if_neg (by simp), if_neg h2.ne']
            obtain ⟨h3, h4⟩ := C84_update H hH _ _ h2
            exact ih _ x _ (by linarith) h1 h3 (Or.inl h4)

/-- C84.  For any function and its gradient, the algorithm never fails, and if it returns a result, then: it is the starting argument and the gradient vanishes there; or the function is
smaller than at the starting argument, the result is within the radius, and the displacement given by a symmetric and positive definite approximation of the inverse of the Hessian, which satisfies the secant equation (or is the
multiple of the identity that satisfies it best) is no more than the tolerance; or the last line search was abandoned; or it is `NoMinimum`, and there is an argument beyond the radius where the function is smaller
than at the starting argument. -/
theorem C84_bfgs (searchFuel fuel : ℕ) (start : V) (f : V → ℝ) (gradF : V → V) (tolerance : ℝ) (ht : 0 < tolerance) (radius : Option ℝ) (firstStep : Option ℝ) (hs : ∀ s, firstStep = some s → 0 < s) :
    bfgs searchFuel fuel start f gradF (fun x d => ⟪gradF x, d⟫) tolerance radius firstStep = .running ∨
      ∃ r, bfgs searchFuel fuel start f gradF (fun x d => ⟪gradF x, d⟫) tolerance radius firstStep = .done r ∧ Final searchFuel f gradF tolerance radius start r := by
  rw [bfgs]
  simp only
  by_cases h0 : gradF start = 0
  · rw [if_pos h0]
    exact Or.inr ⟨_, rfl, .stationary h0⟩
  · rw [if_neg h0]
    have hstep : 0 < firstStep.getD tolerance := by
      cases h : firstStep with
      | none => exact ht
      | some s => exact hs s h
    have hn := norm_pos_iff.mpr h0
    have hp : ⟪gradF start, -((firstStep.getD tolerance) • (‖gradF start‖⁻¹ • gradF start))⟫ < 0 := by
      rw [inner_neg_right, inner_smul_right, inner_smul_right, real_inner_self_eq_norm_sq]
      have : 0 < firstStep.getD tolerance * (‖gradF start‖⁻¹ * ‖gradF start‖ ^ 2) := by positivity
      linarith
    rcases C84_wolfe searchFuel start _ (gradF start) f (fun x d => ⟪gradF x, d⟫) rfl hp with h | ⟨α, b, h, hα, -⟩
    · rw [h]; exact Or.inl rfl
    · rw [h]
      simp only
      cases b with
      | false =>
        rw [if_pos rfl]
        exact Or.inr ⟨_, rfl, .abandoned start _ α le_rfl hp hα h⟩
      | true =>
        obtain ⟨h1, h2⟩ := step searchFuel start _ f gradF α hp h
        rw [if_neg (by simp)]
        set p := -((firstStep.getD tolerance) • (‖gradF start‖⁻¹ • gradF start)) with hpd
        have hy : gradF (start + α • p) - gradF start ≠ 0 := by
          intro h; rw [h] at h2; simp at h2
        have hy' : ‖gradF (start + α • p) - gradF start‖ ^ 2 ≠ 0 := by
          have := norm_pos_iff.mpr hy; positivity
        rw [if_neg hy']
        refine loop_final searchFuel fuel f gradF tolerance ht.le radius start _ start _ le_rfl h1 (initialH_positive _ _ h2) (Or.inr ⟨rfl, _, rfl, ?_⟩)
        rw [inner_sub_left, inner_smul_left, conj_trivial, real_inner_self_eq_norm_sq, div_mul_cancel₀ _ hy', sub_self]

/-- The conclusion of C84_bfgs is not always `running`: on the square, from 1, with a first step of 1, the algorithm returns 0. -/
example (searchFuel fuel : ℕ) (tolerance : ℝ) (ht : 0 < tolerance) :
    bfgs (searchFuel + 1) (fuel + 1) (1 : ℝ) (fun x => x ^ 2) (fun x => 2 * x) (fun x d => ⟪2 * x, d⟫) tolerance none (some 1) = .done (.ok 0) := by
  have hp : -((some (1 : ℝ)).getD tolerance • (‖(2 * 1 : ℝ)‖⁻¹ • (2 * 1 : ℝ))) = -1 := by norm_num
  have hl : lineSearch (searchFuel + 1) (1 : ℝ) (-1) (2 * 1) (fun x => x ^ 2) (fun x d => ⟪2 * x, d⟫) = .done (1, true) := by
    rw [lineSearch, lineSearchLoop]
    norm_num [c₁, c₂]
  rw [bfgs]
  simp only
  rw [if_neg (by norm_num), hp, hl]
  simp only
  rw [if_neg (by simp), if_neg (by norm_num), loop]
  simp [ht.le]

/-! ## An abandoned line search -/

/-- A polynomial of degree 4, bounded below, which takes the same value at 1/24, 1/12 and 1. -/
def quartic (x : ℝ) : ℝ := 5 + (x - 1 / 24) * (x - 1 / 12) * (x - 1) * (1440 + 53568 * x)

def quartic' (x : ℝ) : ℝ :=
  ((x - 1 / 12) * (x - 1) + (x - 1 / 24) * (x - 1) + (x - 1 / 24) * (x - 1 / 12)) * (1440 + 53568 * x) + (x - 1 / 24) * (x - 1 / 12) * (x - 1) * 53568

theorem quartic_deriv (x : ℝ) : HasDerivAt quartic (quartic' x) x := by
  have h := ((((hasDerivAt_id x).sub_const (1 / 24)).mul ((hasDerivAt_id x).sub_const (1 / 12))).mul ((hasDerivAt_id x).sub_const 1)).mul (((hasDerivAt_id x).const_mul 53568).const_add 1440)
  have h := h.const_add 5
  refine (show HasDerivAt quartic _ x from h).congr_deriv ?_
  simp only [quartic', Pi.mul_apply, id]; ring

/-- C84.  The result may be worse than the starting argument, even with exact arithmetic: the line search is abandoned if two successive values of the function are equal, which does not imply that the function is
constant, and the last argument is returned even though the function is larger there.  Here the value is 0 at the starting argument and 5 at the result. -/
theorem C84_worse_counterexample (searchFuel fuel : ℕ) (tolerance : ℝ) (ht : 0 < tolerance) (radius : Option ℝ) :
    bfgs (searchFuel + 2) fuel 0 quartic quartic' (fun x d => ⟪quartic' x, d⟫) tolerance radius (some 1) = .done (.ok (1 / 24)) ∧ quartic 0 = 0 ∧ quartic (1 / 24) = 5 ∧
      (∀ x, HasDerivAt quartic (quartic' x) x) := by
  have q0 : quartic 0 = 0 := by norm_num [quartic]
  have q1 : quartic 1 = 5 := by norm_num [quartic]
  have q2 : quartic (1 / 12) = 5 := by norm_num [quartic]
  have q3 : quartic (1 / 24) = 5 := by norm_num [quartic]
  have d0 : quartic' 0 = -1 := by norm_num [quartic']
  refine ⟨?_, q0, q3, quartic_deriv⟩
  have c1 : candidate ⟨0, 1, 0, 5, -1, none⟩ = 1 / 12 := by
    rw [candidate]
    simp only [Hermite2s.construct]
    rw [if_neg (by norm_num), if_neg (by norm_num)]
    simp only [Option.bind_some, Hermite2s.Hermite2.findExtremum]
    rw [if_neg (by norm_num)]
    simp only
    rw [if_pos (by norm_num [hermite2Tolerance])]
    norm_num
  have c2 : candidate ⟨0, 1 / 12, 0, 5, -1, some 5⟩ = 1 / 24 := by
    rw [candidate]
    simp only [Hermite2s.construct]
    rw [if_neg (by norm_num), if_neg (by norm_num)]
    simp only [Option.bind_some, Hermite2s.Hermite2.findExtremum]
    rw [if_neg (by norm_num)]
    simp only
    rw [if_neg (by norm_num [hermite2Tolerance, abs_of_pos])]
    norm_num
  have hp : -((some (1 : ℝ)).getD tolerance • (‖(-1 : ℝ)‖⁻¹ • (-1 : ℝ))) = 1 := by norm_num
  have hi : ⟪(-1 : ℝ), (1 : ℝ)⟫ = -1 := by simp
  rw [bfgs]
  simp only [d0]
  rw [if_neg (by norm_num), hp]
  have hl : lineSearch (searchFuel + 2) (0 : ℝ) 1 (-1) quartic (fun x d => ⟪quartic' x, d⟫) = .done (1 / 24, false) := by
    rw [lineSearch, lineSearchLoop]
    simp only [smul_eq_mul, mul_one, zero_add, q0, q1, hi]
    rw [if_pos (by right; norm_num), zoom, if_neg (by norm_num)]
    simp only [c1, q2]
    rw [if_neg (by simp), if_pos (by right; norm_num), zoom, if_neg (by norm_num)]
    simp only [c2, q3]
    simp
  rw [hl]
  simp

end

end Principia.Numerics.GradientDescent
