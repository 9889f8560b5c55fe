import Verif.Numerics.Hermite3Model
import Verif.Numerics.PolynomialProps
import Verif.Numerics.RootFindersProps
import Mathlib.Analysis.InnerProductSpace.Calculus
import Mathlib.Analysis.Calculus.LocalExtr.Basic
import Mathlib.Analysis.Calculus.MeanValue
import Mathlib.Topology.Order.Compact
import Mathlib.Tactic.Module
import Mathlib.Tactic.FinCases

set_option linter.unusedSimpArgs false
set_option linter.unusedVariables false
set_option linter.unusedSectionVars false

/-!
# C26: Hermite interpolation
-/

namespace Principia.Hermite3

open Principia.Polynomial Principia.RootFinders

variable {V : Type} [NormedAddCommGroup V] [InnerProductSpace ℝ V]

theorem eval_eq (h : Hermite3 V) (t : ℝ) : h.eval t = h.p.value t := C38_evaluate .estrin h.p t

theorem hasDerivAt_eval (h : Hermite3 V) (t : ℝ) : HasDerivAt h.eval (h.evalDerivative t) t := by
  have e : h.eval = h.p.value := funext (eval_eq h)
  rw [e]
  exact C38_evaluate_derivative .estrin h.p t

theorem value4 (p : Poly ℝ V) (hd : p.degree ≤ 3) (t : ℝ) :
    p.value t = p.get 0 + (t - p.origin) • p.get 1 + (t - p.origin) ^ 2 • p.get 2 + (t - p.origin) ^ 3 • p.get 3 := by
  rw [← value_extend p t 4 (by omega)]
  simp [Finset.sum_range_succ]

theorem derivative4 (p : Poly ℝ V) (hd : p.degree ≤ 3) (t : ℝ) :
    p.evalDerivative .estrin t = p.get 1 + (2 * (t - p.origin)) • p.get 2 + (3 * (t - p.origin) ^ 2) • p.get 3 := by
  have h1 := C38_evaluate_derivative .estrin p t
  have h2 : HasDerivAt p.value (p.get 1 + (2 * (t - p.origin)) • p.get 2 + (3 * (t - p.origin) ^ 2) • p.get 3) t := by
    rw [funext (value4 p hd)]
    have hs := (hasDerivAt_id t).sub_const p.origin
    have a1 := hs.smul_const (p.get 1)
    have a2 := (hs.pow 2).smul_const (p.get 2)
    have a3 := (hs.pow 3).smul_const (p.get 3)
    refine (((a1.const_add (p.get 0)).add a2).add a3).congr_deriv ?_
    simp
  exact h1.unique h2

/-- The interpolant that is constructed for distinct arguments. -/
theorem make_eq (t1 t2 : ℝ) (v1 v2 d1 d2 : V) (h : t1 ≠ t2) :
    ∃ H, make (t1, t2) (v1, v2) (d1, d2) = some H ∧ H.lower = t1 ∧ H.upper = t2 ∧ H.p.origin = t1 ∧ H.p.degree = 3 ∧
      H.p.get 0 = v1 ∧ H.p.get 1 = d1 ∧
      H.p.get 2 = (1 / (t2 - t1) * (1 / (t2 - t1))) • (3 : ℝ) • (v2 - v1) - (1 / (t2 - t1)) • ((2 : ℝ) • d1 + d2) ∧
      H.p.get 3 = (1 / (t2 - t1) * (1 / (t2 - t1) * (1 / (t2 - t1)))) • (-2 : ℝ) • (v2 - v1) +
        (1 / (t2 - t1) * (1 / (t2 - t1))) • (d1 + d2) := by
  have hn : t2 - t1 ≠ 0 := sub_ne_zero.2 (Ne.symm h)
  have : makePolynomial (t1, t2) (v1, v2) (d1, d2) =
      some ⟨[v1, d1, (1 / (t2 - t1) * (1 / (t2 - t1))) • (3 : ℝ) • (v2 - v1) - (1 / (t2 - t1)) • ((2 : ℝ) • d1 + d2),
        (1 / (t2 - t1) * (1 / (t2 - t1) * (1 / (t2 - t1)))) • (-2 : ℝ) • (v2 - v1) +
        (1 / (t2 - t1) * (1 / (t2 - t1))) • (d1 + d2)], t1⟩ := by
    unfold makePolynomial
    simp only
    rw [if_pos (.inl hn), if_neg hn]
  exact ⟨⟨t1, t2, _⟩, by rw [make, this]; rfl, rfl, rfl, rfl, rfl, rfl, rfl, rfl, rfl⟩

/-- **C26** (interpolation): for distinct arguments, the interpolant takes the given values and derivatives at the given arguments. -/
theorem C26_interpolates (t1 t2 : ℝ) (v1 v2 d1 d2 : V) (h : t1 ≠ t2) :
    ∃ H, make (t1, t2) (v1, v2) (d1, d2) = some H ∧
      H.eval t1 = v1 ∧ H.eval t2 = v2 ∧ HasDerivAt H.eval d1 t1 ∧ HasDerivAt H.eval d2 t2 := by
  obtain ⟨H, e, hl, hu, ho, hd, g0, g1, g2, g3⟩ := make_eq t1 t2 v1 v2 d1 d2 h
  have hn : t2 - t1 ≠ 0 := sub_ne_zero.2 (Ne.symm h)
  refine ⟨H, e, ?_, ?_, ?_, ?_⟩
  · rw [eval_eq, value4 H.p (by omega), ho, g0, g1, g2, g3]; simp
  · rw [eval_eq, value4 H.p (by omega), ho, g0, g1, g2, g3]
    match_scalars <;> field_simp <;> ring
  · refine (hasDerivAt_eval H t1).congr_deriv ?_
    rw [Hermite3.evalDerivative, derivative4 H.p (by omega), ho, g1, g2, g3]; simp
  · refine (hasDerivAt_eval H t2).congr_deriv ?_
    rw [Hermite3.evalDerivative, derivative4 H.p (by omega), ho, g1, g2, g3]
    match_scalars <;> field_simp <;> ring

/-- **C26** (derivative): the derivative that is reported is the derivative of the interpolant. -/
theorem C26_derivative (H : Hermite3 V) (t : ℝ) : HasDerivAt H.eval (H.evalDerivative t) t := hasDerivAt_eval H t

/-- **C26** (uniqueness): any polynomial of degree at most 3 is equal everywhere to the interpolant constructed from its values and
derivatives at two distinct arguments.  Thus the interpolant is the only such polynomial with the given values and derivatives, and cubics
are reproduced exactly. -/
theorem C26_unique (t1 t2 : ℝ) (h : t1 ≠ t2) (q : Poly ℝ V) (hq : q.degree ≤ 3) :
    ∃ H, make (t1, t2) (q.value t1, q.value t2) (deriv q.value t1, deriv q.value t2) = some H ∧ ∀ t, H.eval t = q.value t := by
  obtain ⟨H, e, hl, hu, ho, hd, g0, g1, g2, g3⟩ := make_eq t1 t2 (q.value t1) (q.value t2) (deriv q.value t1) (deriv q.value t2) h
  have hn : t2 - t1 ≠ 0 := sub_ne_zero.2 (Ne.symm h)
  refine ⟨H, e, fun t => ?_⟩
  have a := C38_at_origin q t1
  have hv : (q.atOrigin t1).value = q.value := funext fun t => (a t).1
  have d : ∀ t, deriv q.value t = (q.atOrigin t1).evalDerivative .estrin t := fun t => by
    rw [← hv]; exact (C38_evaluate_derivative .estrin _ t).deriv
  have hd' : (q.atOrigin t1).degree ≤ 3 := by rw [(a t).2.2]; exact hq
  rw [d, d, derivative4 _ hd', derivative4 _ hd', ← hv, value4 _ hd', value4 _ hd', (a t).2.1] at g2 g3
  rw [d, derivative4 _ hd', (a t).2.1] at g1
  rw [← hv, value4 _ hd', (a t).2.1] at g0
  rw [eval_eq, value4 H.p (by omega), ho, g0, g1, g2, g3, ← hv, value4 _ hd', (a t).2.1]
  match_scalars <;> field_simp <;> ring

/-- **C26** (same point twice): the interpolant has the given value and derivative. -/
theorem C26_same_point (t : ℝ) (v d : V) :
    ∃ H, make (t, t) (v, v) (d, d) = some H ∧ H.eval t = v ∧ HasDerivAt H.eval d t := by
  have : makePolynomial (t, t) (v, v) (d, d) = some { coeffs := [v, d, 0, 0], origin := t } := by
    unfold makePolynomial; simp
  refine ⟨⟨t, t, { coeffs := [v, d, 0, 0], origin := t }⟩, by rw [make, this]; rfl, ?_, ?_⟩
  · rw [eval_eq, value4 _ (by simp [Poly.degree])]; simp [Poly.get]
  · refine (hasDerivAt_eval _ t).congr_deriv ?_
    rw [Hermite3.evalDerivative, derivative4 _ (by simp [Poly.degree])]; simp [Poly.get]

/-! ### Sums and differences -/

/-- **C26** (difference): the difference of two interpolants that start together is the interpolant of the differences on the shorter
interval. -/
theorem C26_difference (a b : Hermite3 V) (hl : a.lower = b.lower) (ha : a.p.origin = a.lower) (hb : b.p.origin = b.lower) :
    ∃ c, a.sub b = some c ∧ c.lower = a.lower ∧ c.upper = min a.upper b.upper ∧ (∀ t, c.eval t = a.eval t - b.eval t) ∧
      (∀ t, c.evalDerivative t = a.evalDerivative t - b.evalDerivative t) ∧ c.p.origin = c.lower ∧
      c.p.degree = max a.p.degree b.p.degree := by
  classical
  obtain ⟨p, e, o, d, v⟩ := @C38_difference _ _ _ _ _ (fun a b => Classical.propDecidable (a = b)) a.p b.p (by rw [ha, hb, hl])
  refine ⟨⟨b.lower, min a.upper b.upper, p⟩, ?_, hl.symm, rfl, ?_, ?_, ?_, d⟩
  · rw [Hermite3.sub, if_pos hl]
    have : p.origin = b.lower := by rw [o, ha, hl]
    simp only [Option.bind_eq_bind, ofPolynomial]
    refine (congrArg (fun x => Option.bind x _) e).trans ?_
    simp [this]
  · intro t; rw [eval_eq, eval_eq, eval_eq]; exact v t
  · intro t
    have h1 := (hasDerivAt_eval a t).sub (hasDerivAt_eval b t)
    have h2 := hasDerivAt_eval (⟨b.lower, min a.upper b.upper, p⟩ : Hermite3 V) t
    have : (⟨b.lower, min a.upper b.upper, p⟩ : Hermite3 V).eval = fun t => a.eval t - b.eval t := by
      funext t; rw [eval_eq, eval_eq, eval_eq]; exact v t
    rw [this] at h2
    exact h2.unique h1
  · show p.origin = b.lower; rw [o, ha, hl]

/-- **C26** (sum). -/
theorem C26_sum (a b : Hermite3 V) (hl : a.lower = b.lower) (ha : a.p.origin = a.lower) (hb : b.p.origin = b.lower) :
    ∃ c, a.add b = some c ∧ c.lower = a.lower ∧ c.upper = min a.upper b.upper ∧ ∀ t, c.eval t = a.eval t + b.eval t := by
  classical
  obtain ⟨p, e, o, d, v⟩ := @C38_sum _ _ _ _ _ (fun a b => Classical.propDecidable (a = b)) a.p b.p (by rw [ha, hb, hl])
  refine ⟨⟨b.lower, min a.upper b.upper, p⟩, ?_, hl.symm, rfl, ?_⟩
  · rw [Hermite3.add, if_pos hl]
    have : p.origin = b.lower := by rw [o, ha, hl]
    simp only [Option.bind_eq_bind, ofPolynomial]
    refine (congrArg (fun x => Option.bind x _) e).trans ?_
    simp [this]
  · intro t; rw [eval_eq, eval_eq, eval_eq]; exact v t

/-! ### Extrema -/

/-- **C26** (extrema): unless its derivative is constant, the extrema of a real-valued interpolant are exactly the arguments of the interval at
which the derivative is zero, in increasing order. -/
theorem C26_extrema (H : Hermite3 ℝ) (hd : H.p.degree = 3) (hc : H.p.get 2 ≠ 0 ∨ H.p.get 3 ≠ 0) :
    (∀ t, t ∈ H.findExtrema ↔ H.lower ≤ t ∧ t ≤ H.upper ∧ HasDerivAt H.eval 0 t) ∧ H.findExtrema.Pairwise (· < ·) := by
  have d0 : (H.p.derivative 1).get 0 = H.p.get 1 := by
    have := getD_map_range 3 (fun n => ((fallingFactorial ((n + 1 : Nat) : Int) (1 : Nat) : Int) : ℝ) • H.p.get (n + 1)) 0 (by omega)
    simpa [Poly.derivative, hd, Poly.get, fallingFactorial] using this
  have d1 : (H.p.derivative 1).get 1 = 2 * H.p.get 2 := by
    have := getD_map_range 3 (fun n => ((fallingFactorial ((n + 1 : Nat) : Int) (1 : Nat) : Int) : ℝ) • H.p.get (n + 1)) 1 (by omega)
    simpa [Poly.derivative, hd, Poly.get, fallingFactorial] using this
  have d2 : (H.p.derivative 1).get 2 = 3 * H.p.get 3 := by
    have := getD_map_range 3 (fun n => ((fallingFactorial ((n + 1 : Nat) : Int) (1 : Nat) : Int) : ℝ) • H.p.get (n + 1)) 2 (by omega)
    simpa [Poly.derivative, hd, Poly.get, fallingFactorial] using this
  obtain ⟨q1, q2, _⟩ := C41_quadratic H.p.origin (H.p.get 1) (2 * H.p.get 2) (3 * H.p.get 3)
    (hc.imp (fun h => by simpa using h) (fun h => by simpa using h))
  have dd : ∀ t, HasDerivAt H.eval 0 t ↔ H.p.get 1 + 2 * H.p.get 2 * (t - H.p.origin) + 3 * H.p.get 3 * (t - H.p.origin) ^ 2 = 0 := by
    intro t
    have h1 := hasDerivAt_eval H t
    rw [Hermite3.evalDerivative, derivative4 H.p (by omega)] at h1
    have e : H.p.get 1 + (2 * (t - H.p.origin)) • H.p.get 2 + (3 * (t - H.p.origin) ^ 2) • H.p.get 3 =
        H.p.get 1 + 2 * H.p.get 2 * (t - H.p.origin) + 3 * H.p.get 3 * (t - H.p.origin) ^ 2 := by
      simp only [smul_eq_mul]; ring
    constructor
    · intro h; rw [← e]; exact h1.unique h
    · intro h; rw [← e] at h; rwa [h] at h1
  unfold Hermite3.findExtrema
  simp only [d0, d1, d2]
  constructor
  · intro t
    rw [List.mem_filterMap, dd]
    constructor
    · rintro ⟨e, he, hr⟩
      split at hr
      · rename_i hcond
        split at hr
        · simp only [Option.some.injEq] at hr
          subst hr
          exact ⟨hcond.1, hcond.2, (q1 _).1 he⟩
        · simp at hr
      · simp at hr
    · rintro ⟨h1, h2, h3⟩
      refine ⟨.fin t, (q1 t).2 h3, ?_⟩
      rw [if_pos ⟨h1, h2⟩]
  · rw [List.pairwise_filterMap]
    refine q2.imp ?_
    intro x y hxy a ha b hb
    cases x <;> cases y <;> simp_all [Ext.lt]

/-! ### The norm -/

theorem foldl_max (l : List Ext) (a b m : ℝ) (g : ℝ → ℝ) (step : ℝ → Ext → ℝ)
    (hs : ∀ m e, step m e = m ∧ ¬ (∃ x, e = .fin x ∧ a < x ∧ x < b) ∨ ∃ x, e = .fin x ∧ a < x ∧ x < b ∧ step m e = max m (g x)) :
    m ≤ l.foldl step m ∧ (∀ x, Ext.fin x ∈ l → a < x → x < b → g x ≤ l.foldl step m) ∧
      (l.foldl step m = m ∨ ∃ x, a < x ∧ x < b ∧ l.foldl step m = g x) := by
  induction l generalizing m with
  | nil => simp
  | cons e l ih =>
    rw [List.foldl_cons]
    obtain ⟨i1, i2, i3⟩ := ih (step m e)
    rcases hs m e with ⟨h1, h2⟩ | ⟨x, rfl, h1, h2, h3⟩
    · rw [h1] at i1 i2 i3 ⊢
      refine ⟨i1, fun y hy ha hb => ?_, i3⟩
      rcases List.mem_cons.1 hy with hy | hy
      · exact absurd ⟨y, hy.symm, ha, hb⟩ h2
      · exact i2 y hy ha hb
    · rw [h3] at i1 i2 i3 ⊢
      refine ⟨(le_max_left _ _).trans i1, fun y hy ha hb => ?_, ?_⟩
      · rcases List.mem_cons.1 hy with hy | hy
        · simp only [Ext.fin.injEq] at hy; subst hy; exact (le_max_right _ _).trans i1
        · exact i2 y hy ha hb
      · rcases i3 with i3 | i3
        · rcases max_choice m (g x) with h | h
          · left; rw [i3, h]
          · right; exact ⟨x, h1, h2, by rw [i3, h]⟩
        · exact .inr i3

/-- **C26** (norm): the norm that is reported for an interpolant which vanishes at its lower bound together with its derivative is the
maximum of its norm over the interval. -/
theorem C26_norm (H : Hermite3 V) (hd : H.p.degree = 3) (ho : H.p.origin = H.lower) (h0 : H.eval H.lower = 0)
    (h1 : HasDerivAt H.eval 0 H.lower) (hlu : H.lower ≤ H.upper) :
    ∃ m, H.norm = some m ∧ IsGreatest ((fun t => ‖H.eval t‖) '' Set.Icc H.lower H.upper) m := by
  classical
  have v := value4 H.p (by omega)
  have g0 : H.p.get 0 = 0 := by
    have := h0; rw [eval_eq, v, ho] at this; simpa using this
  have g1 : H.p.get 1 = 0 := by
    have := (hasDerivAt_eval H H.lower).unique h1
    rw [Hermite3.evalDerivative, derivative4 H.p (by omega), ho] at this; simpa using this
  obtain ⟨b, hb⟩ : ∃ b, b = H.p.get 2 := ⟨_, rfl⟩
  obtain ⟨c, hc⟩ : ∃ c, c = H.p.get 3 := ⟨_, rfl⟩
  obtain ⟨l, hl⟩ : ∃ l, l = H.lower := ⟨_, rfl⟩
  obtain ⟨u, hu⟩ : ∃ u, u = H.upper := ⟨_, rfl⟩
  rw [ho, g0, g1, ← hb, ← hc, ← hl] at v
  rw [← hl, ← hu] at hlu
  have hv : ∀ t, H.eval t = (t - l) ^ 2 • b + (t - l) ^ 3 • c := fun t => by rw [eval_eq, v]; simp
  -- The derivative polynomial.
  let q : Poly ℝ V := { coeffs := [b, c], origin := l }
  have qd : q.degree = 1 := rfl
  have qv : ∀ t, q.value t = b + (t - l) • c := fun t => by
    rw [Poly.value, qd]
    simp [Finset.sum_range_succ, q, Poly.get]
  have qd1 : (q.derivative 1).degree = 0 := by simp [Poly.derivative, Poly.degree, q]
  have qd1v : ∀ t, (q.derivative 1).value t = c := fun t => by
    have e : (q.derivative 1).get 0 = c := by simp [Poly.derivative, Poly.degree, q, Poly.get, fallingFactorial]
    rw [Poly.value, qd1]; simp [e]
  let mono : Poly ℝ ℝ := { coeffs := [0, 1 / 2], origin := l }
  have mv : ∀ t, mono.value t = (t - l) / 2 := fun t => by
    have : mono.degree = 1 := rfl
    rw [Poly.value, this]
    simp [Finset.sum_range_succ, mono, Poly.get]; ring
  obtain ⟨r, er, or', dr, vr⟩ := @C38_product ℝ ℝ V V _ _ _ _ _ _ _ (fun a b => Classical.propDecidable (a = b))
    (LinearMap.lsmul ℝ V) mono (q.derivative 1) rfl
  obtain ⟨s, es, os, ds, vs⟩ := @C38_sum ℝ V _ _ _ (fun a b => Classical.propDecidable (a = b)) q r (by rw [or'])
  obtain ⟨d, ed, od, dd, vd⟩ := @C38_product ℝ V V ℝ _ _ _ _ _ _ _ (fun a b => Classical.propDecidable (a = b))
    (innerₗ V) q s (by rw [os])
  have ddeg : d.degree = 2 := by
    rw [dd, ds, dr, qd, qd1]
    have : mono.degree = 1 := rfl
    rw [this]
    rfl
  have dval : ∀ t, d.value t = inner ℝ (b + (t - l) • c) (b + (3 / 2 * (t - l)) • c) := fun t => by
    rw [vd, vs, vr, qv, qd1v, mv]
    simp only [innerₗ_apply_apply, LinearMap.lsmul_apply]
    congr 1
    module
  have dcoef : ∀ t, d.value t = d.get 0 + d.get 1 * (t - l) + d.get 2 * (t - l) ^ 2 := fun t => by
    have : d.origin = l := od
    rw [Poly.value, ddeg, this]
    simp [Finset.sum_range_succ]; ring
  let g : ℝ → ℝ := fun t => inner ℝ (H.eval t) (H.eval t)
  let step : ℝ → Ext → ℝ := fun m root =>
    if Ext.lt (.fin H.lower) root ∧ Ext.lt root (.fin H.upper) then
      match root with
      | .fin x => max m (inner ℝ (H.eval x) (H.eval x))
      | _ => m
    else m
  have hstep : ∀ m e, step m e = m ∧ ¬ (∃ x, e = .fin x ∧ l < x ∧ x < u) ∨ ∃ x, e = .fin x ∧ l < x ∧ x < u ∧ step m e = max m (g x) := by
    intro m e
    by_cases hcond : Ext.lt (.fin H.lower) e ∧ Ext.lt e (.fin H.upper)
    · cases e with
      | fin x =>
        right
        exact ⟨x, rfl, by rw [hl]; exact hcond.1, by rw [hu]; exact hcond.2, by simp only [step]; rw [if_pos hcond]⟩
      | posInf => simp [Ext.lt] at hcond
      | negInf => simp [Ext.lt] at hcond
      | nan => simp [Ext.lt] at hcond
    · left
      refine ⟨by simp only [step]; rw [if_neg hcond], ?_⟩
      rintro ⟨x, rfl, h1, h2⟩
      exact hcond ⟨by rw [hl] at h1; exact h1, by rw [hu] at h2; exact h2⟩
  have hnorm : H.norm = some (Real.sqrt ((solveQuadratic l (d.get 0) (d.get 1) (d.get 2)).foldl step (g u))) := by
    unfold Hermite3.norm
    rw [← hb, ← hc, ← hl, ← hu]
    simp only [Option.bind_eq_bind]
    refine (congrArg (fun x => Option.bind x _) er).trans ?_
    simp only [Option.bind_some]
    refine (congrArg (fun x => Option.bind x _) es).trans ?_
    simp only [Option.bind_some]
    refine (congrArg (fun x => Option.bind x _) ed).trans ?_
    simp only [Option.bind_some]
    simp only [step, g, ← hl, ← hu]
    congr 3
  obtain ⟨f1, f2, f3⟩ := foldl_max (solveQuadratic l (d.get 0) (d.get 1) (d.get 2)) l u (g u) g step hstep
  refine ⟨_, hnorm, ?_⟩
  obtain ⟨M, hM⟩ : ∃ M, M = (solveQuadratic l (d.get 0) (d.get 1) (d.get 2)).foldl step (g u) := ⟨_, rfl⟩
  rw [← hM] at f1 f2 f3 ⊢
  have gn : ∀ t, g t = ‖H.eval t‖ ^ 2 := fun t => real_inner_self_eq_norm_sq _
  have gs : ∀ t, Real.sqrt (g t) = ‖H.eval t‖ := fun t => by rw [gn]; exact Real.sqrt_sq (norm_nonneg _)
  rw [← hl, ← hu]
  constructor
  · rcases f3 with f3 | ⟨x, hx1, hx2, f3⟩
    · exact ⟨u, ⟨hlu, le_refl _⟩, by rw [f3, gs]⟩
    · exact ⟨x, ⟨hx1.le, hx2.le⟩, by rw [f3, gs]⟩
  · -- The maximum of `g`.
    have hder : ∀ t, HasDerivAt g (4 * (t - l) ^ 3 * d.value t) t := by
      intro t
      have h1 := (hasDerivAt_eval H t).inner ℝ (hasDerivAt_eval H t)
      refine h1.congr_deriv ?_
      have : H.evalDerivative t = (2 * (t - l)) • b + (3 * (t - l) ^ 2) • c := by
        rw [Hermite3.evalDerivative, derivative4 H.p (by omega), ho, g1, ← hb, ← hc, ← hl]; simp
      rw [this, hv, dval]
      simp only [inner_add_left, inner_add_right, inner_smul_left, inner_smul_right, real_inner_comm b c]
      simp
      ring
    have hcont : ContinuousOn g (Set.Icc l u) := fun t _ => (hder t).continuousAt.continuousWithinAt
    obtain ⟨x, hx, hmax⟩ := isCompact_Icc.exists_isMaxOn ⟨l, ⟨le_refl _, hlu⟩⟩ hcont
    have gl : g l = 0 := by rw [gn, hv]; simp
    have hgx : g x ≤ M := by
      rcases eq_or_lt_of_le hx.2 with e | hxu
      · rw [e]; exact f1
      rcases eq_or_lt_of_le hx.1 with e | hxl
      · rw [← e, gl]; exact le_trans (by rw [gn]; positivity) f1
      have hloc : IsLocalMax g x := hmax.isLocalMax (Icc_mem_nhds hxl hxu)
      have hz := hloc.hasDerivAt_eq_zero (hder x)
      have hx0 : (x - l) ^ 3 ≠ 0 := pow_ne_zero _ (sub_ne_zero.2 hxl.ne')
      have hdx : d.value x = 0 := by
        rcases mul_eq_zero.1 hz with h | h
        · exact absurd h (mul_ne_zero (by norm_num) hx0)
        · exact h
      by_cases hdeg : d.get 1 ≠ 0 ∨ d.get 2 ≠ 0
      · refine f2 x ?_ hxl hxu
        rw [(C41_quadratic l _ _ _ hdeg).1, ← dcoef, hdx]
      · push Not at hdeg
        have hz0 : ∀ t, d.value t = 0 := fun t => by
          rw [dcoef, hdeg.1, hdeg.2] at hdx ⊢; linarith
        have hconst : ∀ t, g t = g l := by
          intro t
          refine is_const_of_deriv_eq_zero (fun t => (hder t).differentiableAt) (fun t => ?_) t l
          rw [(hder t).deriv, hz0 t, mul_zero]
        rw [hconst x, gl]
        exact le_trans (by rw [gn]; positivity) f1
    rintro _ ⟨t, ht, rfl⟩
    show ‖H.eval t‖ ≤ _
    rw [← gs]
    exact Real.sqrt_le_sqrt ((hmax ht).trans hgx)

/-! ### Errors against samples -/

/-- **C26** (error): the error that is reported against samples is the maximum of the distances. -/
theorem C26_error {S : Type} (H : Hermite3 V) (samples : List S) (getArgument : S → ℝ) (getValue : S → V) (hne : samples ≠ []) :
    IsGreatest {x | ∃ s ∈ samples, x = ‖H.eval (getArgument s) - getValue s‖} (H.error samples getArgument getValue) := by
  have key : ∀ (l : List S) (m : ℝ), m ≤ l.foldl (fun result s => max result ‖H.eval (getArgument s) - getValue s‖) m ∧
      (∀ s ∈ l, ‖H.eval (getArgument s) - getValue s‖ ≤ l.foldl (fun result s => max result ‖H.eval (getArgument s) - getValue s‖) m) ∧
      (l.foldl (fun result s => max result ‖H.eval (getArgument s) - getValue s‖) m = m ∨
        ∃ s ∈ l, l.foldl (fun result s => max result ‖H.eval (getArgument s) - getValue s‖) m = ‖H.eval (getArgument s) - getValue s‖) := by
    intro l
    induction l with
    | nil => intro m; simp
    | cons a l ih =>
      intro m
      obtain ⟨i1, i2, i3⟩ := ih (max m ‖H.eval (getArgument a) - getValue a‖)
      rw [List.foldl_cons]
      refine ⟨(le_max_left _ _).trans i1, ?_, ?_⟩
      · intro s hs
        rcases List.mem_cons.1 hs with rfl | hs
        · exact (le_max_right _ _).trans i1
        · exact i2 s hs
      · rcases i3 with i3 | ⟨s, hs, i3⟩
        · rcases max_choice m ‖H.eval (getArgument a) - getValue a‖ with h | h
          · left; rw [i3, h]
          · right; exact ⟨a, by simp, by rw [i3, h]⟩
        · right; exact ⟨s, by simp [hs], i3⟩
  obtain ⟨k1, k2, k3⟩ := key samples 0
  refine ⟨?_, ?_⟩
  · rcases k3 with k3 | ⟨s, hs, k3⟩
    · obtain ⟨s, hs⟩ := List.exists_mem_of_ne_nil samples hne
      refine ⟨s, hs, le_antisymm ?_ (k2 s hs)⟩
      unfold Hermite3.error
      rw [k3]
      exact norm_nonneg _
    · exact ⟨s, hs, k3⟩
  · rintro x ⟨s, hs, rfl⟩
    exact k2 s hs

/-- **C26** (tolerance): `LInfinityL₂ErrorIsWithin` is true exactly if all the distances are less than the tolerance. -/
theorem C26_error_is_within {S : Type} (H : Hermite3 V) (samples : List S) (getArgument : S → ℝ) (getValue : S → V) (tolerance : ℝ) :
    H.errorIsWithin samples getArgument getValue tolerance = true ↔ ∀ s ∈ samples, ‖H.eval (getArgument s) - getValue s‖ < tolerance := by
  simp [Hermite3.errorIsWithin]

/-! ### The `L₁` bound -/

/-- The function `t ↦ t` on `[0, 1]`. -/
noncomputable def exLine : Hermite3 ℝ := ⟨0, 1, ⟨[0, 1, 0, 0], 0⟩⟩

theorem exLine_make : make ((0 : ℝ), 1) ((0 : ℝ), 1) ((1 : ℝ), 1) = some exLine := by
  have : makePolynomial ((0 : ℝ), (1 : ℝ)) ((0 : ℝ), (1 : ℝ)) ((1 : ℝ), (1 : ℝ)) = some ⟨[0, 1, 0, 0], 0⟩ := by
    unfold makePolynomial
    simp
    norm_num
  rw [make, this]; rfl

/-- `LInfinityL₁NormUpperBound` is documented to return an upper bound of the `L₁` norm over the interval.  It does not: it ignores the bounds
of the interval, and it returns 0 for the function `t ↦ t` on `[0, 1]`. -/
theorem C26_l1_bound_counterexample :
    ∃ H : Hermite3 ℝ, make (0, 1) (0, 1) (1, 1) = some H ∧ H.l1NormUpperBound 1 (fun v _ => v) = some 0 ∧ |H.eval 1| = 1 := by
  refine ⟨exLine, exLine_make, ?_, ?_⟩
  · have hx : ∀ s : Hermite3 ℝ, s = exLine → s.findExtrema = [] := by
      rintro s rfl
      unfold Hermite3.findExtrema
      have d0 : (exLine.p.derivative 1).get 0 = 1 := by simp [exLine, Poly.derivative, Poly.degree, Poly.get, fallingFactorial]
      have d1 : (exLine.p.derivative 1).get 1 = 0 := by simp [exLine, Poly.derivative, Poly.degree, Poly.get, fallingFactorial, List.range_succ]
      have d2 : (exLine.p.derivative 1).get 2 = 0 := by simp [exLine, Poly.derivative, Poly.degree, Poly.get, fallingFactorial, List.range_succ]
      simp only [d0, d1, d2]
      unfold solveQuadratic
      simp [Ext.div, Ext.sub, Ext.le]
    simp only [Hermite3.l1NormUpperBound, List.range_one, List.foldlM_cons, List.foldlM_nil, ofPolynomial]
    have o : exLine.p.origin = exLine.lower := rfl
    simp only [o, if_true, Option.bind_eq_bind, Option.bind_some, Option.pure_def]
    rw [hx _ (by simp [exLine, Poly.get])]
    simp
  · rw [eval_eq, value4 _ (by simp [exLine, Poly.degree])]
    simp [exLine, Poly.get]

/-! ### Example -/

/-- The difference between `t²` and `0` on `[0, 2]`: its maximum is 4. -/
example : ∃ H : Hermite3 ℝ, make (0, 2) (0, 4) (0, 4) = some H ∧ H.norm = some 4 := by
  obtain ⟨H, e, hl, hu, ho, hd, g0, g1, g2, g3⟩ := make_eq (0 : ℝ) 2 (0 : ℝ) 4 0 4 (by norm_num)
  obtain ⟨H', e', v1, v2, d1, d2⟩ := C26_interpolates (0 : ℝ) 2 (0 : ℝ) 4 0 4 (by norm_num)
  rw [e] at e'
  simp only [Option.some.injEq] at e'
  subst e'
  obtain ⟨m, hm, hg⟩ := C26_norm H hd (by rw [ho, hl]) (by rw [hl]; exact v1) (by rw [hl]; exact d1) (by rw [hl, hu]; norm_num)
  refine ⟨H, e, ?_⟩
  have g2' : H.p.get 2 = 1 := by rw [g2]; norm_num
  have g3' : H.p.get 3 = 0 := by rw [g3]; norm_num
  have hv : ∀ t, H.eval t = t ^ 2 := fun t => by
    rw [eval_eq, value4 H.p (by omega), ho, g0, g1, g2', g3']; simp
  rw [hm]
  congr 1
  rw [hl, hu] at hg
  obtain ⟨⟨t, ht, hmt⟩, hub⟩ := hg
  have h4 : (4 : ℝ) ≤ m := hub ⟨2, by constructor <;> norm_num, by simp only [hv]; norm_num⟩
  simp only [hv] at hmt
  have : m ≤ 4 := by
    rw [← hmt, Real.norm_eq_abs, abs_of_nonneg (sq_nonneg t)]
    nlinarith [ht.1, ht.2]
  linarith

end Principia.Hermite3
