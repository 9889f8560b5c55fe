import Verif.Integrators.FixedStepProps
import Verif.Integrators.MethodsModel
import Mathlib.Analysis.InnerProductSpace.Basic
import Mathlib.Analysis.Calculus.FDeriv.Prod
import Mathlib.Analysis.Calculus.FDeriv.Comp
import Mathlib.Analysis.Calculus.FDeriv.Add
import Mathlib.Analysis.Calculus.FDeriv.Mul
import Mathlib.Tactic.Module
import Mathlib.Tactic.Abel

/-!
C66: the geometric properties of the symplectic Runge-Kutta-Nyström integrators: time reversibility, conservation of the linear and angular momenta, and symplecticity.
-/

set_option linter.unusedSimpArgs false
set_option linter.unusedVariables false
set_option linter.unusedSectionVars false

namespace Principia.Integrators

noncomputable section

/-! ### Specification -/

/-- The checks of the constructor (see `SRKN.Checked`), except that the sum of the `a` needs not be exactly 1: for most of the methods it is only 1 up to the rounding of the coefficients. -/
structure SRKN.CheckedButSum (m : SRKN) : Prop where
  stages : (match m.composition with | .BA => 0 | _ => 1) < m.stages
  aba : m.composition = .ABA → m.b 0 = 0
  bab : m.composition = .BAB → m.a (m.stages - 1) = 0
  reversibleABA : m.timeReversible = true → m.composition = .ABA → (∀ i < m.stages, m.a i = m.a (m.stages - 1 - i)) ∧ ∀ i < m.stages - 1, m.b (i + 1) = m.b (m.stages - 1 - i)
  reversibleBAB : m.timeReversible = true → m.composition = .BAB → (∀ i < m.stages - 1, m.a i = m.a (m.stages - 2 - i)) ∧ ∀ i < m.stages, m.b i = m.b (m.stages - 1 - i)
  reversibleBA : m.timeReversible = true → m.composition ≠ .BA

/-- Either the sum of the `a` is exactly 1, or the acceleration doesn't depend on the time. -/
def SRKN.Consistent {V : Type*} (m : SRKN) (f : RightHandSide V) : Prop := m.c m.stages = 1 ∨ ∀ t t' q, (f t q).1 = (f t' q).1

/-- The transformations of the phase space whose derivative preserves the symplectic form. -/
def IsSymplectic {E : Type*} [NormedAddCommGroup E] [InnerProductSpace ℝ E] (F : E × E → E × E) : Prop :=
  ∀ p, ∃ D : E × E →L[ℝ] E × E, HasFDerivAt F D p ∧ ∀ u w, inner ℝ (D u).1 (D w).2 - inner ℝ (D u).2 (D w).1 = inner ℝ u.1 w.2 - inner ℝ u.2 w.1

/-! ### A step is a composition of shears -/

variable {V : Type*} [AddCommGroup V] [Module ℝ V]

/-- The exponentials of `B` and of `A`. -/
inductive Op where
  | kick (c : ℝ)
  | drift (c : ℝ)

/-- The shears. -/
def Op.apply (f : RightHandSide V) (h : ℝ) (x : NState V) : Op → NState V
  | .kick c => ⟨x.time, x.positions, x.velocities + (h * c) • (f x.time x.positions).1⟩
  | .drift c => ⟨x.time + c * h, x.positions + (h * c) • x.velocities, x.velocities⟩

/-- Several shears. -/
def applyAll (f : RightHandSide V) (h : ℝ) (ops : List Op) (x : NState V) : NState V := ops.foldl (Op.apply f h) x

/-- The shears of some stages. -/
def SRKN.ops (m : SRKN) (l : List ℕ) : List Op := l.flatMap fun i => [.kick (m.b i), .drift (m.a i)]

theorem applyAll_append (f : RightHandSide V) (h : ℝ) (l l' : List Op) (x : NState V) : applyAll f h (l ++ l') x = applyAll f h l' (applyAll f h l x) := List.foldl_append ..

theorem SRKN.c_succ (m : SRKN) (i : ℕ) : m.c (i + 1) = m.c i + m.a i := Finset.sum_range_succ ..

theorem SRKN.stages_ops (m : SRKN) (f : RightHandSide V) (h : ℝ) (x : NState V) (n : ℕ) : ∀ (k : ℕ) (s : Stage V),
    applyAll f h (m.ops (List.range' k n)) ⟨x.time + m.c k * h, x.positions + s.dq, x.velocities + s.dv⟩ =
      ⟨x.time + m.c (k + n) * h, x.positions + ((List.range' k n).foldl (m.stage f h x) s).dq, x.velocities + ((List.range' k n).foldl (m.stage f h x) s).dv⟩ := by
  induction n with
  | zero => intro k s; rfl
  | succ n ih =>
    intro k s
    rw [List.range'_succ, List.foldl_cons]
    have := ih (k + 1) (m.stage f h x s k)
    rw [show k + 1 + n = k + (n + 1) by omega] at this
    rw [← this]
    show applyAll f h (m.ops (List.range' (k + 1) n)) (Op.apply f h (Op.apply f h _ (.kick (m.b k))) (.drift (m.a k))) = _
    congr 1
    simp only [Op.apply, SRKN.stage]
    rw [m.c_succ]
    congr 1
    · ring
    · module
    · module

theorem SRKN.advance_ops (m : SRKN) (hm : m.CheckedButSum) (f : RightHandSide V) (h : ℝ) (x : NState V) (g : V) (s : Status) (hg : m.composition = .BAB → g = (f x.time x.positions).1) :
    applyAll f h (m.ops (List.range m.stages)) x = { ((m.stepper f).advance h x g s).1 with time := x.time + m.c m.stages * h } := by
  have c0 : m.c 0 = 0 := Finset.sum_range_zero _
  have key : applyAll f h (m.ops (List.range m.stages)) x =
      applyAll f h (m.ops (List.range' m.firstStage (m.stages - m.firstStage)))
        ⟨x.time + m.c m.firstStage * h, x.positions + (m.initialStage h x g s).dq, x.velocities + (m.initialStage h x g s).dv⟩ := by
    have hs := hm.stages
    unfold SRKN.firstStage SRKN.initialStage
    cases hc : m.composition with
    | BA => simp only [c0, Nat.sub_zero, List.range_eq_range', zero_mul, add_zero]
    | ABA =>
      rw [hc] at hs
      simp only at hs
      obtain ⟨n, hn⟩ : ∃ n, m.stages = n + 1 := ⟨m.stages - 1, by omega⟩
      rw [hn, List.range_eq_range', List.range'_succ, Nat.add_sub_cancel]
      show applyAll f h (m.ops (List.range' 1 n)) (Op.apply f h (Op.apply f h x (.kick (m.b 0))) (.drift (m.a 0))) = _
      congr 1
      simp only [Op.apply, hm.aba hc, mul_zero, zero_smul, add_zero, m.c_succ, c0, zero_add]
    | BAB =>
      rw [hc] at hs
      simp only at hs
      obtain ⟨n, hn⟩ : ∃ n, m.stages = n + 1 := ⟨m.stages - 1, by omega⟩
      rw [hn, List.range_eq_range', List.range'_succ, Nat.add_sub_cancel]
      show applyAll f h (m.ops (List.range' 1 n)) (Op.apply f h (Op.apply f h x (.kick (m.b 0))) (.drift (m.a 0))) = _
      congr 1
      simp only [Op.apply, hg hc, m.c_succ, c0, zero_add]
  rw [key, m.stages_ops]
  have hs := hm.stages
  have : m.firstStage + (m.stages - m.firstStage) = m.stages := by
    unfold SRKN.firstStage
    cases hc : m.composition <;> rw [hc] at hs <;> simp only at hs ⊢ <;> omega
  rw [this]
  rfl

/-- The positions and the velocities, without the time. -/
def NState.phase (x : NState V) : V × V := (x.positions, x.velocities)

theorem applyAll_autonomous {f : RightHandSide V} (hf : ∀ t t' q, (f t q).1 = (f t' q).1) (h : ℝ) (l : List Op) : ∀ x y : NState V, x.phase = y.phase → (applyAll f h l x).phase = (applyAll f h l y).phase := by
  induction l with
  | nil => intro x y e; exact e
  | cons o l ih =>
    intro x y e
    refine ih _ _ ?_
    simp only [NState.phase, Prod.mk.injEq] at e ⊢
    cases o with
    | kick c => simp only [Op.apply, e.1, e.2, hf x.time y.time, and_self]
    | drift c => simp only [Op.apply, e.1, e.2, and_self]

/-- One step, starting with an evaluation. -/
def SRKN.step (m : SRKN) (f : RightHandSide V) (h : ℝ) (x : NState V) : NState V := ⟨x.time + h, (applyAll f h (m.ops (List.range m.stages)) x).positions, (applyAll f h (m.ops (List.range m.stages)) x).velocities⟩

theorem SRKN.advance_step (m : SRKN) (hm : m.CheckedButSum) (f : RightHandSide V) (h : ℝ) (x : NState V) (g : V) (s : Status) (hg : m.composition = .BAB → g = (f x.time x.positions).1) :
    ((m.stepper f).advance h x g s).1 = m.step f h x := by
  unfold SRKN.step
  rw [m.advance_ops hm f h x g s hg]
  rfl

theorem SRKN.last_evaluation' (m : SRKN) (hm : m.CheckedButSum) (hc : m.composition = .BAB) (f : RightHandSide V) (hcons : m.Consistent f) (h : ℝ) (x : NState V) (g : V) (s : Status) :
    ((m.stepper f).advance h x g s).2.1 = (f ((m.stepper f).advance h x g s).1.time ((m.stepper f).advance h x g s).1.positions).1 := by
  have hs := hm.stages
  rw [hc] at hs
  simp only at hs
  have ha := hm.bab hc
  have hlast : m.c (m.stages - 1) = m.c m.stages := by
    obtain ⟨n, hn⟩ : ∃ n, m.stages = n + 1 := ⟨m.stages - 1, by omega⟩
    rw [hn, Nat.add_sub_cancel] at ha
    rw [hn, Nat.add_sub_cancel, m.c_succ, ha, add_zero]
  have hfs : m.firstStage = 1 := by unfold SRKN.firstStage; rw [hc]
  show (m.allStages f h x g s).g = (f (x.time + h) (x.positions + (m.allStages f h x g s).dq)).1
  unfold SRKN.allStages
  rw [hfs]
  obtain ⟨n, hn⟩ : ∃ n, m.stages - 1 = n + 1 := ⟨m.stages - 2, by omega⟩
  rw [hn, List.range'_concat, List.foldl_append, List.foldl_cons, List.foldl_nil]
  have e : 1 + 1 * n = m.stages - 1 := by omega
  rw [e]
  simp only [SRKN.stage]
  rw [hlast, ha]
  rcases hcons with h1 | h1
  · rw [h1]; simp
  · rw [h1 _ (x.time + h)]; simp

theorem SRKN.start_valid (m : SRKN) (f : RightHandSide V) (x : NState V) (hc : m.composition = .BAB) : ((m.stepper f).start x).1 = (f x.time x.positions).1 := by
  show (match m.composition with | .BAB => _ | _ => _ : V × Status).1 = _
  rw [hc]

theorem SRKN.iter_step (m : SRKN) (hm : m.CheckedButSum) (f : RightHandSide V) (hcons : m.Consistent f) (h : ℝ) (x : NState V) (k : ℕ) :
    ((m.stepper f).iter h (x, (m.stepper f).start x) k).1 = (m.step f h)^[k] x ∧
      (m.composition = .BAB → ((m.stepper f).iter h (x, (m.stepper f).start x) k).2.1 = (f ((m.step f h)^[k] x).time ((m.step f h)^[k] x).positions).1) := by
  induction k with
  | zero => exact ⟨rfl, m.start_valid f x⟩
  | succ k ih =>
    obtain ⟨h1, h2⟩ := ih
    have e : ((m.stepper f).iter h (x, (m.stepper f).start x) (k + 1)).1 = (m.step f h)^[k + 1] x := by
      rw [Function.iterate_succ_apply', ← h1]
      exact m.advance_step hm f h _ _ _ fun hc => by rw [h1]; exact h2 hc
    refine ⟨e, fun hc => ?_⟩
    rw [← e]
    exact m.last_evaluation' hm hc f hcons h _ _ _

/-! ### Time reversibility -/

theorem Op.apply_neg (f : RightHandSide V) (h : ℝ) (x : NState V) (o : Op) : Op.apply f (-h) (Op.apply f h x o) o = x := by
  cases o with
  | kick c => ext <;> simp only [Op.apply]; module
  | drift c =>
    ext <;> simp only [Op.apply]
    · ring
    · module

theorem applyAll_neg (f : RightHandSide V) (h : ℝ) (l : List Op) : ∀ x, applyAll f (-h) l.reverse (applyAll f h l x) = x := by
  induction l with
  | nil => intro x; rfl
  | cons o l ih =>
    intro x
    rw [List.reverse_cons, applyAll_append]
    show Op.apply f (-h) (applyAll f (-h) l.reverse (applyAll f h l (Op.apply f h x o))) o = x
    rw [ih, Op.apply_neg]

theorem Op.apply_zero_kick (f : RightHandSide V) (h : ℝ) (x : NState V) : Op.apply f h x (.kick 0) = x := by ext <;> simp [Op.apply]

theorem Op.apply_zero_drift (f : RightHandSide V) (h : ℝ) (x : NState V) : Op.apply f h x (.drift 0) = x := by ext <;> simp [Op.apply]

theorem flatMap_reverse {A : Type*} (n : ℕ) (p q : ℕ → A) : ((List.range n).flatMap fun i => [p i, q i]).reverse = (List.range n).flatMap fun i => [q (n - 1 - i), p (n - 1 - i)] := by
  induction n with
  | zero => rfl
  | succ n ih =>
    rw [List.range_succ, List.flatMap_append, List.reverse_append, ih, ← List.range_succ, List.range_succ_eq_map, List.flatMap_cons (xs := List.map _ _), List.flatMap_map]
    simp only [List.flatMap_cons, List.flatMap_nil, List.append_nil, List.reverse_cons, List.reverse_nil, List.nil_append, Nat.sub_zero, Nat.add_sub_cancel, List.cons_append]
    congr 2
    rw [List.flatMap_def, List.flatMap_def]
    congr 1
    apply List.map_congr_left
    intro i hi
    rw [show n - 1 - i = n - (i + 1) by omega]

theorem flatMap_regroup {A : Type*} (n : ℕ) (p q : ℕ → A) : (List.range n).flatMap (fun i => [p i, q i]) ++ [p n] = p 0 :: (List.range n).flatMap fun i => [q i, p (i + 1)] := by
  induction n with
  | zero => rfl
  | succ n ih =>
    rw [List.range_succ, List.flatMap_append, List.flatMap_append, ← List.cons_append, ← ih]
    simp

theorem flatMap_congr {A : Type*} (n : ℕ) (p q : ℕ → List A) (h : ∀ i < n, p i = q i) : (List.range n).flatMap p = (List.range n).flatMap q := by
  rw [List.flatMap_def, List.flatMap_def]
  congr 1
  exact List.map_congr_left fun i hi => h i (List.mem_range.1 hi)

/-- The shears of a time-reversible method are a palindrome, up to one of them which does nothing. -/
theorem SRKN.palindrome (m : SRKN) (hm : m.CheckedButSum) (hr : m.timeReversible = true) : ∃ l : List Op, l.reverse = l ∧ ∀ (f : RightHandSide V) h x, applyAll f h (m.ops (List.range m.stages)) x = applyAll f h l x := by
  have hs := hm.stages
  cases hc : m.composition with
  | BA => exact absurd hc (hm.reversibleBA hr)
  | ABA =>
    rw [hc] at hs
    simp only at hs
    obtain ⟨n, hn⟩ : ∃ n, m.stages = n + 1 := ⟨m.stages - 1, by omega⟩
    obtain ⟨ra, rb⟩ := hm.reversibleABA hr hc
    rw [hn] at ra rb
    simp only [Nat.add_sub_cancel] at ra rb
    have hops : m.ops (List.range m.stages) = .kick (m.b 0) :: .drift (m.a 0) :: (List.range n).flatMap fun i => [.kick (m.b (i + 1)), .drift (m.a (i + 1))] := by
      rw [hn, SRKN.ops, List.range_succ_eq_map, List.flatMap_cons, List.flatMap_map]
      rfl
    refine ⟨.drift (m.a 0) :: (List.range n).flatMap fun i => [.kick (m.b (i + 1)), .drift (m.a (i + 1))], ?_, fun f h x => ?_⟩
    · rw [List.reverse_cons, flatMap_reverse]
      have e : (List.range n).flatMap (fun i => [Op.drift (m.a (n - 1 - i + 1)), Op.kick (m.b (n - 1 - i + 1))]) = (List.range n).flatMap fun i => [Op.drift (m.a i), Op.kick (m.b (i + 1))] := by
        refine flatMap_congr n _ _ fun i hi => ?_
        rw [show n - 1 - i + 1 = n - i by omega, ← ra i (by omega), ← rb i (by omega)]
      rw [e]
      have := flatMap_regroup n (fun i => Op.drift (m.a i)) (fun i => Op.kick (m.b (i + 1)))
      have r0 : m.a n = m.a 0 := by have := ra 0 (by omega); rw [Nat.sub_zero] at this; exact this.symm
      rw [r0] at this
      exact this
    · rw [hops]
      show applyAll f h _ (Op.apply f h x (.kick (m.b 0))) = _
      rw [hm.aba hc, Op.apply_zero_kick]
  | BAB =>
    rw [hc] at hs
    simp only at hs
    obtain ⟨n, hn⟩ : ∃ n, m.stages = n + 1 := ⟨m.stages - 1, by omega⟩
    obtain ⟨ra, rb⟩ := hm.reversibleBAB hr hc
    have ha := hm.bab hc
    rw [hn] at ra rb ha
    simp only [Nat.add_sub_cancel] at ra rb ha
    have hops : m.ops (List.range m.stages) = ((List.range n).flatMap (fun i => [Op.kick (m.b i), Op.drift (m.a i)]) ++ [Op.kick (m.b n)]) ++ [.drift (m.a n)] := by
      rw [hn, SRKN.ops, List.range_succ, List.flatMap_append, List.append_assoc]
      rfl
    refine ⟨(List.range n).flatMap (fun i => [Op.kick (m.b i), Op.drift (m.a i)]) ++ [Op.kick (m.b n)], ?_, fun f h x => ?_⟩
    · rw [List.reverse_append, flatMap_reverse, flatMap_regroup n (fun i => Op.kick (m.b i)) (fun i => Op.drift (m.a i))]
      have r0 : m.b n = m.b 0 := by have := rb 0 (by omega); rw [Nat.sub_zero] at this; exact this.symm
      rw [List.reverse_singleton, List.singleton_append, r0]
      congr 1
      refine flatMap_congr n _ _ fun i hi => ?_
      rw [show n - 1 - i = n + 1 - 2 - i by omega, ← ra i (by omega), show n + 1 - 2 - i = n - (i + 1) by omega, ← rb (i + 1) (by omega)]
    · rw [hops, applyAll_append, ha]
      exact Op.apply_zero_drift f h _

theorem applyAll_time (f : RightHandSide V) (h : ℝ) (x : NState V) (m : SRKN) (n : ℕ) : (applyAll f h (m.ops (List.range n)) x).time = x.time + m.c n * h := by
  have := m.stages_ops f h x n 0 ⟨0, 0, 0, .ok⟩
  rw [show m.c 0 = 0 from Finset.sum_range_zero _] at this
  simp only [zero_mul, add_zero, zero_add] at this
  rw [List.range_eq_range']
  exact congrArg NState.time this

/-- A step backward undoes a step forward. -/
theorem SRKN.step_neg (m : SRKN) (hm : m.CheckedButSum) (hr : m.timeReversible = true) (f : RightHandSide V) (hcons : m.Consistent f) (h : ℝ) (x : NState V) : m.step f (-h) (m.step f h x) = x := by
  obtain ⟨l, hl, e⟩ := m.palindrome (V := V) hm hr
  have back : (applyAll f (-h) (m.ops (List.range m.stages)) (m.step f h x)).phase = x.phase := by
    have h1 : applyAll f (-h) (m.ops (List.range m.stages)) (applyAll f h (m.ops (List.range m.stages)) x) = x := by
      rw [e, e]
      have := applyAll_neg f h l x
      rw [hl] at this
      exact this
    conv_rhs => rw [← h1]
    rcases hcons with hs | ha
    · congr 2
      ext
      · rw [applyAll_time, hs]; show x.time + h = _; ring
      · rfl
      · rfl
    · exact applyAll_autonomous ha _ _ _ _ rfl
  simp only [NState.phase, Prod.mk.injEq] at back
  ext
  · show x.time + h + -h = x.time; ring
  · exact back.1
  · exact back.2

theorem floor_steps (h t : ℝ) (hh : h ≠ 0) (n : ℕ) : ⌊(t - (t + n * h)) / -h⌋₊ = n := by
  have : (t - (t + n * h)) / -h = n := by field_simp; ring
  rw [this, Nat.floor_natCast]

/-- **C66, time reversibility.** If an instance of a symplectic Runge-Kutta-Nyström integrator which is declared time-reversible has integrated an equation and has made at least one step, an instance that
starts from the resulting state with the opposite step comes back to the initial state, and it passes to `append_state` the same states, in the reverse order. -/
theorem C66_time_reversible (m : SRKN) (hm : m.CheckedButSum) (hr : m.timeReversible = true) (f : RightHandSide V) (hcons : m.Consistent f) (hf : ∀ t q, (f t q).2 ≠ .aborted) (h tFinal : ℝ) (fuel : ℕ) (x : NState V)
    (r : Result (NState V)) (hs : (m.stepper f).solve (fun _ => false) true h fuel tFinal x = .ok r) (hn : r.appended ≠ []) :
    ∃ r', (m.stepper f).solve (fun _ => false) true (-h) fuel x.time r.state = .ok r' ∧ r'.state = x ∧ r'.appended = (x :: r.appended).reverse.tail := by
  have hadv := m.stepper_time f
  have ha : Ahead h x.time tFinal := (m.stepper f).solve_no_check _ true rfl hs
  obtain ⟨hh, h0⟩ := ahead_ratio ha
  have hfuel : ⌊(tFinal - x.time) / h⌋₊ < fuel := by
    have hs' := hs
    rw [(m.stepper f).solve_ahead _ true ha] at hs'
    exact (m.stepper f).loop_fuel _ hadv (m.stepper_not_aborted f hf) (fun _ => rfl) h tFinal hh fuel (x, (m.stepper f).start x) [] r h0 (m.start_not_aborted f hf x) hs'
  obtain ⟨st, e⟩ := (m.stepper f).solve_full (fun _ => false) hadv (m.stepper_not_aborted f hf) (m.start_not_aborted f hf) (fun _ => rfl) true h tFinal x ha fuel hfuel
  rw [hs] at e
  injection e with e
  subst e
  simp only at hn ⊢
  obtain ⟨n, hn'⟩ : ∃ n, n = ⌊(tFinal - (m.stepper f).time x) / h⌋₊ := ⟨_, rfl⟩
  have hfuel : n < fuel := hn' ▸ hfuel
  rw [← hn'] at hn ⊢
  have hpos : 0 < n := by
    rcases Nat.eq_zero_or_pos n with h | h
    · rw [h] at hn; exact absurd rfl hn
    · exact h
  have hpos' : (0 : ℝ) < n := by exact_mod_cast hpos
  rw [(m.iter_step hm f hcons h x n).1]
  have htime : ((m.step f h)^[n] x).time = x.time + n * h := by
    rw [← (m.iter_step hm f hcons h x n).1]
    exact (m.stepper f).iter_time hadv h (x, (m.stepper f).start x) n
  have ha' : Ahead (-h) ((m.stepper f).time ((m.step f h)^[n] x)) x.time := by
    show Ahead (-h) ((m.step f h)^[n] x).time x.time
    rw [htime]
    rcases lt_or_gt_of_ne hh with hneg | hpos''
    · exact .inl ⟨by linarith, by nlinarith⟩
    · exact .inr ⟨by linarith, by nlinarith⟩
  have hfl : ⌊(x.time - (m.stepper f).time ((m.step f h)^[n] x)) / -h⌋₊ = n := by
    show ⌊(x.time - ((m.step f h)^[n] x).time) / -h⌋₊ = n
    rw [htime]
    exact floor_steps h x.time hh n
  obtain ⟨st', e'⟩ := (m.stepper f).solve_full (fun _ => false) hadv (m.stepper_not_aborted f hf) (m.start_not_aborted f hf) (fun _ => rfl) true (-h) x.time ((m.step f h)^[n] x) ha' fuel (by rw [hfl]; exact hfuel)
  rw [hfl] at e'
  have back : ∀ j ≤ n, (m.step f (-h))^[j] ((m.step f h)^[n] x) = (m.step f h)^[n - j] x := by
    intro j
    induction j with
    | zero => intro _; rfl
    | succ j ih =>
      intro hj
      rw [Function.iterate_succ_apply', ih (by omega), show n - j = n - (j + 1) + 1 by omega, Function.iterate_succ_apply', m.step_neg hm hr f hcons]
  have hstates : ∀ (h : ℝ) (y : NState V), (m.stepper f).states h (y, (m.stepper f).start y) n = (List.range n).map fun j => (m.step f h)^[j + 1] y := by
    intro h y
    unfold Stepper.states
    exact List.map_congr_left fun j _ => (m.iter_step hm f hcons h y (j + 1)).1
  refine ⟨_, e', ?_, ?_⟩
  · show ((m.stepper f).iter (-h) _ n).1 = x
    rw [(m.iter_step hm f hcons (-h) _ n).1, back n le_rfl, Nat.sub_self]
    rfl
  · show (m.stepper f).states (-h) _ n = _
    rw [hstates, hstates]
    have e1 : x :: (List.range n).map (fun j => (m.step f h)^[j + 1] x) = (List.range (n + 1)).map fun j => (m.step f h)^[j] x := by
      rw [List.range_succ_eq_map, List.map_cons, List.map_map]
      rfl
    rw [e1, List.range_succ, List.map_append, List.reverse_append]
    show _ = ((List.range n).map fun j => (m.step f h)^[j] x).reverse
    rw [← List.map_reverse]
    apply List.ext_getElem
    · simp
    · intro i h1 h2
      simp only [List.length_map, List.length_range] at h1
      simp only [List.getElem_map, List.getElem_range, List.getElem_reverse, List.length_range]
      rw [back (i + 1) (by omega), show n - (i + 1) = n - 1 - i by omega]

/-! ### Conservation laws -/

theorem Stepper.solve_invariant {X G : Type*} (S : Stepper X G) (P : X → G → Prop) (stop : List X → Bool) (checkStep : Bool) (h tFinal : ℝ) (fuel : ℕ) (x : X) (h0 : P x (S.start x).1)
    (hadv : ∀ x g s, P x g → P (S.advance h x g s).1 (S.advance h x g s).2.1) (r : Result X) (hr : S.solve stop checkStep h fuel tFinal x = .ok r) : ∀ y ∈ r.state :: r.appended, ∃ g, P y g := by
  have loop : ∀ (fuel : ℕ) (x : X) (g : G) (status : Status) (out : List X) (r : Result X), P x g → (∀ y ∈ out, ∃ g, P y g) → S.loop stop h tFinal fuel x g status out = .ok r → ∀ y ∈ r.state :: r.appended, ∃ g, P y g := by
    intro fuel
    induction fuel with
    | zero => intro x g status out r _ _ hr; simp [Stepper.loop] at hr
    | succ fuel ih =>
      intro x g status out r hx hout hr
      rw [Stepper.loop] at hr
      have hx' := hadv x g status hx
      have hout' : ∀ y ∈ out ++ [(S.advance h x g status).1], ∃ g, P y g := by
        intro y hy
        rcases List.mem_append.1 hy with hy | hy
        · exact hout y hy
        · rw [List.mem_singleton] at hy; subst hy; exact ⟨_, hx'⟩
      by_cases hc : |h| ≤ |tFinal - S.time x|
      · rw [if_pos hc] at hr
        by_cases hst : stop (out ++ [(S.advance h x g status).1]) = true
        · rw [if_pos hst] at hr
          injection hr with hr
          subst hr
          intro y hy
          rcases List.mem_cons.1 hy with rfl | hy
          · exact ⟨_, hx'⟩
          · exact hout' y hy
        · rw [if_neg hst] at hr
          by_cases hab : (S.advance h x g status).2.2 = .aborted
          · rw [if_pos hab] at hr
            injection hr with hr
            subst hr
            intro y hy
            rcases List.mem_cons.1 hy with rfl | hy
            · exact ⟨_, hx'⟩
            · exact hout' y hy
          · rw [if_neg hab] at hr
            exact ih _ _ _ _ r hx' hout' hr
      · rw [if_neg hc] at hr
        injection hr with hr
        subst hr
        intro y hy
        rcases List.mem_cons.1 hy with rfl | hy
        · exact ⟨g, hx⟩
        · exact hout y hy
  unfold Stepper.solve at hr
  by_cases h1 : checkStep = true ∧ h = 0
  · rw [if_pos h1] at hr; cases hr
  rw [if_neg h1] at hr
  by_cases h2 : 0 ≤ h ∧ ¬ S.time x < tFinal
  · rw [if_pos h2] at hr; cases hr
  rw [if_neg h2] at hr
  by_cases h3 : h < 0 ∧ ¬ tFinal < S.time x
  · rw [if_pos h3] at hr; cases hr
  rw [if_neg h3] at hr
  exact loop fuel x _ _ [] r h0 (by simp) hr

theorem SRKN.solve_phase_invariant (m : SRKN) (hm : m.CheckedButSum) (f : RightHandSide V) (hcons : m.Consistent f) (P : NState V → Prop) (stop : List (NState V) → Bool) (h tFinal : ℝ) (fuel : ℕ) (x : NState V) (h0 : P x)
    (hstep : ∀ x, P x → P (m.step f h x)) (r : Result (NState V)) (hr : (m.stepper f).solve stop true h fuel tFinal x = .ok r) : ∀ y ∈ r.state :: r.appended, P y := by
  intro y hy
  obtain ⟨g, hg⟩ := (m.stepper f).solve_invariant (fun x g => P x ∧ (m.composition = .BAB → g = (f x.time x.positions).1)) stop true h tFinal fuel x ⟨h0, m.start_valid f x⟩
    (fun x g s ⟨h1, h2⟩ => ⟨by rw [m.advance_step hm f h x g s h2]; exact hstep x h1, fun hc => m.last_evaluation' hm hc f hcons h x g s⟩) r hr y hy
  exact hg.1

theorem applyAll_invariant (f : RightHandSide V) (h : ℝ) (P : V × V → Prop) (hk : ∀ (q v : V) (t c : ℝ), P (q, v) → P (q, v + (h * c) • (f t q).1)) (hd : ∀ (q v : V) (c : ℝ), P (q, v) → P (q + (h * c) • v, v)) (l : List Op) :
    ∀ x : NState V, P x.phase → P (applyAll f h l x).phase := by
  induction l with
  | nil => intro x hx; exact hx
  | cons o l ih =>
    intro x hx
    refine ih _ ?_
    cases o with
    | kick c => exact hk _ _ _ c hx
    | drift c => exact hd _ _ c hx

/-- **C66, linear momentum.** If the forces have no resultant, which is a linear function of the accelerations, the corresponding momentum is the same in all the states, including if the integration is interrupted. -/
theorem C66_linear_momentum (m : SRKN) (hm : m.CheckedButSum) (f : RightHandSide V) (hcons : m.Consistent f) {W : Type*} [AddCommGroup W] [Module ℝ W] (momentum : V →ₗ[ℝ] W) (hforce : ∀ t q, momentum (f t q).1 = 0)
    (stop : List (NState V) → Bool) (h tFinal : ℝ) (fuel : ℕ) (x : NState V) (r : Result (NState V)) (hr : (m.stepper f).solve stop true h fuel tFinal x = .ok r) :
    ∀ y ∈ r.state :: r.appended, momentum y.velocities = momentum x.velocities :=
  m.solve_phase_invariant hm f hcons (fun y => momentum y.velocities = momentum x.velocities) stop h tFinal fuel x rfl (fun y hy =>
    applyAll_invariant f h (fun p => momentum p.2 = momentum x.velocities) (fun q v t c hv => by simp only at hv ⊢; rw [map_add, map_smul, hforce, smul_zero, add_zero, hv]) (fun q v c hv => hv) _ y hy) r hr

theorem applyAll_centre (f : RightHandSide V) (h : ℝ) {W : Type*} [AddCommGroup W] [Module ℝ W] (momentum : V →ₗ[ℝ] W) (hforce : ∀ t q, momentum (f t q).1 = 0) (l : List Op) : ∀ x : NState V,
    momentum (applyAll f h l x).velocities = momentum x.velocities ∧
      momentum (applyAll f h l x).positions = momentum x.positions + ((applyAll f h l x).time - x.time) • momentum x.velocities := by
  induction l with
  | nil => intro x; exact ⟨rfl, by simp [applyAll]⟩
  | cons o l ih =>
    intro x
    obtain ⟨h1, h2⟩ := ih (Op.apply f h x o)
    refine ⟨h1.trans ?_, h2.trans ?_⟩
    · cases o with
      | kick c => show momentum (_ + _) = _; rw [map_add, map_smul, hforce, smul_zero, add_zero]
      | drift c => rfl
    · show _ = momentum x.positions + ((applyAll f h l (Op.apply f h x o)).time - x.time) • momentum x.velocities
      cases o with
      | kick c => simp only [Op.apply]; rw [map_add, map_smul, hforce, smul_zero, add_zero]
      | drift c => simp only [Op.apply]; rw [map_add, map_smul]; module

/-- **C66, motion of the centre of mass.** If moreover the sum of the coefficients is exactly 1, the centre of mass is in uniform rectilinear motion. -/
theorem C66_centre_of_mass (m : SRKN) (hm : m.Checked) (f : RightHandSide V) {W : Type*} [AddCommGroup W] [Module ℝ W] (momentum : V →ₗ[ℝ] W) (hforce : ∀ t q, momentum (f t q).1 = 0)
    (stop : List (NState V) → Bool) (h tFinal : ℝ) (fuel : ℕ) (x : NState V) (r : Result (NState V)) (hr : (m.stepper f).solve stop true h fuel tFinal x = .ok r) :
    ∀ y ∈ r.state :: r.appended, momentum y.positions = momentum x.positions + (y.time - x.time) • momentum x.velocities := by
  have hm' : m.CheckedButSum := ⟨hm.stages, hm.aba, hm.bab, hm.reversibleABA, hm.reversibleBAB, hm.reversibleBA⟩
  have key := m.solve_phase_invariant hm' f (.inl hm.sum) (fun y => momentum y.velocities = momentum x.velocities ∧ momentum y.positions = momentum x.positions + (y.time - x.time) • momentum x.velocities)
    stop h tFinal fuel x ⟨rfl, by simp⟩ (fun y ⟨h1, h2⟩ => by
      obtain ⟨k1, k2⟩ := applyAll_centre f h momentum hforce (m.ops (List.range m.stages)) y
      refine ⟨k1.trans h1, k2.trans ?_⟩
      rw [applyAll_time, hm.sum, h2, h1]
      show _ = momentum x.positions + (y.time + h - x.time) • momentum x.velocities
      module) r hr
  exact fun y hy => (key y hy).2

/-- **C66, angular momentum.** If the forces have no torque, the angular momentum (more generally, an alternating bilinear function of the positions and of the velocities) is the same in all the states. -/
theorem C66_angular_momentum (m : SRKN) (hm : m.CheckedButSum) (f : RightHandSide V) (hcons : m.Consistent f) {W : Type*} [AddCommGroup W] [Module ℝ W] (moment : V →ₗ[ℝ] V →ₗ[ℝ] W) (halt : ∀ v, moment v v = 0)
    (htorque : ∀ t q, moment q (f t q).1 = 0) (stop : List (NState V) → Bool) (h tFinal : ℝ) (fuel : ℕ) (x : NState V) (r : Result (NState V)) (hr : (m.stepper f).solve stop true h fuel tFinal x = .ok r) :
    ∀ y ∈ r.state :: r.appended, moment y.positions y.velocities = moment x.positions x.velocities :=
  m.solve_phase_invariant hm f hcons (fun y => moment y.positions y.velocities = moment x.positions x.velocities) stop h tFinal fuel x rfl (fun y hy =>
    applyAll_invariant f h (fun p => moment p.1 p.2 = moment x.positions x.velocities) (fun q v t c hv => by simp only at hv ⊢; rw [map_add, map_smul, htorque, smul_zero, add_zero, hv])
      (fun q v c hv => by simp only at hv ⊢; rw [map_add, map_smul, LinearMap.add_apply, LinearMap.smul_apply, halt, smul_zero, add_zero, hv]) _ y hy) r hr

/-! ### Symplecticity -/

section Symplectic

variable {E : Type*} [NormedAddCommGroup E] [InnerProductSpace ℝ E]

theorem IsSymplectic.comp {F G : E × E → E × E} (hF : IsSymplectic F) (hG : IsSymplectic G) : IsSymplectic (F ∘ G) := by
  intro p
  obtain ⟨D, h1, h2⟩ := hG p
  obtain ⟨D', h1', h2'⟩ := hF (G p)
  exact ⟨D'.comp D, h1'.comp p h1, fun u w => by simp only [ContinuousLinearMap.comp_apply]; rw [h2', h2]⟩

theorem isSymplectic_id : IsSymplectic (id : E × E → E × E) := fun p => ⟨ContinuousLinearMap.id ℝ _, hasFDerivAt_id p, fun _ _ => rfl⟩

/-- The accelerations derive from a potential: their derivative is symmetric. -/
def Conservative (f : RightHandSide E) : Prop := ∀ t q, ∃ A : E →L[ℝ] E, HasFDerivAt (fun q => (f t q).1) A q ∧ ∀ u w, inner ℝ (A u) w = inner ℝ u (A w)

theorem isSymplectic_op {f : RightHandSide E} (hf : Conservative f) (h t : ℝ) (o : Op) : IsSymplectic fun p : E × E => (Op.apply f h ⟨t, p.1, p.2⟩ o).phase := by
  intro p
  cases o with
  | kick c =>
    obtain ⟨A, h1, h2⟩ := hf t p.1
    refine ⟨(ContinuousLinearMap.fst ℝ E E).prod (ContinuousLinearMap.snd ℝ E E + (h * c) • A.comp (ContinuousLinearMap.fst ℝ E E)), ?_, fun u w => ?_⟩
    · exact hasFDerivAt_fst.prodMk (hasFDerivAt_snd.add ((h1.comp p hasFDerivAt_fst).const_smul (h * c)))
    · simp only [ContinuousLinearMap.prod_apply, ContinuousLinearMap.add_apply, ContinuousLinearMap.smul_apply, ContinuousLinearMap.comp_apply, ContinuousLinearMap.coe_fst', ContinuousLinearMap.coe_snd']
      rw [inner_add_right, inner_add_left, inner_smul_right, inner_smul_left, h2]
      simp
  | drift c =>
    refine ⟨(ContinuousLinearMap.fst ℝ E E + (h * c) • ContinuousLinearMap.snd ℝ E E).prod (ContinuousLinearMap.snd ℝ E E), ?_, fun u w => ?_⟩
    · exact (hasFDerivAt_fst.add (hasFDerivAt_snd.const_smul (h * c))).prodMk hasFDerivAt_snd
    · simp only [ContinuousLinearMap.prod_apply, ContinuousLinearMap.add_apply, ContinuousLinearMap.smul_apply, ContinuousLinearMap.coe_fst', ContinuousLinearMap.coe_snd']
      rw [inner_add_right, inner_add_left, inner_smul_right, inner_smul_left]
      simp

theorem isSymplectic_applyAll {f : RightHandSide E} (hf : Conservative f) (h : ℝ) (l : List Op) : ∀ t : ℝ, IsSymplectic fun p : E × E => (applyAll f h l ⟨t, p.1, p.2⟩).phase := by
  induction l with
  | nil => intro t; exact isSymplectic_id
  | cons o l ih =>
    intro t
    have key : ∃ t', ∀ p : E × E, (Op.apply f h ⟨t, p.1, p.2⟩ o).time = t' := by
      cases o with
      | kick c => exact ⟨t, fun _ => rfl⟩
      | drift c => exact ⟨t + c * h, fun _ => rfl⟩
    obtain ⟨t', ht'⟩ := key
    have e : (fun p : E × E => (applyAll f h (o :: l) ⟨t, p.1, p.2⟩).phase) = (fun p : E × E => (applyAll f h l ⟨t', p.1, p.2⟩).phase) ∘ fun p : E × E => (Op.apply f h ⟨t, p.1, p.2⟩ o).phase := by
      funext p
      show (applyAll f h l (Op.apply f h ⟨t, p.1, p.2⟩ o)).phase = _
      rw [Function.comp, ← ht' p]
      rfl
    rw [e]
    exact (ih t').comp (isSymplectic_op hf h t o)

theorem isSymplectic_steps (m : SRKN) {f : RightHandSide E} (hf : Conservative f) (h : ℝ) (n : ℕ) (t : ℝ) : IsSymplectic fun p : E × E => ((m.step f h)^[n] ⟨t, p.1, p.2⟩).phase := by
  induction n generalizing t with
  | zero => exact isSymplectic_id
  | succ n ih =>
    have e : (fun p : E × E => ((m.step f h)^[n + 1] ⟨t, p.1, p.2⟩).phase) = (fun p : E × E => ((m.step f h)^[n] ⟨t + h, p.1, p.2⟩).phase) ∘ fun p : E × E => (applyAll f h (m.ops (List.range m.stages)) ⟨t, p.1, p.2⟩).phase := by
      funext p
      rfl
    rw [e]
    exact (ih (t + h)).comp (isSymplectic_applyAll hf h _ t)

/-- **C66, symplecticity.** If the accelerations derive from a potential, the positions and velocities obtained by integrating from a given time to another given time are a symplectic function of the initial ones. -/
theorem C66_symplectic (m : SRKN) (hm : m.CheckedButSum) (f : RightHandSide E) (hcons : m.Consistent f) (hpot : Conservative f) (hf : ∀ t q, (f t q).2 ≠ .aborted) (h tInitial tFinal : ℝ) (fuel : ℕ) (F : E × E → E × E)
    (hF : ∀ q v, ∃ r, (m.stepper f).solve (fun _ => false) true h fuel tFinal ⟨tInitial, q, v⟩ = .ok r ∧ (r.state.positions, r.state.velocities) = F (q, v)) : IsSymplectic F := by
  have hadv := m.stepper_time f
  have e : F = fun p : E × E => ((m.step f h)^[⌊(tFinal - tInitial) / h⌋₊] ⟨tInitial, p.1, p.2⟩).phase := by
    funext p
    obtain ⟨r, hr, hp⟩ := hF p.1 p.2
    rw [← hp]
    have ha : Ahead h tInitial tFinal := (m.stepper f).solve_no_check _ true rfl hr
    obtain ⟨hh, h0⟩ := ahead_ratio ha
    have hfuel : ⌊(tFinal - tInitial) / h⌋₊ < fuel := by
      have hs' := hr
      rw [(m.stepper f).solve_ahead _ true ha] at hs'
      exact (m.stepper f).loop_fuel _ hadv (m.stepper_not_aborted f hf) (fun _ => rfl) h tFinal hh fuel (⟨tInitial, p.1, p.2⟩, (m.stepper f).start ⟨tInitial, p.1, p.2⟩) [] r h0 (m.start_not_aborted f hf _) hs'
    obtain ⟨st, e⟩ := (m.stepper f).solve_full (fun _ => false) hadv (m.stepper_not_aborted f hf) (m.start_not_aborted f hf) (fun _ => rfl) true h tFinal ⟨tInitial, p.1, p.2⟩ ha fuel hfuel
    rw [hr] at e
    injection e with e
    subst e
    simp only
    rw [(m.iter_step hm f hcons h _ _).1]
    rfl
  rw [e]
  exact isSymplectic_steps m hpot h _ tInitial

end Symplectic

/-! ### The methods -/

/-- The checks, on the coefficients. -/
def SymplecticTable.checkButSum (t : SymplecticTable) : Bool :=
  let s := t.b.length
  decide (1 < s) &&
  (match t.composition with
   | .BA => !t.timeReversible
   | .ABA => decide (t.b.getD 0 0 = 0) && (!t.timeReversible || ((List.range s).all fun i => decide (t.a.getD i 0 = t.a.getD (s - 1 - i) 0)) && (List.range (s - 1)).all fun i => decide (t.b.getD (i + 1) 0 = t.b.getD (s - 1 - i) 0))
   | .BAB => decide (t.a.getD (s - 1) 0 = 0) &&
      (!t.timeReversible || ((List.range (s - 1)).all fun i => decide (t.a.getD i 0 = t.a.getD (s - 2 - i) 0)) && (List.range s).all fun i => decide (t.b.getD i 0 = t.b.getD (s - 1 - i) 0)))

theorem SymplecticTable.checkedButSum (t : SymplecticTable) (h : t.checkButSum = true) : t.method.CheckedButSum := by
  unfold SymplecticTable.checkButSum at h
  simp only [Bool.and_eq_true, decide_eq_true_eq] at h
  obtain ⟨h1, h2⟩ := h
  have ea : ∀ i j, t.a.getD i 0 = t.a.getD j 0 → t.method.a i = t.method.a j := fun i j e => by show (t.a.getD i 0 : ℝ) / _ = (t.a.getD j 0 : ℝ) / _; rw [e]
  have eb : ∀ i j, t.b.getD i 0 = t.b.getD j 0 → t.method.b i = t.method.b j := fun i j e => by show (t.b.getD i 0 : ℝ) / _ = (t.b.getD j 0 : ℝ) / _; rw [e]
  have es : t.method.stages = t.b.length := rfl
  have ec : t.method.composition = t.composition := rfl
  have er : t.method.timeReversible = t.timeReversible := rfl
  cases hc : t.composition with
  | BA =>
    rw [hc] at h2
    simp only [Bool.not_eq_true'] at h2
    refine ⟨by rw [ec, hc]; simp only; omega, ?_, ?_, ?_, ?_, ?_⟩ <;> simp [ec, hc, er, h2]
  | ABA =>
    rw [hc] at h2
    simp only [Bool.and_eq_true, decide_eq_true_eq, Bool.or_eq_true, Bool.not_eq_true', List.all_eq_true, List.mem_range] at h2
    obtain ⟨h2, h3⟩ := h2
    refine ⟨by rw [ec, hc]; simp only; omega, fun _ => ?_, fun h => ?_, fun hr _ => ?_, fun _ h => ?_, fun _ => ?_⟩
    · show (t.b.getD 0 0 : ℝ) / _ = 0; rw [h2]; simp
    · rw [ec, hc] at h; cases h
    · rw [er] at hr
      rw [hr] at h3
      simp at h3
      exact ⟨fun i hi => ea _ _ (by rw [es]; simpa using h3.1 i hi), fun i hi => eb _ _ (by rw [es]; simpa using h3.2 i hi)⟩
    · rw [ec, hc] at h; cases h
    · rw [ec, hc]; simp
  | BAB =>
    rw [hc] at h2
    simp only [Bool.and_eq_true, decide_eq_true_eq, Bool.or_eq_true, Bool.not_eq_true', List.all_eq_true, List.mem_range] at h2
    obtain ⟨h2, h3⟩ := h2
    refine ⟨by rw [ec, hc]; simp only; omega, fun h => ?_, fun _ => ?_, fun _ h => ?_, fun hr _ => ?_, fun _ => ?_⟩
    · rw [ec, hc] at h; cases h
    · show (t.a.getD (t.b.length - 1) 0 : ℝ) / _ = 0; rw [h2]; simp
    · rw [ec, hc] at h; cases h
    · rw [er] at hr
      rw [hr] at h3
      simp at h3
      exact ⟨fun i hi => ea _ _ (by rw [es]; simpa using h3.1 i hi), fun i hi => eb _ _ (by rw [es]; simpa using h3.2 i hi)⟩
    · rw [ec, hc]; simp

/-- **C66, the methods.** All the symplectic methods pass the checks of the constructor of their integrator (but for the one on the sum of the `a`, which tolerates an error of a few ULPs), so that the above theorems apply to all of them if
the acceleration doesn't depend on the time. -/
theorem C66_methods : ∀ t ∈ Methods.symplectic, t.method.CheckedButSum := by
  have : ∀ t ∈ Methods.symplectic, t.checkButSum = true := by decide +kernel
  exact fun t ht => t.checkedButSum (this t ht)

/-- Most of them are time-reversible. -/
example : (Methods.symplectic.filter SymplecticTable.timeReversible).length = 46 ∧ Methods.symplectic.length = 51 := by decide +kernel

theorem leapfrog_checkedButSum : leapfrog.CheckedButSum :=
  ⟨leapfrog_checked.stages, leapfrog_checked.aba, leapfrog_checked.bab, leapfrog_checked.reversibleABA, leapfrog_checked.reversibleBAB, leapfrog_checked.reversibleBA⟩

/-- Two particles on a line, attracted to each other with a force which depends on the time. -/
def springs : RightHandSide (ℝ × ℝ) := fun t q => (((1 + t ^ 2) * (q.2 - q.1), (1 + t ^ 2) * (q.1 - q.2)), .ok)

theorem springs_solve : ∃ r, (leapfrog.stepper springs).solve (fun _ => false) true (1 / 2) 4 (5 / 4) ⟨0, (1, 2), (3, 4)⟩ = .ok r ∧ r.appended.length = 2 := by
  have f1 : ⌊((5 / 4 - 0) / (1 / 2) : ℝ)⌋₊ = 2 := by rw [Nat.floor_eq_iff (by norm_num)]; norm_num
  obtain ⟨st, e⟩ := (leapfrog.stepper springs).solve_full (fun _ => false) (leapfrog.stepper_time springs) (leapfrog.stepper_not_aborted springs (by simp [springs])) (leapfrog.start_not_aborted springs (by simp [springs]))
    (fun _ => rfl) true (1 / 2) (5 / 4) ⟨0, (1, 2), (3, 4)⟩ (.inl ⟨by norm_num, by show (0 : ℝ) < _; norm_num⟩) 4 (by show ⌊((5 / 4 - 0) / (1 / 2) : ℝ)⌋₊ < 4; rw [f1]; norm_num)
  refine ⟨_, e, ?_⟩
  show (((leapfrog.stepper springs).states _ _ ⌊((5 / 4 - 0) / (1 / 2) : ℝ)⌋₊)).length = 2
  rw [f1]
  rfl

/-- After two steps, two steps backward lead to the initial state. -/
example : ∃ r r', (leapfrog.stepper springs).solve (fun _ => false) true (1 / 2) 4 (5 / 4) ⟨0, (1, 2), (3, 4)⟩ = .ok r ∧ (leapfrog.stepper springs).solve (fun _ => false) true (-(1 / 2)) 4 0 r.state = .ok r' ∧
    r'.state = ⟨0, (1, 2), (3, 4)⟩ := by
  obtain ⟨r, e, hl⟩ := springs_solve
  obtain ⟨r', e', h', -⟩ := C66_time_reversible leapfrog leapfrog_checkedButSum rfl springs (.inl leapfrog_checked.sum) (by simp [springs]) (1 / 2) (5 / 4) 4 _ r e (by intro h; rw [h] at hl; cases hl)
  exact ⟨r, r', e, e', h'⟩

/-- The total momentum is conserved. -/
example : ∃ r, (leapfrog.stepper springs).solve (fun _ => false) true (1 / 2) 4 (5 / 4) ⟨0, (1, 2), (3, 4)⟩ = .ok r ∧ r.state.velocities.1 + r.state.velocities.2 = 7 := by
  obtain ⟨r, e, hl⟩ := springs_solve
  have := C66_linear_momentum leapfrog leapfrog_checkedButSum springs (.inl leapfrog_checked.sum) (LinearMap.fst ℝ ℝ ℝ + LinearMap.snd ℝ ℝ ℝ) (by intro t q; simp [springs]; ring) _ _ _ _ _ r e r.state (by simp)
  simp at this
  exact ⟨r, e, by rw [this]; norm_num⟩

/-- The accelerations derive from a potential. -/
example : Conservative (E := ℝ) fun t q => (-(1 + t ^ 2) * q, .ok) := by
  intro t q
  refine ⟨(-(1 + t ^ 2)) • ContinuousLinearMap.id ℝ ℝ, ?_, fun u w => ?_⟩
  · exact ((hasFDerivAt_id (𝕜 := ℝ) q).const_smul (-(1 + t ^ 2)))
  · simp [inner_smul_left, inner_smul_right]; ring

end

end Principia.Integrators
