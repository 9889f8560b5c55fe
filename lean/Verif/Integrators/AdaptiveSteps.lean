import Verif.Integrators.AdaptiveDriver
import Verif.Integrators.OrderSteps
import Verif.Integrators.FixedStepProps

/-!
The steps of the embedded methods: specification, and proof that the integrators compute them whether or not the first stage is taken from the previous step.
-/

set_option linter.unusedSimpArgs false
set_option linter.unusedVariables false
set_option linter.unusedSectionVars false

namespace Principia.Integrators

noncomputable section

/-! ### Specification -/

section Specification

variable {V : Type*} [AddCommGroup V] [Module ℝ V]

/-- A step of size `h` from `x` of an embedded Runge-Kutta method for `yʹ = f(s, y)` leads to `x'`; `e` is the difference between the step of lower order and that of higher order. -/
def EERK.IsStep (m : EERK) (f : RightHandSide V) (h : ℝ) (x x' : FState V) (e : V) : Prop :=
  ∃ k : ℕ → V, (∀ i < m.stages, k i = (f (x.s + m.c i * h) (x.y + h • ∑ j ∈ Finset.range i, m.a i j • k j)).1) ∧
    x' = ⟨x.s + h, x.y + h • ∑ i ∈ Finset.range m.stages, m.b i • k i⟩ ∧ e = h • ∑ i ∈ Finset.range m.stages, m.bLow i • k i - h • ∑ i ∈ Finset.range m.stages, m.b i • k i

/-- A step of size `h` from `x` of an embedded Runge-Kutta-Nyström method for `qʺ = f(t, q, qʹ)` leads to `x'`; `e` is the difference between the step of lower order and that of higher order, for the positions
and the velocities. -/
def EERKN.IsStep (m : EERKN) (f : GeneralRightHandSide V) (h : ℝ) (x x' : NState V) (e : V × V) : Prop :=
  ∃ g : ℕ → V, (∀ i < m.stages, g i = (f (x.time + m.c i * h) (x.positions + (m.c i * h) • x.velocities + h ^ 2 • ∑ j ∈ Finset.range i, m.a i j • g j)
      (x.velocities + h • ∑ j ∈ Finset.range i, m.a' i j • g j)).1) ∧
    x' = ⟨x.time + h, x.positions + h • x.velocities + h ^ 2 • ∑ i ∈ Finset.range m.stages, m.bHat i • g i, x.velocities + h • ∑ i ∈ Finset.range m.stages, m.bHat' i • g i⟩ ∧
    e = (h ^ 2 • ∑ i ∈ Finset.range m.stages, m.b i • g i - h ^ 2 • ∑ i ∈ Finset.range m.stages, m.bHat i • g i,
      h • ∑ i ∈ Finset.range m.stages, m.b' i • g i - h • ∑ i ∈ Finset.range m.stages, m.bHat' i • g i)

end Specification

/-! ### The embedded Runge-Kutta integrators -/

section EERK

variable {V : Type*} [NormedAddCommGroup V] [NormedSpace ℝ V]

theorem getD_map_range {α : Type*} (G : ℕ → α) (d : α) {n i : ℕ} (hi : i < n) : ((List.range n).map G).getD i d = G i := by
  rw [List.getD_eq_getElem?_getD, List.getElem?_map, List.getElem?_range hi]
  rfl

def EERK.coherent (m : EERK) (hm : m.Checked) (f : RightHandSide V) : (m.stepper f).Coherent (m.IsStep f) where
  good x g := m.firstSameAsLast = true → g = (f x.s x.y).1
  start x hc := by
    show (if m.firstSameAsLast = true then ((f x.s x.y).1, (f x.s x.y).2) else (0, .ok)).1 = _
    rw [if_pos hc]
  next h x g _ hc := m.toERK.last_evaluation hm hc f h x g .ok
  isStep h x g hg := by
    have hk : (m.allStages f h x g .ok).k = (List.range m.stages).map fun i => h • m.toERK.value f h x i := m.toERK.stages_eq f h x g hg (fun _ => hm.first) .ok m.stages
    have hsum : ∀ w : ℕ → ℝ, ∑ i ∈ Finset.range m.stages, w i • (m.allStages f h x g .ok).k.getD i 0 = h • ∑ i ∈ Finset.range m.stages, w i • m.toERK.value f h x i := by
      intro w
      rw [hk, Finset.smul_sum]
      refine Finset.sum_congr rfl fun i hi => ?_
      rw [getD_map_range _ _ (Finset.mem_range.mp hi), smul_comm]
    refine ⟨m.toERK.value f h x, fun i _ => m.toERK.value_eq f h x i, ?_, ?_⟩
    · show (⟨x.s + h, x.y + ∑ i ∈ Finset.range m.stages, m.b i • (m.allStages f h x g .ok).k.getD i 0⟩ : FState V) = _
      rw [hsum]
    · show ∑ i ∈ Finset.range m.stages, m.bLow i • (m.allStages f h x g .ok).k.getD i 0 - ∑ i ∈ Finset.range m.stages, m.b i • (m.allStages f h x g .ok).k.getD i 0 = _
      rw [hsum, hsum]
  unique h x g g' hg hg' := by
    have : (m.allStages f h x g .ok).k = (m.allStages f h x g' .ok).k := m.toERK.foldl_congr f h x g g' (fun hc => (hg hc).trans (hg' hc).symm) _ _ _ rfl
    constructor
    · show (⟨x.s + h, x.y + ∑ i ∈ Finset.range m.stages, m.b i • (m.allStages f h x g .ok).k.getD i 0⟩ : FState V) =
        ⟨x.s + h, x.y + ∑ i ∈ Finset.range m.stages, m.b i • (m.allStages f h x g' .ok).k.getD i 0⟩
      rw [this]
    · show ∑ i ∈ Finset.range m.stages, m.bLow i • (m.allStages f h x g .ok).k.getD i 0 - ∑ i ∈ Finset.range m.stages, m.b i • (m.allStages f h x g .ok).k.getD i 0 =
        ∑ i ∈ Finset.range m.stages, m.bLow i • (m.allStages f h x g' .ok).k.getD i 0 - ∑ i ∈ Finset.range m.stages, m.b i • (m.allStages f h x g' .ok).k.getD i 0
      rw [this]
  time h x g := rfl

end EERK

/-! ### The embedded Runge-Kutta-Nyström integrators -/

section EERKN

variable {V : Type*} [AddCommGroup V] [Module ℝ V]

theorem EERKN.foldl_congr (m : EERKN) (f : GeneralRightHandSide V) (h : ℝ) (x : NState V) (l : List ℕ) :
    ∀ s s' : List V × Status, s.1 = s'.1 → (l.foldl (m.stage f h x) s).1 = (l.foldl (m.stage f h x) s').1 := by
  induction l with
  | nil => intro s s' h; exact h
  | cons i l ih =>
    intro s s' hs
    refine ih _ _ ?_
    unfold EERKN.stage
    simp only [hs]

/-- The acceleration at a stage. -/
def EERKN.value (m : EERKN) (f : GeneralRightHandSide V) (h : ℝ) (x : NState V) (i : ℕ) : V := ((List.range (i + 1)).foldl (m.stage f h x) ([], .ok)).1.getD i 0

theorem EERKN.foldl_range (m : EERKN) (f : GeneralRightHandSide V) (h : ℝ) (x : NState V) (n : ℕ) :
    ((List.range n).foldl (m.stage f h x) ([], .ok)).1 = (List.range n).map (m.value f h x) := by
  induction n with
  | zero => rfl
  | succ n ih =>
    have h1 : ((List.range (n + 1)).foldl (m.stage f h x) ([], .ok)).1 = (List.range n).map (m.value f h x) ++ [m.value f h x n] := by
      have h2 : ∃ r, ((List.range (n + 1)).foldl (m.stage f h x) ([], .ok)).1 = (List.range n).map (m.value f h x) ++ [r] := by
        rw [List.range_succ, List.foldl_append, List.foldl_cons, List.foldl_nil, ← ih]
        exact ⟨_, rfl⟩
      obtain ⟨r, hr⟩ := h2
      rw [hr]
      congr 2
      unfold EERKN.value
      rw [hr, List.getD_eq_getElem?_getD, List.getElem?_append_right (by simp)]
      simp
    rw [h1, List.range_succ, List.map_append]
    rfl

theorem EERKN.value_eq (m : EERKN) (f : GeneralRightHandSide V) (h : ℝ) (x : NState V) (i : ℕ) :
    m.value f h x i = (f (x.time + m.c i * h) (x.positions + (m.c i * h) • x.velocities + h ^ 2 • ∑ j ∈ Finset.range i, m.a i j • m.value f h x j)
      (x.velocities + h • ∑ j ∈ Finset.range i, m.a' i j • m.value f h x j)).1 := by
  conv_lhs => unfold EERKN.value
  rw [List.range_succ, List.foldl_append, List.foldl_cons, List.foldl_nil]
  have h1 := m.foldl_range f h x i
  generalize (List.range i).foldl (m.stage f h x) ([], .ok) = s at h1 ⊢
  unfold EERKN.stage
  simp only [h1]
  rw [List.getD_eq_getElem?_getD, List.getElem?_append_right (by simp)]
  simp only [List.length_map, List.length_range, Nat.sub_self, List.getElem?_cons_zero, Option.getD_some]
  have h2 : ∀ w : ℕ → ℝ, ∑ j ∈ Finset.range i, w j • ((List.range i).map (m.value f h x)).getD j 0 = ∑ j ∈ Finset.range i, w j • m.value f h x j := fun w =>
    Finset.sum_congr rfl fun j hj => by rw [getD_map_range _ _ (Finset.mem_range.mp hj)]
  rw [h2, h2, mul_comm h (m.c i), pow_two]

/-- The stages, whether or not the first one is already known. -/
theorem EERKN.allStages_eq (m : EERKN) (hm : m.c 0 = 0) (hs : 0 < m.stages) (f : GeneralRightHandSide V) (h : ℝ) (x : NState V) (g : Option V)
    (hg : ∀ g0, g = some g0 → g0 = (f x.time x.positions x.velocities).1) : (m.allStages f h x g).1 = (List.range m.stages).map (m.value f h x) := by
  rw [← m.foldl_range]
  cases g with
  | none => rfl
  | some g0 =>
    show ((List.range' 1 (m.stages - 1)).foldl (m.stage f h x) ([g0], .ok)).1 = _
    obtain ⟨n, hn⟩ : ∃ n, m.stages = n + 1 := ⟨m.stages - 1, by omega⟩
    rw [hn, List.range_eq_range', List.range'_succ, List.foldl_cons]
    refine m.foldl_congr f h x _ _ _ ?_
    unfold EERKN.stage
    simp [hm, hg g0 rfl]

/-- What it takes, besides the checks of the constructor, for the last stage to be the first one of the next step: the velocity at the last stage is that at the end of the step, unless the equation doesn't
depend on the velocity. -/
def EERKN.SameVelocity (m : EERKN) (f : GeneralRightHandSide V) : Prop :=
  m.firstSameAsLast = true → (∀ t q v v', f t q v = f t q v') ∨ m.bHat' (m.stages - 1) = 0 ∧ ∀ j < m.stages - 1, m.bHat' j = m.a' (m.stages - 1) j

def EERKN.coherent (m : EERKN) (hm : m.Checked) (hs : 0 < m.stages) (checksAborted : Bool) (f : GeneralRightHandSide V) (hv : m.SameVelocity f) :
    (m.stepper checksAborted f).Coherent (m.IsStep f) where
  good x g := (m.firstSameAsLast = false → g = none) ∧ ∀ g0, g = some g0 → g0 = (f x.time x.positions x.velocities).1
  start x := ⟨fun _ => rfl, fun g0 h => by cases h⟩
  next h x g hg' := by
    obtain ⟨hnone, hg⟩ := hg'
    refine ⟨fun hf => ?_, fun g0 hg0 => ?_⟩
    · show (if m.firstSameAsLast = true then some ((m.allStages f h x g).1.getD (m.stages - 1) 0) else g) = none
      rw [hf]
      exact hnone hf
    have hall := m.allStages_eq hm.first hs f h x g hg
    change (if m.firstSameAsLast = true then some ((m.allStages f h x g).1.getD (m.stages - 1) 0) else g) = some g0 at hg0
    show g0 = (f (x.time + h) (x.positions + (h • x.velocities + (h * h) • weighted m.stages m.bHat (m.allStages f h x g).1))
      (x.velocities + h • weighted m.stages m.bHat' (m.allStages f h x g).1)).1
    by_cases hf : m.firstSameAsLast = true
    · rw [if_pos hf] at hg0
      obtain ⟨hc, hb, ha⟩ := hm.fsal hf
      obtain ⟨n, hn⟩ : ∃ n, m.stages = n + 1 := ⟨m.stages - 1, by omega⟩
      have hw : ∀ w : ℕ → ℝ, weighted m.stages w (m.allStages f h x g).1 = ∑ j ∈ Finset.range n, w j • m.value f h x j + w n • m.value f h x n := by
        intro w
        rw [weighted, hall, hn, Finset.sum_range_succ, getD_map_range _ _ (Nat.lt_succ_self n)]
        congr 1
        exact Finset.sum_congr rfl fun j hj => by rw [getD_map_range _ _ (by have := Finset.mem_range.mp hj; omega)]
      have he : n + 1 - 1 = n := rfl
      rw [hall, hn, he, getD_map_range _ _ (Nat.lt_succ_self n)] at hg0
      cases hg0
      rw [hn, he] at hc hb ha
      have hvv := hv hf
      rw [hn, he] at hvv
      rw [hw, hw, hb, zero_smul, add_zero]
      conv_lhs => rw [m.value_eq, hc, one_mul]
      have hpos : x.positions + h • x.velocities + h ^ 2 • ∑ j ∈ Finset.range n, m.a n j • m.value f h x j =
          x.positions + (h • x.velocities + (h * h) • ∑ j ∈ Finset.range n, m.bHat j • m.value f h x j) := by
        rw [add_assoc, pow_two]
        congr 3
        exact Finset.sum_congr rfl fun j hj => by rw [ha j (Finset.mem_range.mp hj)]
      rw [hpos]
      rcases hvv with hvv | ⟨hb', ha'⟩
      · rw [hvv _ _ _ (x.velocities + h • (∑ j ∈ Finset.range n, m.bHat' j • m.value f h x j + m.bHat' n • m.value f h x n))]
      · rw [hb', zero_smul, add_zero]
        congr 4
        exact Finset.sum_congr rfl fun j hj => by rw [ha' j (Finset.mem_range.mp hj)]
    · rw [if_neg hf] at hg0
      rw [hnone (by simpa using hf)] at hg0
      cases hg0
  isStep h x g hg' := by
    have hg := hg'.2
    have hall := m.allStages_eq hm.first hs f h x g hg
    have hw : ∀ w : ℕ → ℝ, weighted m.stages w (m.allStages f h x g).1 = ∑ i ∈ Finset.range m.stages, w i • m.value f h x i := by
      intro w
      rw [weighted, hall]
      exact Finset.sum_congr rfl fun j hj => by rw [getD_map_range _ _ (Finset.mem_range.mp hj)]
    refine ⟨m.value f h x, fun i _ => m.value_eq f h x i, ?_, ?_⟩
    · show (⟨x.time + h, x.positions + (h • x.velocities + (h * h) • weighted m.stages m.bHat (m.allStages f h x g).1), x.velocities + h • weighted m.stages m.bHat' (m.allStages f h x g).1⟩ : NState V) = _
      rw [hw, hw, pow_two, add_assoc]
    · show ((h • x.velocities + (h * h) • weighted m.stages m.b (m.allStages f h x g).1) - (h • x.velocities + (h * h) • weighted m.stages m.bHat (m.allStages f h x g).1),
        h • weighted m.stages m.b' (m.allStages f h x g).1 - h • weighted m.stages m.bHat' (m.allStages f h x g).1) = _
      rw [hw, hw, hw, hw, pow_two, add_sub_add_left_eq_sub]
  unique h x g g' hg hg' := by
    have h1 : (m.allStages f h x g).1 = (m.allStages f h x g').1 := by rw [m.allStages_eq hm.first hs f h x g hg.2, m.allStages_eq hm.first hs f h x g' hg'.2]
    unfold EERKN.stepper
    simp only [h1, and_self]
  time h x g := rfl

end EERKN

end

end Principia.Integrators
