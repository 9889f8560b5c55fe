import Verif.Integrators.FixedStepModel
import Mathlib.Algebra.Order.Floor.Semiring
import Mathlib.Tactic.Linarith
import Mathlib.Tactic.Ring
import Mathlib.Tactic.FieldSimp
import Mathlib.Tactic.NormNum
import Mathlib.Algebra.BigOperators.Intervals
import Mathlib.Data.Real.Archimedean

/-!
C44 for the one-step integrators: a fixed-step integrator never goes past the requested time, stops less than one step short of it, and integrating to `t₁` then to `t₂` visits the same states as integrating
to `t₂`.
-/

set_option linter.unusedSimpArgs false
set_option linter.unusedVariables false
set_option linter.unusedSectionVars false

namespace Principia.Integrators

/-! ### Specification -/

/-- Consecutive calls to `Solve` on the same instance, for the given times, with the state of the instance and all the states passed to `append_state` by these calls. -/
def solveAll {X : Type*} (solve : ℝ → X → Except Failure (Result X)) : List ℝ → X → Except Failure (X × List X)
  | [], x => .ok (x, [])
  | t :: ts, x =>
    match solve t x with
    | .error e => .error e
    | .ok r =>
      match solveAll solve ts r.state with
      | .error e => .error e
      | .ok (y, appended) => .ok (y, r.appended ++ appended)

/-- The call goes in the direction of the step. -/
def Ahead (h t tFinal : ℝ) : Prop := 0 < h ∧ t < tFinal ∨ h < 0 ∧ tFinal < t

/-! ### The driver -/

noncomputable section

section Driver

variable {X G : Type*} (S : Stepper X G) (stop : List X → Bool)

/-- `k` iterations of the loop. -/
def Stepper.iter (h : ℝ) (p : X × G × Status) : ℕ → X × G × Status
  | 0 => p
  | k + 1 => S.advance h (Stepper.iter h p k).1 (Stepper.iter h p k).2.1 (Stepper.iter h p k).2.2

/-- The states after each of the first `k` iterations. -/
def Stepper.states (h : ℝ) (p : X × G × Status) (k : ℕ) : List X := (List.range k).map fun j => (S.iter h p (j + 1)).1

theorem Stepper.iter_succ' (h : ℝ) (p : X × G × Status) (k : ℕ) : S.iter h p (k + 1) = S.iter h (S.advance h p.1 p.2.1 p.2.2) k := by
  induction k with
  | zero => rfl
  | succ k ih => rw [Stepper.iter, ih]; rfl

theorem Stepper.states_succ' (h : ℝ) (p : X × G × Status) (k : ℕ) :
    S.states h p (k + 1) = (S.advance h p.1 p.2.1 p.2.2).1 :: S.states h (S.advance h p.1 p.2.1 p.2.2) k := by
  unfold Stepper.states
  rw [List.range_succ_eq_map, List.map_cons, List.map_map]
  congr 1
  apply List.map_congr_left
  intro j _
  show (S.iter h p (j + 1 + 1)).1 = _
  rw [S.iter_succ']

theorem Stepper.states_succ (h : ℝ) (p : X × G × Status) (k : ℕ) : S.states h p (k + 1) = S.states h p k ++ [(S.iter h p (k + 1)).1] := by
  unfold Stepper.states
  rw [List.range_succ, List.map_append]
  rfl

theorem Stepper.iter_time (hadv : ∀ h x g s, S.time (S.advance h x g s).1 = S.time x + h) (h : ℝ) (p : X × G × Status) (k : ℕ) :
    S.time (S.iter h p k).1 = S.time p.1 + k * h := by
  induction k with
  | zero => simp [Stepper.iter]
  | succ k ih => rw [Stepper.iter, hadv, ih]; push_cast; ring

theorem Stepper.states_time (hadv : ∀ h x g s, S.time (S.advance h x g s).1 = S.time x + h) (h : ℝ) (p : X × G × Status) (k : ℕ) :
    (S.states h p k).map S.time = (List.range k).map fun j : ℕ => S.time p.1 + (j + 1) * h := by
  unfold Stepper.states
  rw [List.map_map]
  apply List.map_congr_left
  intro j _
  simp only [Function.comp]
  rw [S.iter_time hadv]
  push_cast
  ring

theorem Stepper.states_getLast (h : ℝ) (p : X × G × Status) (k : ℕ) : (p.1 :: S.states h p k).getLast (by simp) = (S.iter h p k).1 := by
  cases k with
  | zero => rfl
  | succ k =>
    rw [List.getLast_cons (by simp [Stepper.states])]
    simp only [S.states_succ, List.getLast_append_of_ne_nil _ (List.cons_ne_nil _ []), List.getLast_singleton]

/-- The loop ends, it does the iterations whose times don't go past the final time, unless it's interrupted, in which case it does fewer of them. -/
theorem Stepper.loop_spec (hadv : ∀ h x g s, S.time (S.advance h x g s).1 = S.time x + h) (h tFinal : ℝ) (hh : h ≠ 0) (n : ℕ) :
    ∀ (fuel : ℕ) (p : X × G × Status) (out : List X), n < fuel → 0 ≤ (tFinal - S.time p.1) / h → ⌊(tFinal - S.time p.1) / h⌋₊ = n →
      ∃ m ≤ n, ∃ st, S.loop stop h tFinal fuel p.1 p.2.1 p.2.2 out = .ok ⟨(S.iter h p m).1, st, out ++ S.states h p m⟩ ∧
        (m = n ∧ st = (S.iter h p m).2.2 ∨ 0 < m ∧ stop (out ++ S.states h p m) = true ∧ st = .cancelled ∨ 0 < m ∧ (S.iter h p m).2.2 = .aborted ∧ st = .aborted) ∧
        ((∀ l, stop l = false) → (∀ k, 0 < k → k ≤ n → (S.iter h p k).2.2 ≠ .aborted) → m = n ∧ st = (S.iter h p m).2.2) := by
  induction n with
  | zero =>
    intro fuel p out hf h0 hn
    obtain ⟨fuel, rfl⟩ : ∃ f, fuel = f + 1 := ⟨fuel - 1, by omega⟩
    have h1 : (tFinal - S.time p.1) / h < 1 := by
      have := (Nat.floor_lt h0).1 (by rw [hn]; exact Nat.one_pos : ⌊(tFinal - S.time p.1) / h⌋₊ < 1)
      simpa using this
    have hc : ¬ |h| ≤ |tFinal - S.time p.1| := by
      rw [not_le]
      have hp := abs_pos.2 hh
      rw [← abs_of_nonneg h0, abs_div, div_lt_one hp] at h1
      exact h1
    refine ⟨0, le_rfl, p.2.2, ?_, Or.inl ⟨rfl, rfl⟩, fun _ _ => ⟨rfl, rfl⟩⟩
    rw [Stepper.loop, if_neg hc]
    simp [Stepper.states, Stepper.iter]
  | succ n ih =>
    intro fuel p out hf h0 hn
    obtain ⟨fuel, rfl⟩ : ∃ f, fuel = f + 1 := ⟨fuel - 1, by omega⟩
    have h1 : 1 ≤ (tFinal - S.time p.1) / h := by
      have := (Nat.le_floor_iff h0).1 (le_of_eq hn.symm)
      push_cast at this
      have hn0 : (0 : ℝ) ≤ n := Nat.cast_nonneg n
      linarith
    have hc : |h| ≤ |tFinal - S.time p.1| := by
      have hp := abs_pos.2 hh
      have : 1 ≤ |(tFinal - S.time p.1) / h| := h1.trans (le_abs_self _)
      rwa [abs_div, one_le_div hp] at this
    have hr : (tFinal - S.time (S.advance h p.1 p.2.1 p.2.2).1) / h = (tFinal - S.time p.1) / h - 1 := by
      rw [hadv]; field_simp; ring
    have hs : S.states h p 1 = [(S.advance h p.1 p.2.1 p.2.2).1] := rfl
    have hi : S.iter h p 1 = S.advance h p.1 p.2.1 p.2.2 := rfl
    by_cases hst : stop (out ++ [(S.advance h p.1 p.2.1 p.2.2).1]) = true
    · refine ⟨1, by omega, .cancelled, ?_, Or.inr (Or.inl ⟨Nat.one_pos, hst, rfl⟩), fun h1 => ?_⟩
      · rw [Stepper.loop, if_pos hc, if_pos hst, hs, hi]
      · rw [h1] at hst; exact absurd hst (by simp)
    by_cases hab : (S.advance h p.1 p.2.1 p.2.2).2.2 = .aborted
    · refine ⟨1, by omega, .aborted, ?_, Or.inr (Or.inr ⟨Nat.one_pos, hab, rfl⟩), fun _ h2 => absurd hab (h2 1 Nat.one_pos (by omega))⟩
      rw [Stepper.loop, if_pos hc, if_neg hst, if_pos hab, hs, hi, hab]
    obtain ⟨m, hm, st, hl, hcase, hfull⟩ := ih fuel (S.advance h p.1 p.2.1 p.2.2) (out ++ [(S.advance h p.1 p.2.1 p.2.2).1]) (by omega)
      (by rw [hr]; linarith) (by rw [hr, Nat.floor_sub_one, hn]; rfl)
    have hout : out ++ [(S.advance h p.1 p.2.1 p.2.2).1] ++ S.states h (S.advance h p.1 p.2.1 p.2.2) m = out ++ S.states h p (m + 1) := by
      rw [S.states_succ', List.append_assoc]; rfl
    refine ⟨m + 1, by omega, st, ?_, ?_, ?_⟩
    · rw [Stepper.loop, if_pos hc, if_neg hst, if_neg hab, hl, S.iter_succ', hout]
    · rw [S.iter_succ', ← hout]
      rcases hcase with h | h | h
      · exact Or.inl ⟨by omega, h.2⟩
      · exact Or.inr (Or.inl ⟨by omega, h.2⟩)
      · exact Or.inr (Or.inr ⟨by omega, h.2⟩)
    · intro h1 h2
      have := hfull h1 (fun k hk hkn => by rw [← S.iter_succ']; exact h2 (k + 1) (by omega) (by omega))
      rw [S.iter_succ']
      exact ⟨by omega, this.2⟩

theorem ahead_ratio {h t tFinal : ℝ} (ha : Ahead h t tFinal) : h ≠ 0 ∧ 0 ≤ (tFinal - t) / h := by
  rcases ha with ⟨h0, h1⟩ | ⟨h0, h1⟩
  · exact ⟨ne_of_gt h0, div_nonneg (by linarith) h0.le⟩
  · exact ⟨ne_of_lt h0, div_nonneg_of_nonpos (by linarith) h0.le⟩

theorem Stepper.solve_ahead (checkStep : Bool) {h tFinal : ℝ} {x : X} (ha : Ahead h (S.time x) tFinal) (fuel : ℕ) :
    S.solve stop checkStep h fuel tFinal x = S.loop stop h tFinal fuel x (S.start x).1 (S.start x).2 [] := by
  unfold Stepper.solve
  rcases ha with ⟨h0, h1⟩ | ⟨h0, h1⟩
  · rw [if_neg (fun c => (ne_of_gt h0) c.2), if_neg (fun c => c.2 h1), if_neg (fun c => not_lt.2 h0.le c.1)]
  · rw [if_neg (fun c => (ne_of_lt h0) c.2), if_neg (fun c => not_le.2 h0 c.1), if_neg (fun c => c.2 h1)]

/-- The times of the states, in the general case. -/
theorem Stepper.solve_times (hadv : ∀ h x g s, S.time (S.advance h x g s).1 = S.time x + h) (checkStep : Bool) (h tFinal : ℝ) (x : X)
    (ha : Ahead h (S.time x) tFinal) :
    ∃ r, (∀ fuel, ⌊(tFinal - S.time x) / h⌋₊ < fuel → S.solve stop checkStep h fuel tFinal x = .ok r) ∧
      (∃ k, r.appended.map S.time = (List.range k).map fun j : ℕ => S.time x + (j + 1) * h) ∧
      r.state = (x :: r.appended).getLast (by simp) ∧
      (∀ y ∈ r.state :: r.appended, 0 ≤ (tFinal - S.time y) / h) ∧
      (r.status ≠ .cancelled → r.status ≠ .aborted → |tFinal - S.time r.state| < |h|) ∧
      ((∀ l, stop l = false) → (∀ h x g s, s ≠ .aborted → (S.advance h x g s).2.2 ≠ .aborted) → (S.start x).2 ≠ .aborted → |tFinal - S.time r.state| < |h|) := by
  obtain ⟨hh, h0⟩ := ahead_ratio ha
  have key := S.loop_spec stop hadv h tFinal hh _ (⌊(tFinal - S.time x) / h⌋₊ + 1) (x, S.start x) [] (Nat.lt_succ_self _) h0 rfl
  obtain ⟨m, hm, st, hl, hcase, hfull⟩ := key
  have hlt : m = ⌊(tFinal - S.time x) / h⌋₊ → |tFinal - S.time (S.iter h (x, S.start x) m).1| < |h| := by
    intro hmn
    rw [S.iter_time hadv]
    have h1 := Nat.floor_le h0
    have h2 := Nat.lt_floor_add_one ((tFinal - S.time x) / h)
    rw [← hmn] at h1 h2
    have e : tFinal - (S.time x + m * h) = ((tFinal - S.time x) / h - m) * h := by field_simp; ring
    simp only
    rw [e, abs_mul]
    have : |(tFinal - S.time x) / h - m| < 1 := by rw [abs_lt]; constructor <;> linarith
    calc _ < 1 * |h| := mul_lt_mul_of_pos_right this (abs_pos.2 hh)
      _ = |h| := one_mul _
  refine ⟨⟨(S.iter h (x, S.start x) m).1, st, S.states h (x, S.start x) m⟩, ?_, ⟨m, S.states_time hadv _ _ _⟩, ?_, ?_, ?_, ?_⟩
  · intro fuel hf
    rw [S.solve_ahead stop checkStep ha]
    obtain ⟨m', hm', st', hl', hcase', hfull'⟩ := S.loop_spec stop hadv h tFinal hh _ fuel (x, S.start x) [] hf h0 rfl
    have mono : ∀ (f1 f2 : ℕ) (p : X × G × Status) (out : List X) (r : Result X), f1 ≤ f2 → S.loop stop h tFinal f1 p.1 p.2.1 p.2.2 out = .ok r → S.loop stop h tFinal f2 p.1 p.2.1 p.2.2 out = .ok r := by
      intro f1
      induction f1 with
      | zero => intro f2 p out r _ hr; simp [Stepper.loop] at hr
      | succ f1 ih =>
        intro f2 p out r hle hr
        obtain ⟨f2, rfl⟩ : ∃ f, f2 = f + 1 := ⟨f2 - 1, by omega⟩
        rw [Stepper.loop] at hr ⊢
        by_cases hc : |h| ≤ |tFinal - S.time p.1|
        · rw [if_pos hc] at hr ⊢
          by_cases hst : stop (out ++ [(S.advance h p.1 p.2.1 p.2.2).1]) = true
          · rw [if_pos hst] at hr ⊢; exact hr
          · rw [if_neg hst] at hr ⊢
            by_cases hab : (S.advance h p.1 p.2.1 p.2.2).2.2 = .aborted
            · rw [if_pos hab] at hr ⊢; exact hr
            · rw [if_neg hab] at hr ⊢
              exact ih f2 _ _ r (by omega) hr
        · rw [if_neg hc] at hr ⊢; exact hr
    simpa using mono _ fuel (x, S.start x) [] _ (by omega) hl
  · exact (S.states_getLast h (x, S.start x) m).symm
  · have hit : ∀ j ≤ m, 0 ≤ (tFinal - S.time (S.iter h (x, S.start x) j).1) / h := by
      intro j hj
      rw [S.iter_time hadv]
      have h1 := Nat.floor_le h0
      have h2 : (j : ℝ) ≤ ⌊(tFinal - S.time x) / h⌋₊ := by exact_mod_cast hj.trans hm
      have e : (tFinal - (S.time x + j * h)) / h = (tFinal - S.time x) / h - j := by field_simp; ring
      simp only
      rw [e]
      linarith
    intro y hy
    rcases List.mem_cons.1 hy with rfl | hy
    · exact hit m le_rfl
    · simp only [Stepper.states, List.mem_map, List.mem_range] at hy
      obtain ⟨j, hj, rfl⟩ := hy
      exact hit (j + 1) hj
  · intro h1 h2
    rcases hcase with h | h | h
    · exact hlt h.1
    · exact absurd h.2.2 h1
    · exact absurd h.2.2 h2
  · intro h1 h2 h3
    refine hlt (hfull h1 (fun k hk _ => ?_)).1
    have : ∀ k, (S.iter h (x, S.start x) k).2.2 ≠ .aborted := by
      intro k
      induction k with
      | zero => exact h3
      | succ k ih => exact h2 _ _ _ _ ih
    exact this k

/-- What makes an integrator restartable: the data kept from one iteration to the next may be replaced by those that a new call would compute. -/
structure Stepper.Restartable (h : ℝ) where
  valid : X → G → Prop
  start : ∀ x, valid x (S.start x).1
  advance : ∀ x g s, valid x g → valid (S.advance h x g s).1 (S.advance h x g s).2.1
  unique : ∀ x g g' s s', valid x g → valid x g' → (S.advance h x g s).1 = (S.advance h x g' s').1

theorem Stepper.Restartable.iter {S : Stepper X G} {h : ℝ} (R : S.Restartable h) (k : ℕ) :
    ∀ (p q : X × G × Status), p.1 = q.1 → R.valid p.1 p.2.1 → R.valid q.1 q.2.1 →
      (S.iter h p k).1 = (S.iter h q k).1 ∧ R.valid (S.iter h p k).1 (S.iter h p k).2.1 ∧ R.valid (S.iter h q k).1 (S.iter h q k).2.1 := by
  induction k with
  | zero => intro p q hpq hp hq; exact ⟨hpq, hp, hq⟩
  | succ k ih =>
    intro p q hpq hp hq
    obtain ⟨h1, h2, h3⟩ := ih p q hpq hp hq
    refine ⟨?_, R.advance _ _ _ h2, R.advance _ _ _ h3⟩
    show (S.advance h _ _ _).1 = (S.advance h _ _ _).1
    rw [← h1] at h3 ⊢
    exact R.unique _ _ _ _ _ h2 h3

theorem Stepper.iter_add (h : ℝ) (p : X × G × Status) (j k : ℕ) : S.iter h p (j + k) = S.iter h (S.iter h p j) k := by
  induction k with
  | zero => rfl
  | succ k ih => rw [← Nat.add_assoc, Stepper.iter, ih]; rfl

/-- The states that follow a restart are those that would have been visited without it. -/
theorem Stepper.Restartable.restart {S : Stepper X G} {h : ℝ} (R : S.Restartable h) (x : X) (j k : ℕ) :
    (S.iter h ((S.iter h (x, S.start x) j).1, S.start (S.iter h (x, S.start x) j).1) k).1 = (S.iter h (x, S.start x) (j + k)).1 := by
  rw [S.iter_add]
  have h1 := (R.iter j (x, S.start x) (x, S.start x) rfl (R.start x) (R.start x)).2.1
  exact (R.iter k ((S.iter h (x, S.start x) j).1, S.start (S.iter h (x, S.start x) j).1) (S.iter h (x, S.start x) j) rfl (R.start _) h1).1

theorem Stepper.Restartable.states {S : Stepper X G} {h : ℝ} (R : S.Restartable h) (x : X) (j k : ℕ) :
    S.states h (x, S.start x) (j + k) = S.states h (x, S.start x) j ++ S.states h ((S.iter h (x, S.start x) j).1, S.start (S.iter h (x, S.start x) j).1) k := by
  induction k with
  | zero => simp [Stepper.states]
  | succ k ih => rw [← Nat.add_assoc, S.states_succ, ih, S.states_succ, R.restart, List.append_assoc]; rfl

theorem Stepper.solve_no_check (checkStep : Bool) (hcs : checkStep = true) {h tFinal : ℝ} {x : X} {fuel : ℕ} {r : Result X}
    (hr : S.solve stop checkStep h fuel tFinal x = .ok r) : Ahead h (S.time x) tFinal := by
  unfold Stepper.solve at hr
  by_cases h1 : checkStep = true ∧ h = 0
  · rw [if_pos h1] at hr; cases hr
  rw [if_neg h1] at hr
  by_cases h2 : 0 ≤ h ∧ ¬ S.time x < tFinal
  · rw [if_pos h2] at hr; cases hr
  rw [if_neg h2] at hr
  by_cases h3 : h < 0 ∧ ¬ tFinal < S.time x
  · rw [if_pos h3] at hr; cases hr
  have hh : h ≠ 0 := fun e => h1 ⟨hcs, e⟩
  rcases lt_or_gt_of_ne hh with hn | hp
  · right; refine ⟨hn, ?_⟩; by_contra hc; exact h3 ⟨hn, hc⟩
  · left; refine ⟨hp, ?_⟩; by_contra hc; exact h2 ⟨hp.le, hc⟩

/-- A call without interruption does as many iterations as it can. -/
theorem Stepper.solve_full (hadv : ∀ h x g s, S.time (S.advance h x g s).1 = S.time x + h) (hab : ∀ h x g s, s ≠ .aborted → (S.advance h x g s).2.2 ≠ .aborted)
    (hst : ∀ x, (S.start x).2 ≠ .aborted) (hstop : ∀ l, stop l = false) (checkStep : Bool) (h tFinal : ℝ) (x : X) (ha : Ahead h (S.time x) tFinal) (fuel : ℕ)
    (hf : ⌊(tFinal - S.time x) / h⌋₊ < fuel) :
    ∃ st, S.solve stop checkStep h fuel tFinal x =
      .ok ⟨(S.iter h (x, S.start x) ⌊(tFinal - S.time x) / h⌋₊).1, st, S.states h (x, S.start x) ⌊(tFinal - S.time x) / h⌋₊⟩ := by
  obtain ⟨hh, h0⟩ := ahead_ratio ha
  obtain ⟨m, hm, st, hl, hcase, hfull⟩ := S.loop_spec stop hadv h tFinal hh _ fuel (x, S.start x) [] hf h0 rfl
  have hmn := (hfull hstop (fun k hk _ => by
    have : ∀ k, (S.iter h (x, S.start x) k).2.2 ≠ .aborted := by
      intro k
      induction k with
      | zero => exact hst x
      | succ k ih => exact hab _ _ _ _ ih
    exact this k)).1
  rw [S.solve_ahead stop checkStep ha, ← hmn]
  exact ⟨st, by simpa using hl⟩

theorem Stepper.loop_fuel (hadv : ∀ h x g s, S.time (S.advance h x g s).1 = S.time x + h) (hab : ∀ h x g s, s ≠ .aborted → (S.advance h x g s).2.2 ≠ .aborted)
    (hstop : ∀ l, stop l = false) (h tFinal : ℝ) (hh : h ≠ 0) : ∀ (fuel : ℕ) (p : X × G × Status) (out : List X) (r : Result X),
      0 ≤ (tFinal - S.time p.1) / h → p.2.2 ≠ .aborted → S.loop stop h tFinal fuel p.1 p.2.1 p.2.2 out = .ok r → ⌊(tFinal - S.time p.1) / h⌋₊ < fuel := by
  intro fuel
  induction fuel with
  | zero => intro p out r _ _ hr; simp [Stepper.loop] at hr
  | succ fuel ih =>
    intro p out r h0 hp hr
    rw [Stepper.loop] at hr
    by_cases hc : |h| ≤ |tFinal - S.time p.1|
    · rw [if_pos hc, if_neg (by rw [hstop]; simp), if_neg (hab _ _ _ _ hp)] at hr
      have hr' : (tFinal - S.time (S.advance h p.1 p.2.1 p.2.2).1) / h = (tFinal - S.time p.1) / h - 1 := by
        rw [hadv]; field_simp; ring
      have h1 : 1 ≤ (tFinal - S.time p.1) / h := by
        rw [← abs_of_nonneg h0, abs_div, one_le_div (abs_pos.2 hh)]; exact hc
      have := ih (S.advance h p.1 p.2.1 p.2.2) _ r (by rw [hr']; linarith) (hab _ _ _ _ hp) hr
      rw [hr', Nat.floor_sub_one] at this
      omega
    · rw [not_le] at hc
      have h1 : (tFinal - S.time p.1) / h < 1 := by
        rw [← abs_of_nonneg h0, abs_div, div_lt_one (abs_pos.2 hh)]; exact hc
      have : ⌊(tFinal - S.time p.1) / h⌋₊ = 0 := Nat.floor_eq_zero.2 h1
      omega

/-- Consecutive calls and one call. -/
theorem Stepper.solveAll_eq (hadv : ∀ h x g s, S.time (S.advance h x g s).1 = S.time x + h) (hab : ∀ h x g s, s ≠ .aborted → (S.advance h x g s).2.2 ≠ .aborted)
    (hst : ∀ x, (S.start x).2 ≠ .aborted) (hstop : ∀ l, stop l = false) (h : ℝ) (R : S.Restartable h) (checkStep : Bool) (hcs : checkStep = true ∨ h ≠ 0) (fuel : ℕ) (ts : List ℝ) :
    ∀ (x y : X) (tFinal : ℝ) (out : List X), solveAll (S.solve stop checkStep h fuel) (ts ++ [tFinal]) x = .ok (y, out) →
      ∃ fuel' r, S.solve stop checkStep h fuel' tFinal x = .ok r ∧ r.state = y ∧ r.appended = out := by
  have ahead : ∀ {tFinal x r}, S.solve stop checkStep h fuel tFinal x = .ok r → Ahead h (S.time x) tFinal ∧ ⌊(tFinal - S.time x) / h⌋₊ < fuel := by
    intro tFinal x r hr
    have ha : Ahead h (S.time x) tFinal := by
      rcases hcs with hcs | hh
      · exact S.solve_no_check stop checkStep hcs hr
      · have : S.solve stop true h fuel tFinal x = .ok r := by
          unfold Stepper.solve at hr ⊢
          rw [if_neg (fun c => hh c.2)] at hr ⊢
          exact hr
        exact S.solve_no_check stop true rfl this
    refine ⟨ha, ?_⟩
    rw [S.solve_ahead stop checkStep ha] at hr
    exact S.loop_fuel stop hadv hab hstop h tFinal (ahead_ratio ha).1 fuel (x, S.start x) [] r (ahead_ratio ha).2 (hst x) hr
  induction ts with
  | nil =>
    intro x y tFinal out hs
    simp only [List.nil_append, solveAll] at hs
    cases hr : S.solve stop checkStep h fuel tFinal x with
    | error e => rw [hr] at hs; cases hs
    | ok r =>
      rw [hr] at hs
      simp only [List.append_nil, Except.ok.injEq, Prod.mk.injEq] at hs
      exact ⟨fuel, r, hr, hs.1, hs.2⟩
  | cons t ts ih =>
    intro x y tFinal out hs
    rw [List.cons_append, solveAll] at hs
    cases hr : S.solve stop checkStep h fuel t x with
    | error e => rw [hr] at hs; cases hs
    | ok r =>
      rw [hr] at hs
      simp only at hs
      cases hs' : solveAll (S.solve stop checkStep h fuel) (ts ++ [tFinal]) r.state with
      | error e => rw [hs'] at hs; cases hs
      | ok p =>
        rw [hs'] at hs
        simp only [Except.ok.injEq, Prod.mk.injEq] at hs
        obtain ⟨fuel', r', hr', hst', hap'⟩ := ih r.state p.1 tFinal p.2 hs'
        obtain ⟨ha, hf⟩ := ahead hr
        obtain ⟨hh, h0⟩ := ahead_ratio ha
        obtain ⟨st, hfull⟩ := S.solve_full stop hadv hab hst hstop checkStep h t x ha fuel hf
        rw [hr] at hfull
        simp only [Except.ok.injEq] at hfull
        set n := ⌊(t - S.time x) / h⌋₊ with hn
        have hrs : r.state = (S.iter h (x, S.start x) n).1 := by rw [hfull]
        have hra : r.appended = S.states h (x, S.start x) n := by rw [hfull]
        -- The second part, as one call.
        have ha' : Ahead h (S.time r.state) tFinal := by
          rcases hcs with hcs | hh
          · exact S.solve_no_check stop checkStep hcs hr'
          · have : S.solve stop true h fuel' tFinal r.state = .ok r' := by
              unfold Stepper.solve at hr' ⊢
              rw [if_neg (fun c => hh c.2)] at hr' ⊢
              exact hr'
            exact S.solve_no_check stop true rfl this
        have hf' : ⌊(tFinal - S.time r.state) / h⌋₊ < fuel' := by
          rw [S.solve_ahead stop checkStep ha'] at hr'
          exact S.loop_fuel stop hadv hab hstop h tFinal hh fuel' (r.state, S.start r.state) [] r' (ahead_ratio ha').2 (hst _) hr'
        obtain ⟨st', hfull'⟩ := S.solve_full stop hadv hab hst hstop checkStep h tFinal r.state ha' fuel' hf'
        rw [hr'] at hfull'
        simp only [Except.ok.injEq] at hfull'
        set n' := ⌊(tFinal - S.time r.state) / h⌋₊ with hn'
        -- The single call.
        have htime : S.time r.state = S.time x + n * h := by rw [hrs, S.iter_time hadv]
        have hax : Ahead h (S.time x) tFinal := by
          rw [htime] at ha'
          rcases ha' with ⟨a, b⟩ | ⟨a, b⟩
          · exact Or.inl ⟨a, lt_of_le_of_lt (by have := mul_nonneg (Nat.cast_nonneg (α := ℝ) n) a.le; linarith) b⟩
          · exact Or.inr ⟨a, lt_of_lt_of_le b (by have := mul_nonneg (Nat.cast_nonneg (α := ℝ) n) (neg_nonneg.2 a.le); linarith)⟩
        have hnn : ⌊(tFinal - S.time x) / h⌋₊ = n + n' := by
          have e : (tFinal - S.time x) / h = (tFinal - S.time r.state) / h + n := by rw [htime]; field_simp; ring
          rw [e, Nat.floor_add_natCast (ahead_ratio ha').2, ← hn', Nat.add_comm]
        obtain ⟨st'', hone⟩ := S.solve_full stop hadv hab hst hstop checkStep h tFinal x hax (n + n' + 1) (by omega)
        refine ⟨n + n' + 1, _, hone, ?_, ?_⟩
        · show (S.iter h (x, S.start x) ⌊(tFinal - S.time x) / h⌋₊).1 = y
          rw [hnn, ← R.restart, ← hrs, ← hs.1, ← hst', hfull']
        · show S.states h (x, S.start x) ⌊(tFinal - S.time x) / h⌋₊ = out
          rw [hnn, R.states, ← hrs, ← hs.2, ← hap', hfull', ← hra]

end Driver

/-! ### The symplectic Runge-Kutta-Nyström integrators -/

section SRKN

variable {V : Type*} [AddCommGroup V] [Module ℝ V]

theorem SRKN.stepper_time (m : SRKN) (f : RightHandSide V) (h : ℝ) (x : NState V) (g : V) (s : Status) :
    (m.stepper f).time ((m.stepper f).advance h x g s).1 = (m.stepper f).time x + h := rfl

theorem update_not_aborted {s t : Status} (hs : s ≠ .aborted) (ht : t ≠ .aborted) : s.update t ≠ .aborted := by
  unfold Status.update
  split_ifs
  · exact ht
  · exact hs

theorem SRKN.stages_not_aborted (m : SRKN) (f : RightHandSide V) (hf : ∀ t q, (f t q).2 ≠ .aborted) (h : ℝ) (x : NState V) (l : List ℕ) :
    ∀ s : Stage V, s.status ≠ .aborted → (l.foldl (m.stage f h x) s).status ≠ .aborted := by
  induction l with
  | nil => intro s hs; exact hs
  | cons i l ih => intro s hs; exact ih _ (update_not_aborted hs (hf _ _))

theorem SRKN.initialStage_status (m : SRKN) (h : ℝ) (x : NState V) (g : V) (s : Status) : (m.initialStage h x g s).status = s := by
  unfold SRKN.initialStage; cases m.composition <;> rfl

theorem SRKN.stepper_not_aborted (m : SRKN) (f : RightHandSide V) (hf : ∀ t q, (f t q).2 ≠ .aborted) (h : ℝ) (x : NState V) (g : V) (s : Status) (hs : s ≠ .aborted) :
    ((m.stepper f).advance h x g s).2.2 ≠ .aborted :=
  m.stages_not_aborted f hf h x _ _ (by rwa [m.initialStage_status])

theorem SRKN.start_not_aborted (m : SRKN) (f : RightHandSide V) (hf : ∀ t q, (f t q).2 ≠ .aborted) (x : NState V) : ((m.stepper f).start x).2 ≠ .aborted := by
  unfold SRKN.stepper
  simp only
  cases m.composition with
  | BAB => exact update_not_aborted (s := .ok) (by simp) (hf _ _)
  | BA => simp
  | ABA => simp

/-- The stages don't depend on the status, nor on `g` beyond the initial stage. -/
theorem SRKN.foldl_congr (m : SRKN) (f : RightHandSide V) (h : ℝ) (x : NState V) (l : List ℕ) :
    ∀ s s' : Stage V, s.dq = s'.dq → s.dv = s'.dv →
      (l.foldl (m.stage f h x) s).dq = (l.foldl (m.stage f h x) s').dq ∧ (l.foldl (m.stage f h x) s).dv = (l.foldl (m.stage f h x) s').dv := by
  induction l with
  | nil => intro s s' h1 h2; exact ⟨h1, h2⟩
  | cons i l ih =>
    intro s s' h1 h2
    exact ih _ _ (by simp [SRKN.stage, h1, h2]) (by simp [SRKN.stage, h1, h2])

/-- The last evaluation of a step is at the state that ends the step, when the composition ends with `B`. -/
theorem SRKN.last_evaluation (m : SRKN) (hm : m.Checked) (hc : m.composition = .BAB) (f : RightHandSide V) (h : ℝ) (x : NState V) (g : V) (s : Status) :
    ((m.stepper f).advance h x g s).2.1 = (f ((m.stepper f).advance h x g s).1.time ((m.stepper f).advance h x g s).1.positions).1 := by
  have hs := hm.stages
  rw [hc] at hs
  simp only at hs
  have ha := hm.bab hc
  have hlast : m.c (m.stages - 1) = 1 := by
    have := hm.sum
    unfold SRKN.c at this ⊢
    obtain ⟨n, hn⟩ : ∃ n, m.stages = n + 1 := ⟨m.stages - 1, by omega⟩
    rw [hn] at this ha ⊢
    rw [Finset.sum_range_succ] at this
    rw [Nat.add_sub_cancel] at ha ⊢
    rw [ha, add_zero] at this
    exact this
  have hfs : m.firstStage = 1 := by unfold SRKN.firstStage; rw [hc]
  show (m.allStages f h x g s).g = (f (x.time + h) (x.positions + (m.allStages f h x g s).dq)).1
  unfold SRKN.allStages
  rw [hfs]
  obtain ⟨n, hn⟩ : ∃ n, m.stages - 1 = n + 1 := ⟨m.stages - 2, by omega⟩
  rw [hn, List.range'_concat, List.foldl_append, List.foldl_cons, List.foldl_nil]
  have e : 1 + 1 * n = m.stages - 1 := by omega
  rw [e]
  simp only [SRKN.stage]
  rw [hlast, ha]
  simp

/-- The restartability of a method whose coefficients passed the checks. -/
def SRKN.restartable (m : SRKN) (hm : m.Checked) (f : RightHandSide V) (h : ℝ) : (m.stepper f).Restartable h where
  valid x g := m.composition = .BAB → g = (f x.time x.positions).1
  start x hc := by
    show (match m.composition with | .BAB => _ | _ => _ : V × Status).1 = _
    rw [hc]
  advance x g s _ hc := m.last_evaluation hm hc f h x g s
  unique x g g' s s' hg hg' := by
    have : (m.initialStage h x g s).dq = (m.initialStage h x g' s').dq ∧ (m.initialStage h x g s).dv = (m.initialStage h x g' s').dv := by
      unfold SRKN.initialStage
      cases hc : m.composition with
      | BA => exact ⟨rfl, rfl⟩
      | ABA => exact ⟨rfl, rfl⟩
      | BAB => rw [hg hc, hg' hc]; exact ⟨rfl, rfl⟩
    obtain ⟨h1, h2⟩ := m.foldl_congr f h x (List.range' m.firstStage (m.stages - m.firstStage)) _ _ this.1 this.2
    show (⟨x.time + h, x.positions + (m.allStages f h x g s).dq, x.velocities + (m.allStages f h x g s).dv⟩ : NState V) =
      ⟨x.time + h, x.positions + (m.allStages f h x g' s').dq, x.velocities + (m.allStages f h x g' s').dv⟩
    unfold SRKN.allStages
    rw [h1, h2]

end SRKN

/-! ### The explicit Runge-Kutta integrators -/

section ERK

variable {V : Type*} [AddCommGroup V] [Module ℝ V]

theorem ERK.stages_not_aborted (m : ERK) (f : RightHandSide V) (hf : ∀ t q, (f t q).2 ≠ .aborted) (h : ℝ) (x : FState V) (g : V) (l : List ℕ) :
    ∀ s : RKStage V, s.status ≠ .aborted → (l.foldl (m.stage f h x g) s).status ≠ .aborted := by
  induction l with
  | nil => intro s hs; exact hs
  | cons i l ih =>
    intro s hs
    refine ih _ ?_
    unfold ERK.stage
    split_ifs
    · exact hs
    · exact update_not_aborted hs (hf _ _)

theorem ERK.foldl_congr (m : ERK) (f : RightHandSide V) (h : ℝ) (x : FState V) (g g' : V) (hg : m.firstSameAsLast = true → g = g') (l : List ℕ) :
    ∀ s s' : RKStage V, s.k = s'.k → (l.foldl (m.stage f h x g) s).k = (l.foldl (m.stage f h x g') s').k := by
  induction l with
  | nil => intro s s' h1; exact h1
  | cons i l ih =>
    intro s s' h1
    refine ih _ _ ?_
    unfold ERK.stage
    split_ifs with hc
    · simp only [h1, hg hc.2]
    · simp only [h1]

theorem ERK.foldl_k (m : ERK) (f : RightHandSide V) (h : ℝ) (x : FState V) (g : V) (l : List ℕ) :
    ∀ s : RKStage V, ∃ l', l'.length = l.length ∧ (l.foldl (m.stage f h x g) s).k = s.k ++ l' := by
  induction l with
  | nil => intro s; exact ⟨[], rfl, by simp⟩
  | cons i l ih =>
    intro s
    obtain ⟨l', h1, h2⟩ := ih (m.stage f h x g s i)
    have : ∃ v, (m.stage f h x g s i).k = s.k ++ [v] := by
      unfold ERK.stage
      split_ifs
      · exact ⟨_, rfl⟩
      · exact ⟨_, rfl⟩
    obtain ⟨v, hv⟩ := this
    exact ⟨v :: l', by simp [h1], by rw [List.foldl_cons, h2, hv]; simp⟩

/-- The last evaluation of a step is at the state that ends the step, for the methods with the FSAL property. -/
theorem ERK.last_evaluation (m : ERK) (hm : m.Checked) (hc : m.firstSameAsLast = true) (f : RightHandSide V) (h : ℝ) (x : FState V) (g : V) (s : Status) :
    ((m.stepper f).advance h x g s).2.1 = (f ((m.stepper f).advance h x g s).1.s ((m.stepper f).advance h x g s).1.y).1 := by
  obtain ⟨hc1, hb, ha⟩ := hm.fsal hc
  have hs := hm.stages
  have h2 : m.stages ≠ 1 := fun e => by
    rw [e] at hc1
    have := hm.first
    simp only [Nat.sub_self] at hc1
    rw [this] at hc1
    exact zero_ne_one hc1
  obtain ⟨n, hn⟩ : ∃ n, m.stages = n + 2 := ⟨m.stages - 2, by omega⟩
  show (if m.firstSameAsLast = true then (m.allStages f h x g s).f else g) = (f (x.s + h) (x.y + ∑ i ∈ Finset.range m.stages, m.b i • (m.allStages f h x g s).k.getD i 0)).1
  rw [if_pos hc]
  unfold ERK.allStages
  have e : n + 2 - 1 = n + 1 := rfl
  rw [hn, e] at hb ha hc1
  rw [hn, List.range_succ, List.foldl_append, List.foldl_cons, List.foldl_nil]
  obtain ⟨l, hl, hk⟩ := m.foldl_k f h x g (List.range (n + 1)) { k := [], f := 0, status := s }
  rw [List.nil_append] at hk
  rw [List.length_range] at hl
  generalize hgen : (List.range (n + 1)).foldl (m.stage f h x g) { k := [], f := 0, status := s } = st at hk ⊢
  unfold ERK.stage
  rw [if_neg (fun c => absurd c.1 (by omega))]
  simp only
  rw [hc1, one_mul, Finset.sum_range_succ _ (n + 1), hb, zero_smul, add_zero, hk]
  congr 3
  apply Finset.sum_congr rfl
  intro i hi
  rw [Finset.mem_range] at hi
  rw [← ha i hi, List.getD_eq_getElem?_getD, List.getD_eq_getElem?_getD, List.getElem?_append_left (by omega)]

/-- The restartability of a method whose coefficients passed the checks. -/
def ERK.restartable (m : ERK) (hm : m.Checked) (f : RightHandSide V) (h : ℝ) : (m.stepper f).Restartable h where
  valid x g := m.firstSameAsLast = true → g = (f x.s x.y).1
  start x hc := by
    show (if m.firstSameAsLast = true then f x.s x.y else (0, .ok)).1 = _
    rw [if_pos hc]
  advance x g s _ hc := m.last_evaluation hm hc f h x g s
  unique x g g' s s' hg hg' := by
    show (⟨x.s + h, x.y + ∑ i ∈ Finset.range m.stages, m.b i • (m.allStages f h x g s).k.getD i 0⟩ : FState V) =
      ⟨x.s + h, x.y + ∑ i ∈ Finset.range m.stages, m.b i • (m.allStages f h x g' s').k.getD i 0⟩
    have : (m.allStages f h x g s).k = (m.allStages f h x g' s').k :=
      m.foldl_congr f h x g g' (fun hc => (hg hc).trans (hg' hc).symm) _ _ _ rfl
    rw [this]

theorem ERK.start_not_aborted (m : ERK) (f : RightHandSide V) (hf : ∀ t q, (f t q).2 ≠ .aborted) (x : FState V) : ((m.stepper f).start x).2 ≠ .aborted := by
  show (if m.firstSameAsLast = true then f x.s x.y else (0, .ok)).2 ≠ _
  split_ifs
  · exact hf _ _
  · simp

end ERK

/-! ### C44 -/

section C44

variable {V : Type*} [AddCommGroup V] [Module ℝ V]

/-- A symplectic Runge-Kutta-Nyström integrator called for a time which is in the direction of its step terminates, whatever the equation, whatever errors it returns, and whenever it is asked to stop.  It
passes to `append_state` states at the times `t + h`, `t + 2 h`, and so on, none of which is past the requested time.  The state of the instance is the last of these, or the initial one if there is none.
Unless it was cancelled or aborted it stops less than one step short of the requested time. -/
theorem C44_symplectic_times (m : SRKN) (f : RightHandSide V) (stop : List (NState V) → Bool) (h tFinal : ℝ) (x : NState V) (ha : Ahead h x.time tFinal) :
    ∃ r, (∀ fuel, ⌊(tFinal - x.time) / h⌋₊ < fuel → (m.stepper f).solve stop true h fuel tFinal x = .ok r) ∧
      (∃ k, r.appended.map NState.time = (List.range k).map fun j : ℕ => x.time + (j + 1) * h) ∧
      r.state = (x :: r.appended).getLast (by simp) ∧
      (∀ y ∈ r.state :: r.appended, 0 ≤ (tFinal - y.time) / h) ∧
      (r.status ≠ .cancelled → r.status ≠ .aborted → |tFinal - r.state.time| < |h|) ∧
      ((∀ l, stop l = false) → (∀ t q, (f t q).2 ≠ .aborted) → |tFinal - r.state.time| < |h|) := by
  obtain ⟨r, h1, h2, h3, h4, h5, h6⟩ := (m.stepper f).solve_times stop (m.stepper_time f) true h tFinal x ha
  exact ⟨r, h1, h2, h3, h4, h5, fun hs hf => h6 hs (m.stepper_not_aborted f hf) (m.start_not_aborted f hf x)⟩

/-- The same thing for an explicit Runge-Kutta integrator. -/
theorem C44_runge_kutta_times (m : ERK) (f : RightHandSide V) (stop : List (FState V) → Bool) (h sFinal : ℝ) (x : FState V) (ha : Ahead h x.s sFinal) :
    ∃ r, (∀ fuel, ⌊(sFinal - x.s) / h⌋₊ < fuel → (m.stepper f).solve stop false h fuel sFinal x = .ok r) ∧
      (∃ k, r.appended.map FState.s = (List.range k).map fun j : ℕ => x.s + (j + 1) * h) ∧
      r.state = (x :: r.appended).getLast (by simp) ∧
      (∀ y ∈ r.state :: r.appended, 0 ≤ (sFinal - y.s) / h) ∧
      (r.status ≠ .cancelled → r.status ≠ .aborted → |sFinal - r.state.s| < |h|) ∧
      ((∀ l, stop l = false) → (∀ t q, (f t q).2 ≠ .aborted) → |sFinal - r.state.s| < |h|) := by
  obtain ⟨r, h1, h2, h3, h4, h5, h6⟩ := (m.stepper f).solve_times stop (fun _ _ _ _ => rfl) false h sFinal x ha
  exact ⟨r, h1, h2, h3, h4, h5, fun hs hf => h6 hs (fun h x g s hs => m.stages_not_aborted f hf h x g _ _ hs) (m.start_not_aborted f hf x)⟩

/-- A call for a time which is not in the direction of the step, or with a step that is zero, dies. -/
theorem C44_symplectic_check (m : SRKN) (f : RightHandSide V) (stop : List (NState V) → Bool) (h tFinal : ℝ) (x : NState V) (fuel : ℕ) (ha : ¬ Ahead h x.time tFinal) :
    (m.stepper f).solve stop true h fuel tFinal x = .error .check := by
  unfold Stepper.solve
  by_cases h1 : true = true ∧ h = 0
  · rw [if_pos h1]
  rw [if_neg h1]
  have hh : h ≠ 0 := fun e => h1 ⟨rfl, e⟩
  by_cases h2 : 0 ≤ h ∧ ¬ (m.stepper f).time x < tFinal
  · rw [if_pos h2]
  rw [if_neg h2, if_pos]
  by_contra h3
  apply ha
  rcases lt_or_gt_of_ne hh with hn | hp
  · right; refine ⟨hn, ?_⟩; by_contra hc; exact h3 ⟨hn, hc⟩
  · left; refine ⟨hp, ?_⟩; by_contra hc; exact h2 ⟨hp.le, hc⟩

/-- An explicit Runge-Kutta integrator doesn't check that the step is not zero: if it's zero the call never returns, unless it is cancelled or aborted. -/
theorem C44_zero_step_counterexample (m : ERK) (f : RightHandSide V) (hf : ∀ t q, (f t q).2 ≠ .aborted) (sFinal : ℝ) (x : FState V) (hs : x.s < sFinal) (fuel : ℕ) :
    (m.stepper f).solve (fun _ => false) false 0 fuel sFinal x = .error .outOfFuel := by
  unfold Stepper.solve
  rw [if_neg (by simp), if_neg (by rw [not_and, not_not]; exact fun _ => hs), if_neg (by simp)]
  have : ∀ (fuel : ℕ) (p : FState V × V × Status) (out : List (FState V)), p.2.2 ≠ .aborted →
      (m.stepper f).loop (fun _ => false) 0 sFinal fuel p.1 p.2.1 p.2.2 out = .error .outOfFuel := by
    intro fuel
    induction fuel with
    | zero => intro p out _; rfl
    | succ fuel ih =>
      intro p out hp
      have hp' : ((m.stepper f).advance 0 p.1 p.2.1 p.2.2).2.2 ≠ .aborted := m.stages_not_aborted f hf 0 p.1 p.2.1 _ _ hp
      rw [Stepper.loop, if_pos (by simp), if_neg (by simp), if_neg hp']
      exact ih _ _ hp'
  exact this fuel (x, (m.stepper f).start x) [] (m.start_not_aborted f hf x)

/-- Consecutive calls to `Solve` on an instance of a symplectic Runge-Kutta-Nyström integrator leave it in the same state as a single call for the last of the requested times, and they pass to
`append_state` the same states in the same order. -/
theorem C44_symplectic_restart (m : SRKN) (hm : m.Checked) (f : RightHandSide V) (hf : ∀ t q, (f t q).2 ≠ .aborted) (h : ℝ) (fuel : ℕ) (ts : List ℝ) (tFinal : ℝ) (x y : NState V)
    (out : List (NState V)) (hs : solveAll ((m.stepper f).solve (fun _ => false) true h fuel) (ts ++ [tFinal]) x = .ok (y, out)) :
    ∃ fuel' r, (m.stepper f).solve (fun _ => false) true h fuel' tFinal x = .ok r ∧ r.state = y ∧ r.appended = out :=
  (m.stepper f).solveAll_eq _ (m.stepper_time f) (m.stepper_not_aborted f hf) (m.start_not_aborted f hf) (fun _ => rfl) h (m.restartable hm f h) true (Or.inl rfl) fuel ts x y tFinal out hs

/-- The same thing for an explicit Runge-Kutta integrator. -/
theorem C44_runge_kutta_restart (m : ERK) (hm : m.Checked) (f : RightHandSide V) (hf : ∀ t q, (f t q).2 ≠ .aborted) (h : ℝ) (hh : h ≠ 0) (fuel : ℕ) (ts : List ℝ) (sFinal : ℝ)
    (x y : FState V) (out : List (FState V)) (hs : solveAll ((m.stepper f).solve (fun _ => false) false h fuel) (ts ++ [sFinal]) x = .ok (y, out)) :
    ∃ fuel' r, (m.stepper f).solve (fun _ => false) false h fuel' sFinal x = .ok r ∧ r.state = y ∧ r.appended = out :=
  (m.stepper f).solveAll_eq _ (fun _ _ _ _ => rfl) (fun h x g s hs => m.stages_not_aborted f hf h x g _ _ hs) (m.start_not_aborted f hf) (fun _ => rfl) h (m.restartable hm f h)
    false (Or.inr hh) fuel ts x y sFinal out hs

/-- Newton, Delambre, Størmer, Verlet, leapfrog: integrators/methods.hpp:951-965 as a `BAB` method. -/
def leapfrog : SRKN where
  timeReversible := true
  composition := .BAB
  stages := 2
  a i := if i = 0 then 1 else 0
  b i := 1 / 2

theorem leapfrog_checked : leapfrog.Checked where
  stages := by decide
  sum := by simp [SRKN.c, leapfrog, Finset.sum_range_succ]
  aba h := by cases h
  bab _ := by simp [leapfrog]
  reversibleABA _ h := by cases h
  reversibleBAB _ _ := by
    constructor
    · intro i hi
      simp only [leapfrog] at hi ⊢
      obtain rfl : i = 0 := by omega
      rfl
    · intro i _; rfl
  reversibleBA _ h := by cases h

example : Ahead (1 / 2) 0 (5 / 4) := Or.inl (by norm_num)

/-- Two calls on an oscillator, with the composition that keeps an evaluation from one step to the next, succeed and visit the three states of a single call. -/
example : ∃ y out, solveAll ((leapfrog.stepper (V := ℝ) fun _ q => (-q, .ok)).solve (fun _ => false) true (1 / 2) 4) [3 / 4, 7 / 4] ⟨0, 1, 0⟩ = .ok (y, out) ∧ out.length = 3 := by
  have hadv := leapfrog.stepper_time (V := ℝ) (fun _ q => (-q, .ok))
  have hab := leapfrog.stepper_not_aborted (V := ℝ) (fun _ q => (-q, .ok)) (by simp)
  have hst := leapfrog.start_not_aborted (V := ℝ) (fun _ q => (-q, .ok)) (by simp)
  have f1 : ⌊((3 / 4 - 0) / (1 / 2) : ℝ)⌋₊ = 1 := by rw [Nat.floor_eq_iff (by norm_num)]; norm_num
  have f2 : ⌊((7 / 4 - (0 + 1 * (1 / 2))) / (1 / 2) : ℝ)⌋₊ = 2 := by rw [Nat.floor_eq_iff (by norm_num)]; norm_num
  have ha1 : Ahead (1 / 2) ((leapfrog.stepper (V := ℝ) fun _ q => (-q, .ok)).time ⟨0, 1, 0⟩) (3 / 4) := Or.inl ⟨by norm_num, by show (0 : ℝ) < _; norm_num⟩
  obtain ⟨st1, e1⟩ := (leapfrog.stepper (V := ℝ) fun _ q => (-q, .ok)).solve_full (fun _ => false) hadv hab hst (fun _ => rfl) true (1 / 2) (3 / 4) ⟨0, 1, 0⟩ ha1 4
    (by show ⌊((3 / 4 - 0) / (1 / 2) : ℝ)⌋₊ < 4; rw [f1]; norm_num)
  have g1 : ⌊(3 / 4 - (leapfrog.stepper (V := ℝ) fun _ q => (-q, .ok)).time ⟨0, 1, 0⟩) / (1 / 2)⌋₊ = 1 := f1
  rw [g1] at e1
  set y1 := ((leapfrog.stepper (V := ℝ) fun _ q => (-q, .ok)).iter (1 / 2) (⟨0, 1, 0⟩, (leapfrog.stepper (V := ℝ) fun _ q => (-q, .ok)).start ⟨0, 1, 0⟩) 1).1 with hy1
  have ht1 : (leapfrog.stepper (V := ℝ) fun _ q => (-q, .ok)).time y1 = 0 + 1 * (1 / 2) := by
    rw [hy1, Stepper.iter_time _ hadv]; show (0 : ℝ) + (1 : ℕ) * (1 / 2) = _; norm_num
  have ha2 : Ahead (1 / 2) ((leapfrog.stepper (V := ℝ) fun _ q => (-q, .ok)).time y1) (7 / 4) := Or.inl ⟨by norm_num, by rw [ht1]; norm_num⟩
  obtain ⟨st2, e2⟩ := (leapfrog.stepper (V := ℝ) fun _ q => (-q, .ok)).solve_full (fun _ => false) hadv hab hst (fun _ => rfl) true (1 / 2) (7 / 4) y1 ha2 4
    (by rw [ht1, f2]; norm_num)
  rw [ht1, f2] at e2
  simp only [solveAll, e1, e2]
  exact ⟨_, _, rfl, rfl⟩

/-- Kutta (1901), method V with σ = 1: integrators/methods.hpp:632-649. -/
def kutta1901 : ERK where
  stages := 4
  firstSameAsLast := false
  a i j := if i = 3 ∧ j = 2 then 1 else if i = j + 1 ∧ i < 3 then 1 / 2 else 0
  b i := if i = 0 ∨ i = 3 then 1 / 6 else 1 / 3
  c i := if i = 0 then 0 else if i = 3 then 1 else 1 / 2

theorem kutta1901_checked : kutta1901.Checked where
  stages := by decide
  first := by simp [kutta1901]
  fsal h := by cases h

/-- A method with the FSAL property, to see that the checks may be met in that case too: the midpoint rule. -/
def midpoint : ERK where
  stages := 3
  firstSameAsLast := true
  a i j := if i = 1 ∧ j = 0 then 1 / 2 else if i = 2 ∧ j = 1 then 1 else 0
  b i := if i = 1 then 1 else 0
  c i := if i = 0 then 0 else if i = 1 then 1 / 2 else 1

theorem midpoint_checked : midpoint.Checked where
  stages := by decide
  first := by simp [midpoint]
  fsal _ := by
    refine ⟨by simp [midpoint], by simp [midpoint], ?_⟩
    intro j hj
    simp only [midpoint] at hj ⊢
    rcases (by omega : j = 0 ∨ j = 1) with rfl | rfl <;> simp

end C44

end

end Principia.Integrators
