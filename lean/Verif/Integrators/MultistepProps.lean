import Verif.Integrators.MultistepModel
import Verif.Integrators.FixedStepProps
import Mathlib.Tactic.Positivity
import Mathlib.Data.Nat.Cast.Order.Field
import Mathlib.Algebra.Order.Floor.Semifield

/-!
C44 for the multistep integrators.
-/

set_option linter.unusedSimpArgs false
set_option linter.unusedVariables false
set_option linter.unusedSectionVars false

namespace Principia.Integrators

/-! ### Specification -/

/-- A new instance: `InitialValueProblem` with the given state. -/
def newInstance {X P : Type*} (x : X) : MInstance X P := ⟨x, [], 0⟩

/-- Consecutive calls to `Solve` on the same instance, for the given times, with the final instance and all the states passed to `append_state` by these calls. -/
def solveAllMultistep {I X : Type*} (solve : ℝ → I → Except Failure (I × Status × List X)) : List ℝ → I → Except Failure (I × List X)
  | [], i => .ok (i, [])
  | t :: ts, i =>
    match solve t i with
    | .error e => .error e
    | .ok r =>
      match solveAllMultistep solve ts r.1 with
      | .error e => .error e
      | .ok (j, appended) => .ok (j, r.2.2 ++ appended)

noncomputable section

/-- What is needed of the integrators. -/
structure Compatible {X G P : Type*} (S : Stepper X G) (M : Multistepper X P) : Prop where
  stepper : ∀ h x g s, S.time (S.advance h x g s).1 = S.time x + h
  steps : 1 < M.steps
  fill : ∀ x, M.time (M.fill x) = S.time x
  step : ∀ h l p x s, M.time (M.advance h (l ++ [p]) x s).1 = M.time p + h
  state : ∀ h l p x s, S.time (M.advance h (l ++ [p]) x s).2.1 = M.time p + h
  status : ∀ h l x s s', (M.advance h l x s).1 = (M.advance h l x s').1 ∧ (M.advance h l x s).2.1 = (M.advance h l x s').2.1

/-- The equation never aborts. -/
structure NeverAborts {X G P : Type*} (S : Stepper X G) (M : Multistepper X P) : Prop where
  start : ∀ x, (S.start x).2 ≠ .aborted
  stepper : ∀ h x g s, s ≠ .aborted → (S.advance h x g s).2.2 ≠ .aborted
  multistepper : ∀ h l x s, s ≠ .aborted → (M.advance h l x s).2.2 ≠ .aborted

section Driver

variable {X G P : Type*} (S : Stepper X G) (M : Multistepper X P) (h : ℝ) (x : X)

local notation "D" => startupStepDivisor

/-- The states of the startup. -/
def path (k : ℕ) : X := (S.iter (h / D) (x, S.start x) k).1

/-- The instance after `k` steps of the startup. -/
def startAt (k : ℕ) : MInstance X P := ⟨path S h x k, (List.range (k / D + 1)).map fun j => M.fill (path S h x (D * j)), k⟩

/-- The number of steps of the startup. -/
def startupSteps : ℕ := D * (M.steps - 1)

/-- The instance after `n` steps that follow the startup. -/
def mainAt : ℕ → MInstance X P
  | 0 => startAt S M h x (startupSteps M)
  | n + 1 =>
    let r := M.advance h (mainAt n).previous (mainAt n).current .ok
    ⟨r.2.1, ((mainAt n).previous ++ [r.1]).tail, (mainAt n).index⟩

/-- The instance when the time is `n` startup steps from the beginning. -/
def instanceAt (n : ℕ) : MInstance X P := if n < startupSteps M then startAt S M h x n else mainAt S M h x (n / D - (M.steps - 1))

/-- The states passed to `append_state`, from the first one. -/
def visit (j : ℕ) : X := if j ≤ M.steps - 1 then path S h x (D * j) else (mainAt S M h x (j - (M.steps - 1))).current

/-- The states numbered from `a + 1` to `b`. -/
def visits (a b : ℕ) : List X := (List.range' (a + 1) (b - a)).map (visit S M h x)

variable {S M h x}

theorem visits_append {a b c : ℕ} (hab : a ≤ b) (hbc : b ≤ c) : visits S M h x a b ++ visits S M h x b c = visits S M h x a c := by
  unfold visits
  rw [← List.map_append]
  congr 1
  have : List.range' (b + 1) (c - b) = List.range' (a + 1 + 1 * (b - a)) (c - b) := by congr 1; omega
  rw [this, List.range'_append]
  congr 1
  omega

theorem visits_self (a : ℕ) : visits S M h x a a = [] := by simp [visits]

theorem visits_succ (a : ℕ) : visits S M h x a (a + 1) = [visit S M h x (a + 1)] := by simp [visits]

theorem D_pos : 0 < D := by decide

theorem restart_path (R : S.Restartable (h / D)) (k i : ℕ) : (S.iter (h / D) (path S h x k, S.start (path S h x k)) i).1 = path S h x (k + i) := R.restart x k i

theorem path_time (C : Compatible S M) (k : ℕ) : S.time (path S h x k) = S.time x + k * (h / D) := by
  unfold path
  rw [S.iter_time C.stepper]

/-- The calls to the callback of the startup. -/
theorem callback (C : Compatible S M) (k : ℕ) (hk : k ≤ startupSteps M) (out : List X) (m : ℕ) :
    ((List.range m).map fun i => path S h x (k + (i + 1))).foldl M.startupAppendState (startAt S M h x k, out) =
      (startAt S M h x (min (k + m) (startupSteps M)), out ++ visits S M h x (k / D) (min (k + m) (startupSteps M) / D)) := by
  induction m with
  | zero => simp [Nat.min_eq_left hk, visits_self]
  | succ m ih =>
    rw [List.range_succ, List.map_append, List.foldl_append, ih, List.map_singleton, List.foldl_cons, List.foldl_nil]
    have hs := C.steps
    by_cases hlt : k + m < startupSteps M
    · rw [Nat.min_eq_left hlt.le, Nat.min_eq_left (by omega : k + (m + 1) ≤ startupSteps M)]
      unfold Multistepper.startupAppendState
      have hlen : (startAt S M h x (k + m)).previous.length = (k + m) / D + 1 := by simp [startAt]
      have hlt' : (k + m) / D < M.steps - 1 := by rw [Nat.div_lt_iff_lt_mul D_pos, Nat.mul_comm]; exact hlt
      have hkm : k / D ≤ (k + m) / D := Nat.div_le_div_right (by omega)
      have hmod := Nat.div_add_mod (k + m) D
      have hmod' := Nat.div_add_mod (k + m + 1) D
      have hml := Nat.mod_lt (k + m) D_pos
      simp only
      rw [if_pos (by rw [hlen]; omega)]
      have hidx : (startAt S M h x (k + m)).index = k + m := rfl
      rw [hidx]
      by_cases hz : (k + m + 1) % D = 0
      · rw [if_pos hz]
        rw [hz, Nat.add_zero] at hmod'
        have hq : (k + m + 1) / D = (k + m) / D + 1 := by
          have hDD : D = 16 := rfl
          clear hlen
          rw [hDD] at hmod hmod' hml hz ⊢
          omega
        have hv : visit S M h x ((k + m) / D + 1) = path S h x (k + (m + 1)) := by
          unfold visit
          rw [if_pos (by omega), ← hq, hmod']
          rfl
        have e1 : k + (m + 1) = k + m + 1 := rfl
        rw [e1, hq]
        congr 1
        · unfold startAt
          simp only
          rw [hq, List.range_succ (n := (k + m) / D + 1), List.map_append, List.map_singleton, ← hq, hmod']
        · rw [List.append_assoc, ← e1, ← hv, ← visits_succ, visits_append hkm (by omega)]
      · rw [if_neg hz]
        have hq : (k + m + 1) / D = (k + m) / D := by
          have hDD : D = 16 := rfl
          clear hlen
          rw [hDD] at hmod hmod' hml hz ⊢
          omega
        have e1 : k + (m + 1) = k + m + 1 := rfl
        rw [e1, hq]
        congr 1
        unfold startAt
        simp only
        rw [hq]
    · rw [not_lt] at hlt
      rw [Nat.min_eq_right hlt, Nat.min_eq_right (by omega)]
      unfold Multistepper.startupAppendState
      rw [if_neg]
      simp only [startAt, startupSteps, List.length_map, List.length_range, Nat.mul_div_cancel_left _ D_pos]
      omega

/-- The previous steps of the instances that are started. -/
theorem mainAt_previous (C : Compatible S M) (n : ℕ) :
    ∃ l p, (mainAt S M h x n).previous = l ++ [p] ∧ l.length + 1 = M.steps ∧ M.time p = S.time x + ((M.steps - 1 + n : ℕ) : ℝ) * h := by
  have hs := C.steps
  have hD : ((D : ℕ) : ℝ) ≠ 0 := by norm_num [startupStepDivisor]
  induction n with
  | zero =>
    refine ⟨(List.range (M.steps - 1)).map fun j => M.fill (path S h x (D * j)), M.fill (path S h x (D * (M.steps - 1))), ?_, ?_, ?_⟩
    · simp only [mainAt, startAt, startupSteps, Nat.mul_div_cancel_left _ D_pos, List.range_succ, List.map_append, List.map_singleton]
    · simp; omega
    · rw [C.fill, path_time C]
      push_cast
      field_simp
      simp [mul_comm]
  | succ n ih =>
    obtain ⟨l, p, h1, h2, h3⟩ := ih
    have hl : ∃ a l', l = a :: l' := by
      cases l with
      | nil => simp at h2; omega
      | cons a l' => exact ⟨a, l', rfl⟩
    obtain ⟨a, l', rfl⟩ := hl
    refine ⟨l' ++ [p], (M.advance h (a :: l' ++ [p]) (mainAt S M h x n).current .ok).1, ?_, ?_, ?_⟩
    · rw [mainAt, h1]
      simp
    · simp at h2 ⊢; omega
    · rw [C.step, h3]
      push_cast
      ring

theorem mainAt_time (C : Compatible S M) (n : ℕ) : S.time (mainAt S M h x n).current = S.time x + ((M.steps - 1 + n : ℕ) : ℝ) * h := by
  have hD : ((D : ℕ) : ℝ) ≠ 0 := by norm_num [startupStepDivisor]
  cases n with
  | zero =>
    show S.time (path S h x (startupSteps M)) = _
    rw [path_time C]
    unfold startupSteps
    push_cast
    field_simp
    simp [mul_comm]
  | succ n =>
    obtain ⟨l, p, h1, h2, h3⟩ := mainAt_previous (h := h) (x := x) C n
    show S.time (M.advance h (mainAt S M h x n).previous _ .ok).2.1 = _
    rw [h1, C.state, h3]
    push_cast
    ring

theorem visit_time (C : Compatible S M) (j : ℕ) : S.time (visit S M h x j) = S.time x + j * h := by
  have hD : ((D : ℕ) : ℝ) ≠ 0 := by norm_num [startupStepDivisor]
  unfold visit
  split_ifs with hj
  · rw [path_time C]; push_cast; field_simp
  · rw [mainAt_time C]
    have : M.steps - 1 + (j - (M.steps - 1)) = j := by omega
    rw [this]

theorem visits_time (C : Compatible S M) (a b : ℕ) : (visits S M h x a b).map S.time = (List.range' (a + 1) (b - a)).map fun j : ℕ => S.time x + j * h := by
  unfold visits
  rw [List.map_map]
  apply List.map_congr_left
  intro j _
  exact visit_time C j

theorem visit_main (C : Compatible S M) (n : ℕ) : visit S M h x (M.steps - 1 + n) = (mainAt S M h x n).current := by
  unfold visit
  split_ifs with hj
  · obtain rfl : n = 0 := by omega
    rfl
  · congr 2
    omega

/-- The loop that follows the startup. -/
theorem main_loop (C : Compatible S M) (stop : List X → Bool) (hh : 0 < h) (tFinal : ℝ) (n' : ℕ) :
    ∀ (fuel n : ℕ) (s : Status) (out : List X), n' < fuel → ⌊(tFinal - (S.time x + ((M.steps - 1 + n : ℕ) : ℝ) * h)) / h⌋₊ = n' →
      ∃ m ≤ n', ∃ st, M.loop stop h tFinal fuel (mainAt S M h x n) (S.time x + ((M.steps - 1 + n : ℕ) : ℝ) * h) s out =
          .ok (mainAt S M h x (n + m), st, out ++ visits S M h x (M.steps - 1 + n) (M.steps - 1 + n + m)) ∧
        (st ≠ .cancelled → st ≠ .aborted → m = n') ∧
        ((∀ l, stop l = false) → NeverAborts S M → s ≠ .aborted → m = n') := by
  induction n' with
  | zero =>
    intro fuel n s out hf hn
    obtain ⟨fuel, rfl⟩ : ∃ f, fuel = f + 1 := ⟨fuel - 1, by omega⟩
    refine ⟨0, le_rfl, s, ?_, fun _ _ => rfl, fun _ _ _ => rfl⟩
    rw [Multistepper.loop, if_neg]
    · simp [visits_self]
    · rw [not_le]
      have := Nat.floor_eq_zero.1 hn
      rwa [div_lt_one hh] at this
  | succ n' ih =>
    intro fuel n s out hf hn
    obtain ⟨fuel, rfl⟩ : ∃ f, fuel = f + 1 := ⟨fuel - 1, by omega⟩
    set t := S.time x + ((M.steps - 1 + n : ℕ) : ℝ) * h with ht
    have h1 : (n' : ℝ) + 1 ≤ (tFinal - t) / h := by
      by_contra hc
      rw [not_le] at hc
      have := (Nat.floor_lt' (Nat.succ_ne_zero n')).2 (by push_cast; exact hc)
      omega
    have hc : h ≤ tFinal - t := by
      have : (1 : ℝ) ≤ (tFinal - t) / h := by have : (0 : ℝ) ≤ n' := Nat.cast_nonneg n'; linarith
      rwa [one_le_div hh] at this
    have hst := C.status h (mainAt S M h x n).previous (mainAt S M h x n).current s .ok
    have hnext : (⟨(M.advance h (mainAt S M h x n).previous (mainAt S M h x n).current s).2.1,
        ((mainAt S M h x n).previous ++ [(M.advance h (mainAt S M h x n).previous (mainAt S M h x n).current s).1]).tail, (mainAt S M h x n).index⟩ : MInstance X P) =
        mainAt S M h x (n + 1) := by
      rw [hst.1, hst.2]; rfl
    have hcur : (M.advance h (mainAt S M h x n).previous (mainAt S M h x n).current s).2.1 = visit S M h x (M.steps - 1 + n + 1) := by
      rw [hst.2, Nat.add_assoc, visit_main C]; rfl
    have ht' : t + h = S.time x + ((M.steps - 1 + (n + 1) : ℕ) : ℝ) * h := by rw [ht]; push_cast; ring
    rw [Multistepper.loop, if_pos hc]
    simp only
    rw [hnext, hcur]
    by_cases hstop : stop (out ++ [visit S M h x (M.steps - 1 + n + 1)]) = true
    · rw [if_pos hstop]
      refine ⟨1, by omega, .cancelled, ?_, fun h => absurd rfl h, fun h => ?_⟩
      · rw [visits_succ]
      · rw [h] at hstop; exact absurd hstop (by simp)
    rw [if_neg hstop]
    by_cases hab : (M.advance h (mainAt S M h x n).previous (mainAt S M h x n).current s).2.2 = .aborted
    · rw [if_pos hab]
      refine ⟨1, by omega, .aborted, ?_, fun _ h => absurd rfl h, fun _ N hs => absurd hab (N.multistepper _ _ _ _ hs)⟩
      rw [visits_succ, hab]
    rw [if_neg hab, ht']
    obtain ⟨m, hm, st, h2, h3, h4⟩ := ih fuel (n + 1) (M.advance h (mainAt S M h x n).previous (mainAt S M h x n).current s).2.2
      (out ++ [visit S M h x (M.steps - 1 + n + 1)]) (by omega) (by
        rw [← ht']
        have e : (tFinal - (t + h)) / h = (tFinal - t) / h - 1 := by field_simp; ring
        rw [e, Nat.floor_sub_one, hn]; rfl)
    refine ⟨m + 1, by omega, st, ?_, ?_, ?_⟩
    · rw [h2]
      have e1 : n + 1 + m = n + (m + 1) := by omega
      have e2 : M.steps - 1 + (n + 1) + m = M.steps - 1 + n + (m + 1) := by omega
      rw [e1, e2, List.append_assoc, ← visits_succ, Nat.add_assoc (M.steps - 1) n 1, visits_append (by omega) (by omega)]
    · intro a b; have := h3 a b; omega
    · intro a b c; have := h4 a b (b.multistepper _ _ _ _ c); omega

/-- The number of steps, counted as steps of the startup, from the beginning to the requested time. -/
def stepsTo (S : Stepper X G) (h : ℝ) (x : X) (tFinal : ℝ) : ℕ := ⌊(tFinal - S.time x) / (h / D)⌋₊

theorem stepsTo_div (hh : 0 < h) (tFinal : ℝ) : stepsTo S h x tFinal / D = ⌊(tFinal - S.time x) / h⌋₊ := by
  have hD : ((D : ℕ) : ℝ) ≠ 0 := by norm_num [startupStepDivisor]
  unfold stepsTo
  rw [← Nat.floor_div_natCast]
  congr 1
  field_simp

/-- After the startup. -/
theorem afterStartup_spec (C : Compatible S M) (stop : List X → Bool) (hh : 0 < h) (tFinal : ℝ) (fuel n : ℕ) (hf : stepsTo S h x tFinal < fuel) (out : List X) :
    ∃ m st, M.afterStartup stop h fuel tFinal (instanceAt S M h x n) out = .ok (instanceAt S M h x m, st, out ++ visits S M h x (n / D) (m / D)) ∧
      n ≤ m ∧ m ≤ max n (stepsTo S h x tFinal) ∧ (n < startupSteps M → m = n) ∧
      (startupSteps M ≤ n → st ≠ .cancelled → st ≠ .aborted → m = max n (stepsTo S h x tFinal)) ∧
      (startupSteps M ≤ n → (∀ l, stop l = false) → NeverAborts S M → m = max n (stepsTo S h x tFinal)) := by
  have hs := C.steps
  have hDD : D = 16 := rfl
  by_cases hn : n < startupSteps M
  · refine ⟨n, .ok, ?_, le_rfl, le_max_left _ _, fun _ => rfl, fun h => absurd hn (not_lt.2 h), fun h => absurd hn (not_lt.2 h)⟩
    unfold Multistepper.afterStartup
    rw [if_neg, visits_self, List.append_nil]
    unfold instanceAt
    rw [if_pos hn]
    have : n / D < M.steps - 1 := by rw [Nat.div_lt_iff_lt_mul D_pos, Nat.mul_comm]; exact hn
    simp only [startAt, List.length_map, List.length_range]
    omega
  have hnd : M.steps - 1 ≤ n / D := by
    rw [Nat.le_div_iff_mul_le D_pos, Nat.mul_comm]; exact not_lt.1 hn
  set k := n / D - (M.steps - 1) with hk
  have hinst : instanceAt S M h x n = mainAt S M h x k := by unfold instanceAt; rw [if_neg hn]
  obtain ⟨l, p, h1, h2, h3⟩ := mainAt_previous (h := h) (x := x) C k
  have hfl : ⌊(tFinal - (S.time x + ((M.steps - 1 + k : ℕ) : ℝ) * h)) / h⌋₊ = stepsTo S h x tFinal / D - (M.steps - 1 + k) := by
    rw [stepsTo_div hh]
    have e : (tFinal - (S.time x + ((M.steps - 1 + k : ℕ) : ℝ) * h)) / h = (tFinal - S.time x) / h - ((M.steps - 1 + k : ℕ) : ℝ) := by field_simp; ring
    rw [e, Nat.floor_sub_natCast]
  obtain ⟨m, hm, st, h4, h5, h6⟩ := main_loop (x := x) C stop hh tFinal _ fuel k .ok out (by
    rw [hfl]; have := Nat.div_le_self (stepsTo S h x tFinal) D; omega) rfl
  have hkn : M.steps - 1 + k = n / D := by omega
  rw [hfl, hkn] at hm h5 h6
  -- The final position.
  have hpos : ∃ m', m' / D = n / D + m ∧ n ≤ m' ∧ m' ≤ max n (stepsTo S h x tFinal) ∧ (m = stepsTo S h x tFinal / D - n / D → m' = max n (stepsTo S h x tFinal)) := by
    have a1 := Nat.div_add_mod n D
    have a2 := Nat.div_add_mod (stepsTo S h x tFinal) D
    have a3 := Nat.mod_lt n D_pos
    have a4 := Nat.mod_lt (stepsTo S h x tFinal) D_pos
    rw [hDD] at a1 a2 a3 a4 hm ⊢
    by_cases hfull : m = stepsTo S h x tFinal / 16 - n / 16
    · exact ⟨max n (stepsTo S h x tFinal), by omega, by omega, le_rfl, fun _ => rfl⟩
    · refine ⟨if m = 0 then n else 16 * (n / 16 + m), ?_, ?_, ?_, fun h => absurd h hfull⟩
      · split_ifs with h0 <;> omega
      · split_ifs with h0 <;> omega
      · split_ifs with h0 <;> omega
  obtain ⟨m', b1, b2, b3, b4⟩ := hpos
  refine ⟨m', st, ?_, b2, b3, fun h => absurd h hn, fun _ a b => b4 (h5 a b), fun _ a b => b4 (h6 a b (by simp))⟩
  unfold Multistepper.afterStartup
  rw [hinst, if_pos (by rw [h1]; simp; omega), if_pos hh]
  have hlast : (mainAt S M h x k).previous.getLast? = some p := by rw [h1]; simp
  rw [hlast]
  simp only
  rw [h3, h4, hkn, b1]
  congr 2
  unfold instanceAt
  rw [if_neg (by omega), b1]
  congr 1
  omega

/-- One call. -/
theorem solve_spec (C : Compatible S M) (R : S.Restartable (h / D)) (stop : List X → Bool) (checkStep : Bool) (hh : 0 < h) (tFinal : ℝ) (fuel n : ℕ) (hf : stepsTo S h x tFinal < fuel)
    (i : MInstance X P) (hi : i = instanceAt S M h x n ∨ i = newInstance x ∧ n = 0) (ht : n < startupSteps M → S.time x + n * (h / D) < tFinal) :
    ∃ m st out, M.solve S stop checkStep h fuel tFinal i = .ok (instanceAt S M h x m, st, out) ∧ out = visits S M h x (n / D) (m / D) ∧
      n ≤ m ∧ m ≤ max n (stepsTo S h x tFinal) ∧
      ((∀ l, stop l = false) → NeverAborts S M → m = max n (stepsTo S h x tFinal)) := by
  have hs := C.steps
  have hDD : D = 16 := rfl
  have hD : (0 : ℝ) < ((D : ℕ) : ℝ) := by norm_num [startupStepDivisor]
  have hhD : 0 < h / D := div_pos hh hD
  have hK : 0 < startupSteps M := Nat.mul_pos D_pos (by omega)
  by_cases hn : n < startupSteps M
  · -- The startup is called.
    have hnd : n / D < M.steps - 1 := by rw [Nat.div_lt_iff_lt_mul D_pos, Nat.mul_comm]; exact hn
    have hstart : instanceAt S M h x n = startAt S M h x n := by unfold instanceAt; rw [if_pos hn]
    have hcur : i.current = path S h x n := by
      rcases hi with rfl | ⟨rfl, rfl⟩
      · rw [hstart]; rfl
      · rfl
    have hidx : i.index = n := by
      rcases hi with rfl | ⟨rfl, rfl⟩
      · rw [hstart]; rfl
      · rfl
    have hprev : (if i.previous = [] then [M.fill i.current] else i.previous) = (startAt S M h x n).previous := by
      rcases hi with rfl | ⟨rfl, rfl⟩
      · rw [hstart, if_neg]
        simp [startAt]
      · simp [startAt, newInstance, path, Stepper.iter]
    have hlen : (startAt S M h x n).previous.length = n / D + 1 := by simp [startAt]
    have hilen : i.previous.length ≠ M.steps := by
      rcases hi with rfl | ⟨rfl, rfl⟩
      · rw [hstart, hlen]; omega
      · simp [newInstance]; omega
    have htc : S.time i.current = S.time x + n * (h / D) := by rw [hcur, path_time C]
    set bound := min (S.time i.current + ((M.steps - (n / D + 1) : ℕ) : ℝ) * h + h / 2) tFinal with hbound
    have ha : Ahead (h / D) (S.time i.current) bound := by
      refine Or.inl ⟨hhD, ?_⟩
      rw [hbound, lt_min_iff, htc]
      refine ⟨?_, ht hn⟩
      have : 0 ≤ ((M.steps - (n / D + 1) : ℕ) : ℝ) * h := mul_nonneg (Nat.cast_nonneg _) hh.le
      linarith
    obtain ⟨hne, hr0⟩ := ahead_ratio ha
    -- The number of steps of the startup integrator.
    have hfloor : min (n + ⌊(bound - S.time i.current) / (h / D)⌋₊) (startupSteps M) = min (stepsTo S h x tFinal) (startupSteps M) ∧
        n + ⌊(bound - S.time i.current) / (h / D)⌋₊ ≤ stepsTo S h x tFinal := by
      have e1 : (tFinal - S.time x) / (h / D) = (tFinal - S.time i.current) / (h / D) + n := by
        rw [htc]; field_simp; ring
      have hnn : 0 ≤ (tFinal - S.time i.current) / (h / D) := div_nonneg (by have := ht hn; rw [htc]; linarith) hhD.le
      have e2 : stepsTo S h x tFinal = ⌊(tFinal - S.time i.current) / (h / D)⌋₊ + n := by
        unfold stepsTo; rw [e1, Nat.floor_add_natCast hnn]
      rcases le_total tFinal (S.time i.current + ((M.steps - (n / D + 1) : ℕ) : ℝ) * h + h / 2) with hle | hle
      · have : bound = tFinal := by rw [hbound, min_eq_right hle]
        rw [this, e2]
        constructor
        · rw [Nat.add_comm]
        · omega
      · have hb : bound = S.time i.current + ((M.steps - (n / D + 1) : ℕ) : ℝ) * h + h / 2 := by rw [hbound, min_eq_left hle]
        have e3 : (bound - S.time i.current) / (h / D) = ((D * (M.steps - (n / D + 1)) + D / 2 : ℕ) : ℝ) := by
          rw [hb]
          have : ((D / 2 : ℕ) : ℝ) = (D : ℝ) / 2 := by norm_num [startupStepDivisor]
          push_cast [this]
          field_simp
          ring
        have h4 : ⌊(bound - S.time i.current) / (h / D)⌋₊ = D * (M.steps - (n / D + 1)) + D / 2 := by rw [e3, Nat.floor_natCast]
        have h5 : ⌊(bound - S.time i.current) / (h / D)⌋₊ ≤ ⌊(tFinal - S.time i.current) / (h / D)⌋₊ := by
          apply Nat.floor_le_floor
          apply div_le_div_of_nonneg_right _ hhD.le
          have : bound ≤ tFinal := min_le_right _ _
          linarith
        have a1 := Nat.div_add_mod n D
        have a2 := Nat.mod_lt n D_pos
        have h6 : startupSteps M ≤ n + ⌊(bound - S.time i.current) / (h / D)⌋₊ := by
          rw [h4]
          unfold startupSteps
          rw [hDD] at a1 a2 hnd ⊢
          omega
        constructor
        · rw [Nat.min_eq_right h6, Nat.min_eq_right]; rw [e2]; omega
        · rw [e2]; omega
    obtain ⟨m, hm, st, hl, -, hfull⟩ := S.loop_spec stop C.stepper (h / D) bound hne _ fuel (i.current, S.start i.current) [] (by
      have := hfloor.2; simp only; omega) hr0 rfl
    have hm' : m ≤ ⌊(bound - S.time i.current) / (h / D)⌋₊ := hm
    have happ : S.states (h / D) (i.current, S.start i.current) m = (List.range m).map fun j => path S h x (n + (j + 1)) := by
      unfold Stepper.states
      apply List.map_congr_left
      intro j _
      rw [hcur, restart_path R]
    have hsolve : M.startup S stop checkStep h fuel tFinal i =
        .ok (startAt S M h x (min (n + m) (startupSteps M)), visits S M h x (n / D) (min (n + m) (startupSteps M) / D)) := by
      unfold Multistepper.startup
      simp only [hprev, hlen]
      rw [if_pos (by omega), ← hbound, S.solve_ahead stop checkStep ha]
      rw [hl]
      simp only [List.nil_append]
      rw [happ, hcur, hidx]
      have := callback (x := x) (h := h) C n hn.le [] m
      rw [List.nil_append] at this
      exact congrArg Except.ok this
    set n1 := min (n + m) (startupSteps M) with hn1
    have hn1inst : startAt S M h x n1 = instanceAt S M h x n1 := by
      unfold instanceAt
      split_ifs with hc
      · rfl
      · have : n1 = startupSteps M := by omega
        have e : startupSteps M / D = M.steps - 1 := Nat.mul_div_cancel_left _ D_pos
        rw [this, e, Nat.sub_self]
        rfl
    obtain ⟨m2, st2, h1, h2, h3, h4, h5, h6⟩ := afterStartup_spec C stop hh tFinal fuel n1 hf (visits S M h x (n / D) (n1 / D))
    refine ⟨m2, st2, _, ?_, visits_append (Nat.div_le_div_right (c := D) (by omega : n ≤ n1)) (Nat.div_le_div_right h2), by omega, ?_, ?_⟩
    · unfold Multistepper.solve
      rw [if_neg hilen, hsolve]
      simp only
      rw [hn1inst, h1]
    · have := hfloor.2; omega
    · intro a b
      have hmn := (hfull a (fun k hk _ => by
        have : ∀ k, (S.iter (h / D) (i.current, S.start i.current) k).2.2 ≠ .aborted := by
          intro k
          induction k with
          | zero => exact b.start _
          | succ k ih => exact b.stepper _ _ _ _ ih
        exact this k)).1
      have hmn' : m = ⌊(bound - S.time i.current) / (h / D)⌋₊ := hmn
      have h7 : n1 = min (stepsTo S h x tFinal) (startupSteps M) := by rw [hn1, hmn']; exact hfloor.1
      by_cases hc : n1 < startupSteps M
      · have := h4 hc
        have := hfloor.2
        omega
      · have := h6 (by omega) a b
        have := hfloor.2
        omega
  · -- The startup is over.
    have hi' : i = instanceAt S M h x n := by
      rcases hi with rfl | ⟨_, rfl⟩
      · rfl
      · exact absurd hK hn
    obtain ⟨m, st, h1, h2, h3, h4, h5, h6⟩ := afterStartup_spec C stop hh tFinal fuel n hf []
    refine ⟨m, st, _, ?_, rfl, h2, h3, h6 (not_lt.1 hn)⟩
    have hnd : M.steps - 1 ≤ n / D := by rw [Nat.le_div_iff_mul_le D_pos, Nat.mul_comm]; exact not_lt.1 hn
    obtain ⟨l, p, g1, g2, g3⟩ := mainAt_previous (h := h) (x := x) C (n / D - (M.steps - 1))
    unfold Multistepper.solve
    rw [List.nil_append] at h1
    rw [if_pos, hi', h1]
    rw [hi']
    unfold instanceAt
    rw [if_neg hn, g1]
    simp
    omega

/-- The time of the instance. -/
theorem instanceAt_time (C : Compatible S M) (hh : 0 < h) (n : ℕ) :
    S.time (instanceAt S M h x n).current ≤ S.time x + n * (h / D) ∧ S.time x + (n / D : ℕ) * h ≤ S.time (instanceAt S M h x n).current := by
  have hD : (0 : ℝ) < ((D : ℕ) : ℝ) := by norm_num [startupStepDivisor]
  have hdiv : ((n / D : ℕ) : ℝ) ≤ n / D := Nat.cast_div_le
  have hle : ((n / D : ℕ) : ℝ) * h ≤ n * (h / D) := by
    calc ((n / D : ℕ) : ℝ) * h ≤ n / D * h := mul_le_mul_of_nonneg_right hdiv hh.le
      _ = n * (h / D) := by ring
  unfold instanceAt
  split_ifs with hn
  · show S.time (path S h x n) ≤ _ ∧ _ ≤ S.time (path S h x n)
    rw [path_time C]
    constructor <;> linarith
  · have hnd : M.steps - 1 ≤ n / D := by rw [Nat.le_div_iff_mul_le D_pos, Nat.mul_comm]; exact not_lt.1 hn
    rw [mainAt_time C, Nat.add_sub_cancel' hnd]
    constructor <;> linarith

/-- During the startup, a call for a time which is not after that of the instance dies. -/
theorem solve_check (C : Compatible S M) (stop : List X → Bool) (checkStep : Bool) (hh : 0 < h) (tFinal : ℝ) (fuel n : ℕ) (i : MInstance X P)
    (hi : i = instanceAt S M h x n ∨ i = newInstance x ∧ n = 0) (hn : n < startupSteps M) (ht : ¬ S.time x + n * (h / D) < tFinal) :
    M.solve S stop checkStep h fuel tFinal i = .error .check := by
  have hs := C.steps
  have hD : (0 : ℝ) < ((D : ℕ) : ℝ) := by norm_num [startupStepDivisor]
  have hhD : 0 < h / D := div_pos hh hD
  have hnd : n / D < M.steps - 1 := by rw [Nat.div_lt_iff_lt_mul D_pos, Nat.mul_comm]; exact hn
  have hstart : instanceAt S M h x n = startAt S M h x n := by unfold instanceAt; rw [if_pos hn]
  have hcur : i.current = path S h x n := by
    rcases hi with rfl | ⟨rfl, rfl⟩
    · rw [hstart]; rfl
    · rfl
  have hilen : i.previous.length < M.steps := by
    rcases hi with rfl | ⟨rfl, rfl⟩
    · rw [hstart]; simp [startAt]; omega
    · simp [newInstance]; omega
  unfold Multistepper.solve
  rw [if_neg (by omega)]
  have : M.startup S stop checkStep h fuel tFinal i = .error .check := by
    unfold Multistepper.startup
    simp only
    by_cases hl : (if i.previous = [] then [M.fill i.current] else i.previous).length < M.steps
    · rw [if_pos hl]
      have hsolve : ∀ b, b ≤ tFinal → S.solve stop checkStep (h / D) fuel b i.current = .error .check := by
        intro b hb
        unfold Stepper.solve
        rw [if_neg (fun c => ne_of_gt hhD c.2), if_pos]
        refine ⟨hhD.le, ?_⟩
        rw [hcur, path_time C]
        intro hc
        exact ht (lt_of_lt_of_le hc hb)
      rw [hsolve _ (min_le_right _ _)]
    · rw [if_neg hl]
  rw [this]

/-- Consecutive calls. -/
theorem solveAll_spec (C : Compatible S M) (N : NeverAborts S M) (R : S.Restartable (h / D)) (stop : List X → Bool) (hstop : ∀ l, stop l = false) (checkStep : Bool) (hh : 0 < h)
    (tFinal : ℝ) (fuel : ℕ) (hf : stepsTo S h x tFinal < fuel) (ts : List ℝ) (hts : ∀ t ∈ ts, t ≤ tFinal) :
    ∀ (n : ℕ) (i j : MInstance X P) (out : List X), (i = instanceAt S M h x n ∨ i = newInstance x ∧ n = 0) → n ≤ stepsTo S h x tFinal →
      solveAllMultistep (M.solve S stop checkStep h fuel) ts i = .ok (j, out) →
      ∃ n', (j = instanceAt S M h x n' ∨ j = newInstance x ∧ n' = 0) ∧ out = visits S M h x (n / D) (n' / D) ∧ n ≤ n' ∧ n' ≤ stepsTo S h x tFinal ∧
        (∀ t ∈ ts, stepsTo S h x t ≤ n') ∧ (ts ≠ [] → j = instanceAt S M h x n') ∧ ((ts ≠ [] ∧ n < startupSteps M) → S.time x + n * (h / D) < tFinal) := by
  have hD : (0 : ℝ) < ((D : ℕ) : ℝ) := by norm_num [startupStepDivisor]
  have hhD : 0 < h / D := div_pos hh hD
  have mono : ∀ t, t ≤ tFinal → stepsTo S h x t ≤ stepsTo S h x tFinal := by
    intro t ht
    unfold stepsTo
    apply Nat.floor_le_floor
    exact div_le_div_of_nonneg_right (by linarith) hhD.le
  induction ts with
  | nil =>
    intro n i j out hi hn hs
    simp only [solveAllMultistep, Except.ok.injEq, Prod.mk.injEq] at hs
    obtain ⟨rfl, rfl⟩ := hs
    exact ⟨n, hi, by rw [visits_self], le_rfl, hn, by simp, by simp, by simp⟩
  | cons t ts ih =>
    intro n i j out hi hn hs
    have htle := hts t List.mem_cons_self
    by_cases hc : n < startupSteps M ∧ ¬ S.time x + n * (h / D) < t
    · rw [solveAllMultistep, solve_check C stop checkStep hh t fuel n i hi hc.1 hc.2] at hs
      cases hs
    · have ht : n < startupSteps M → S.time x + n * (h / D) < t := fun h1 => by by_contra h2; exact hc ⟨h1, h2⟩
      obtain ⟨m, st, o, h1, h2, h3, h4, h5⟩ := solve_spec C R stop checkStep hh t fuel n (lt_of_le_of_lt (mono t htle) hf) i hi ht
      have h5 := h5 hstop N
      rw [solveAllMultistep, h1] at hs
      simp only at hs
      cases hrec : solveAllMultistep (M.solve S stop checkStep h fuel) ts (instanceAt S M h x m) with
      | error e => rw [hrec] at hs; cases hs
      | ok p =>
        rw [hrec] at hs
        simp only [Except.ok.injEq, Prod.mk.injEq] at hs
        have hmle : m ≤ stepsTo S h x tFinal := by have := mono t htle; omega
        obtain ⟨n', g1, g2, g3, g4, g5, g6, g7⟩ := ih (fun t ht => hts t (List.mem_cons_of_mem _ ht)) m (instanceAt S M h x m) p.1 p.2 (Or.inl rfl) hmle hrec
        refine ⟨n', by rw [← hs.1]; exact g1, ?_, by omega, g4, ?_, ?_, ?_⟩
        · rw [← hs.2, h2, g2, visits_append (Nat.div_le_div_right (by omega)) (Nat.div_le_div_right g3)]
        · intro t' ht'
          rcases List.mem_cons.1 ht' with rfl | ht'
          · omega
          · exact g5 t' ht'
        · intro _
          rw [← hs.1]
          by_cases hnil : ts = []
          · rw [hnil, solveAllMultistep] at hrec
            simp only [Except.ok.injEq] at hrec
            rw [← hrec] at g1 ⊢
            rcases g1 with g1 | ⟨g1, rfl⟩
            · exact g1
            · obtain rfl : m = 0 := by omega
              rfl
          · exact g6 hnil
        · intro hx
          exact lt_of_lt_of_le (ht hx.2) htle

/-- Consecutive calls and one call. -/
theorem solveAll_eq (C : Compatible S M) (N : NeverAborts S M) (R : S.Restartable (h / D)) (stop : List X → Bool) (hstop : ∀ l, stop l = false) (checkStep : Bool) (hh : 0 < h)
    (tFinal : ℝ) (fuel : ℕ) (hf : stepsTo S h x tFinal < fuel) (ts : List ℝ) (hts : ∀ t ∈ ts, t ≤ tFinal) (i : MInstance X P) (out : List X)
    (hs : solveAllMultistep (M.solve S stop checkStep h fuel) (ts ++ [tFinal]) (newInstance x) = .ok (i, out)) :
    ∃ st, M.solve S stop checkStep h fuel tFinal (newInstance x) = .ok (i, st, out) := by
  have hK : 0 < startupSteps M := Nat.mul_pos D_pos (by have := C.steps; omega)
  obtain ⟨n', g1, g2, g3, g4, g5, g6, g7⟩ := solveAll_spec C N R stop hstop checkStep hh tFinal fuel hf (ts ++ [tFinal])
    (by intro t ht; rcases List.mem_append.1 ht with ht | ht; exact hts t ht; rw [List.mem_singleton.1 ht]) 0 (newInstance x) i out (Or.inr ⟨rfl, rfl⟩) (Nat.zero_le _) hs
  have hlt := g7 ⟨by simp, hK⟩
  obtain ⟨m, st, o, h1, h2, h3, h4, h5⟩ := solve_spec C R stop checkStep hh tFinal fuel 0 hf (newInstance x) (Or.inr ⟨rfl, rfl⟩) (fun _ => hlt)
  have h5 := h5 hstop N
  have hm : m = n' := by
    have := g5 tFinal (by simp)
    omega
  rw [h1, h2, hm, g6 (by simp), g2]
  exact ⟨st, rfl⟩

/-- A call on a new instance. -/
theorem solve_times (C : Compatible S M) (R : S.Restartable (h / D)) (stop : List X → Bool) (checkStep : Bool) (hh : 0 < h) (tFinal : ℝ) (ht : S.time x < tFinal) (fuel : ℕ)
    (hf : ⌊(tFinal - S.time x) / (h / 16)⌋₊ < fuel) :
    ∃ i st out, M.solve S stop checkStep h fuel tFinal (newInstance x) = .ok (i, st, out) ∧
      (∃ k ≤ ⌊(tFinal - S.time x) / h⌋₊, out.map S.time = (List.range k).map (fun j : ℕ => S.time x + (j + 1) * h) ∧
        ((∀ l, stop l = false) → NeverAborts S M → k = ⌊(tFinal - S.time x) / h⌋₊)) ∧
      S.time i.current ≤ tFinal ∧ ((∀ l, stop l = false) → NeverAborts S M → tFinal - S.time i.current < h) := by
  have hD : (0 : ℝ) < ((D : ℕ) : ℝ) := by norm_num [startupStepDivisor]
  have hDD : ((D : ℕ) : ℝ) = 16 := by norm_num [startupStepDivisor]
  have hhD : 0 < h / D := div_pos hh hD
  obtain ⟨m, st, out, h1, h2, h3, h4, h5⟩ := solve_spec C R stop checkStep hh tFinal fuel 0 (by unfold stepsTo; rw [hDD]; exact hf) (newInstance x) (Or.inr ⟨rfl, rfl⟩)
    (fun _ => by simpa using ht)
  rw [Nat.zero_max] at h4 h5
  refine ⟨_, st, out, h1, ⟨m / D, ?_, ?_, ?_⟩, ?_, ?_⟩
  · rw [← stepsTo_div hh]; exact Nat.div_le_div_right h4
  · rw [h2, visits_time C, Nat.zero_div, Nat.sub_zero, List.range'_eq_map_range, List.map_map]
    apply List.map_congr_left
    intro j _
    simp only [Function.comp]
    push_cast
    ring
  · intro a b; rw [h5 a b, stepsTo_div hh]
  · refine (instanceAt_time C hh m).1.trans ?_
    have h6 : (m : ℝ) ≤ (tFinal - S.time x) / (h / D) := by
      refine le_trans (by exact_mod_cast h4) (Nat.floor_le (div_nonneg (by linarith) hhD.le))
    have := mul_le_mul_of_nonneg_right h6 hhD.le
    rw [div_mul_cancel₀ _ (ne_of_gt hhD)] at this
    linarith
  · intro a b
    have h6 := (instanceAt_time (x := x) C hh m).2
    rw [h5 a b, stepsTo_div hh] at h6
    have h7 := Nat.lt_floor_add_one ((tFinal - S.time x) / h)
    rw [div_lt_iff₀ hh] at h7
    rw [h5 a b]
    linarith

end Driver

section C44

variable {V : Type*} [AddCommGroup V] [Module ℝ V]

theorem stepAt_last (l : List (NStep V)) (p : NStep V) : stepAt (l ++ [p]) ((l ++ [p]).length - 1) = p := by
  unfold stepAt
  rw [List.getD_eq_getElem?_getD, List.length_append, List.length_singleton, Nat.add_sub_cancel, List.getElem?_append_right le_rfl, Nat.sub_self]
  rfl

theorem fstepBack_last (l : List (FStep V)) (p : FStep V) : fstepBack (l ++ [p]) 1 = p := by
  unfold fstepBack
  rw [List.getD_eq_getElem?_getD, List.length_append, List.length_singleton, Nat.add_sub_cancel, List.getElem?_append_right le_rfl, Nat.sub_self]
  rfl

theorem SLMS.compatible (m : SLMS) (hm : 1 < m.order) (s : SRKN) (f : RightHandSide V) : Compatible (s.stepper f) (m.multistepper f) where
  stepper := s.stepper_time f
  steps := hm
  fill _ := rfl
  step h l p x s := by show (stepAt (l ++ [p]) _).time + h = _; rw [stepAt_last]; rfl
  state h l p x s := by show (stepAt (l ++ [p]) _).time + h = _; rw [stepAt_last]; rfl
  status h l x s s' := ⟨rfl, rfl⟩

theorem SLMS.neverAborts (m : SLMS) (s : SRKN) (f : RightHandSide V) (hf : ∀ t q, (f t q).2 ≠ .aborted) : NeverAborts (s.stepper f) (m.multistepper f) where
  start := s.start_not_aborted f hf
  stepper := s.stepper_not_aborted f hf
  multistepper h l x s hs := update_not_aborted hs (hf _ _)

theorem ELMS.compatible (m : ELMS) (hm : 1 < m.steps) (s : ERK) (f : RightHandSide V) : Compatible (s.stepper f) (m.multistepper f) where
  stepper _ _ _ _ := rfl
  steps := hm
  fill _ := rfl
  step h l p x s := by show (fstepBack (l ++ [p]) _).s + h = _; rw [fstepBack_last]; rfl
  state h l p x s := by show (fstepBack (l ++ [p]) _).s + h = _; rw [fstepBack_last]; rfl
  status h l x s s' := ⟨rfl, rfl⟩

theorem ELMS.neverAborts (m : ELMS) (s : ERK) (f : RightHandSide V) (hf : ∀ t q, (f t q).2 ≠ .aborted) : NeverAborts (s.stepper f) (m.multistepper f) where
  start := s.start_not_aborted f hf
  stepper h x g st hs := s.stages_not_aborted f hf h x g _ _ hs
  multistepper h l x s hs := update_not_aborted hs (hf _ _)

/-- A new instance of a symmetric linear multistep integrator called for a time which is after that of its state terminates, whatever the equation and whenever it is asked to stop.  It passes to
`append_state` states at the times `t + h`, `t + 2 h`, and so on, none of which is past the requested time, and the state of the instance isn't past it either.  If it is not asked to stop and the equation
never aborts, it passes all the states whose time is not past the requested one, and it stops less than one step short of it. -/
theorem C44_symmetric_multistep_times (m : SLMS) (hm : 1 < m.order) (s : SRKN) (hs : s.Checked) (f : RightHandSide V) (stop : List (NState V) → Bool) (h : ℝ) (hh : 0 < h) (x : NState V)
    (tFinal : ℝ) (ht : x.time < tFinal) (fuel : ℕ) (hf : ⌊(tFinal - x.time) / (h / 16)⌋₊ < fuel) :
    ∃ i st out, (m.multistepper f).solve (s.stepper f) stop true h fuel tFinal (newInstance x) = .ok (i, st, out) ∧
      (∃ k ≤ ⌊(tFinal - x.time) / h⌋₊, out.map NState.time = (List.range k).map (fun j : ℕ => x.time + (j + 1) * h) ∧
        ((∀ l, stop l = false) → (∀ t q, (f t q).2 ≠ .aborted) → k = ⌊(tFinal - x.time) / h⌋₊)) ∧
      i.current.time ≤ tFinal ∧ ((∀ l, stop l = false) → (∀ t q, (f t q).2 ≠ .aborted) → tFinal - i.current.time < h) := by
  obtain ⟨i, st, out, h1, ⟨k, h2, h3, h4⟩, h5, h6⟩ := solve_times (m.compatible hm s f) (s.restartable hs f _) stop true hh tFinal ht fuel hf
  exact ⟨i, st, out, h1, ⟨k, h2, h3, fun a b => h4 a (m.neverAborts s f b)⟩, h5, fun a b => h6 a (m.neverAborts s f b)⟩

/-- The same thing for an explicit linear multistep integrator. -/
theorem C44_explicit_multistep_times (m : ELMS) (hm : 1 < m.steps) (s : ERK) (hs : s.Checked) (f : RightHandSide V) (stop : List (FState V) → Bool) (h : ℝ) (hh : 0 < h) (x : FState V)
    (sFinal : ℝ) (ht : x.s < sFinal) (fuel : ℕ) (hf : ⌊(sFinal - x.s) / (h / 16)⌋₊ < fuel) :
    ∃ i st out, (m.multistepper f).solve (s.stepper f) stop false h fuel sFinal (newInstance x) = .ok (i, st, out) ∧
      (∃ k ≤ ⌊(sFinal - x.s) / h⌋₊, out.map FState.s = (List.range k).map (fun j : ℕ => x.s + (j + 1) * h) ∧
        ((∀ l, stop l = false) → (∀ t q, (f t q).2 ≠ .aborted) → k = ⌊(sFinal - x.s) / h⌋₊)) ∧
      i.current.s ≤ sFinal ∧ ((∀ l, stop l = false) → (∀ t q, (f t q).2 ≠ .aborted) → sFinal - i.current.s < h) := by
  obtain ⟨i, st, out, h1, ⟨k, h2, h3, h4⟩, h5, h6⟩ := solve_times (m.compatible hm s f) (s.restartable hs f _) stop false hh sFinal ht fuel hf
  exact ⟨i, st, out, h1, ⟨k, h2, h3, fun a b => h4 a (m.neverAborts s f b)⟩, h5, fun a b => h6 a (m.neverAborts s f b)⟩

/-- Consecutive calls to `Solve` on a new instance of a symmetric linear multistep integrator, none of which is for a time after that of the last one, leave it in the same state as a single call for the last
of the requested times, including the data that it keeps for its next steps, and pass to `append_state` the same states in the same order.  This holds even if some of the calls stop before the end of the
startup. -/
theorem C44_symmetric_multistep_restart (m : SLMS) (hm : 1 < m.order) (s : SRKN) (hs : s.Checked) (f : RightHandSide V) (hf : ∀ t q, (f t q).2 ≠ .aborted) (h : ℝ) (hh : 0 < h)
    (x : NState V) (tFinal : ℝ) (fuel : ℕ) (hfuel : ⌊(tFinal - x.time) / (h / 16)⌋₊ < fuel) (ts : List ℝ) (hts : ∀ t ∈ ts, t ≤ tFinal) (i : MInstance (NState V) (NStep V))
    (out : List (NState V)) (hcalls : solveAllMultistep ((m.multistepper f).solve (s.stepper f) (fun _ => false) true h fuel) (ts ++ [tFinal]) (newInstance x) = .ok (i, out)) :
    ∃ st, (m.multistepper f).solve (s.stepper f) (fun _ => false) true h fuel tFinal (newInstance x) = .ok (i, st, out) :=
  solveAll_eq (m.compatible hm s f) (m.neverAborts s f hf) (s.restartable hs f _) _ (fun _ => rfl) true hh tFinal fuel hfuel ts hts i out hcalls

/-- The same thing for an explicit linear multistep integrator. -/
theorem C44_explicit_multistep_restart (m : ELMS) (hm : 1 < m.steps) (s : ERK) (hs : s.Checked) (f : RightHandSide V) (hf : ∀ t q, (f t q).2 ≠ .aborted) (h : ℝ) (hh : 0 < h)
    (x : FState V) (sFinal : ℝ) (fuel : ℕ) (hfuel : ⌊(sFinal - x.s) / (h / 16)⌋₊ < fuel) (ts : List ℝ) (hts : ∀ t ∈ ts, t ≤ sFinal) (i : MInstance (FState V) (FStep V))
    (out : List (FState V)) (hcalls : solveAllMultistep ((m.multistepper f).solve (s.stepper f) (fun _ => false) false h fuel) (ts ++ [sFinal]) (newInstance x) = .ok (i, out)) :
    ∃ st, (m.multistepper f).solve (s.stepper f) (fun _ => false) false h fuel sFinal (newInstance x) = .ok (i, st, out) :=
  solveAll_eq (m.compatible hm s f) (m.neverAborts s f hf) (s.restartable hs f _) _ (fun _ => rfl) false hh sFinal fuel hfuel ts hts i out hcalls

/-- The multistep integrators don't support negative steps: once the startup has completed, every call dies. -/
theorem C44_negative_step_counterexample (m : SLMS) (s : SRKN) (f : RightHandSide V) (stop : List (NState V) → Bool) (h : ℝ) (hh : h < 0) (fuel : ℕ) (tFinal : ℝ)
    (i : MInstance (NState V) (NStep V)) (hi : i.previous.length = m.order) : (m.multistepper f).solve (s.stepper f) stop true h fuel tFinal i = .error .check := by
  have hi' : i.previous.length = (m.multistepper f).steps := hi
  unfold Multistepper.solve Multistepper.afterStartup
  rw [if_pos hi', if_pos hi', if_neg (not_lt.2 hh.le)]

/-- The second-order Adams-Bashforth method: integrators/methods.hpp:213-222. -/
def adamsBashforth2 : ELMS where
  steps := 2
  α i := if i = 0 then 1 else if i = 1 then -1 else 0
  βNumerator i := if i = 1 then 3 else if i = 2 then -1 else 0
  βDenominator := 2

/-- Consecutive calls whose first one stops in the middle of the startup succeed. -/
example : ∃ i out, solveAllMultistep ((adamsBashforth2.multistepper (V := ℝ) fun _ q => (q, .ok)).solve (kutta1901.stepper fun _ q => (q, .ok)) (fun _ => false) false 1 100)
    ([1 / 4] ++ [7 / 2]) (newInstance ⟨0, 1⟩) = .ok (i, out) ∧ out.length = 3 := by
  have C := adamsBashforth2.compatible (V := ℝ) (by decide) kutta1901 (fun _ q => (q, .ok))
  have N := adamsBashforth2.neverAborts (V := ℝ) kutta1901 (fun _ q => (q, .ok)) (by simp)
  have R := kutta1901.restartable (V := ℝ) kutta1901_checked (fun _ q => (q, .ok)) (1 / startupStepDivisor)
  have f1 : stepsTo (kutta1901.stepper (V := ℝ) fun _ q => (q, .ok)) 1 ⟨0, 1⟩ (1 / 4) = 4 := by
    unfold stepsTo startupStepDivisor; show ⌊((1 / 4 - 0) / (1 / (16 : ℕ)) : ℝ)⌋₊ = _; rw [Nat.floor_eq_iff (by norm_num)]; norm_num
  have f2 : stepsTo (kutta1901.stepper (V := ℝ) fun _ q => (q, .ok)) 1 ⟨0, 1⟩ (7 / 2) = 56 := by
    unfold stepsTo startupStepDivisor; show ⌊((7 / 2 - 0) / (1 / (16 : ℕ)) : ℝ)⌋₊ = _; rw [Nat.floor_eq_iff (by norm_num)]; norm_num
  obtain ⟨m1, st1, o1, a1, a2, a3, a4, a5⟩ := solve_spec (x := ⟨0, 1⟩) C R (fun _ => false) false one_pos (1 / 4) 100 0 (by rw [f1]; norm_num) (newInstance ⟨0, 1⟩) (Or.inr ⟨rfl, rfl⟩)
    (fun _ => by show (0 : ℝ) + _ < _; norm_num)
  obtain rfl : m1 = 4 := by rw [a5 (fun _ => rfl) N, f1]; rfl
  obtain ⟨m2, st2, o2, b1, b2, b3, b4, b5⟩ := solve_spec (x := ⟨0, 1⟩) C R (fun _ => false) false one_pos (7 / 2) 100 4 (by rw [f2]; norm_num) _ (Or.inl rfl)
    (fun _ => by show (0 : ℝ) + _ < _; norm_num [startupStepDivisor])
  obtain rfl : m2 = 56 := by rw [b5 (fun _ => rfl) N, f2]; rfl
  simp only [List.cons_append, List.nil_append, solveAllMultistep, a1, b1]
  refine ⟨_, _, rfl, ?_⟩
  rw [a2, b2]
  simp [visits, startupStepDivisor]

end C44

end

end Principia.Integrators
