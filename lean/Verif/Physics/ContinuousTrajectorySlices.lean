import Verif.Physics.ContinuousTrajectoryModel
import Mathlib.Tactic.Abel
import Mathlib.Data.List.Range
import Mathlib.Order.Monotone.Basic
import Mathlib.Algebra.Order.Group.Nat

/-!
# The polynomials of a trajectory

The trajectory to which the points of a sequence are appended is determined by that sequence, up to the place where it starts.
-/

set_option linter.unusedSimpArgs false
set_option linter.unusedVariables false
set_option linter.unusedSectionVars false

namespace Principia.ContinuousTrajectory

open Principia.SortedMap Principia.Checkpointer

variable {T L D P E : Type} [AddCommGroup T] [LinearOrder T] [IsOrderedAddMonoid T] [Field L] [LinearOrder L]

section Reference

variable (env : Env T L D P E) (t0 : T) (points : ℕ → D) (policy : E)

/-- The time of the point of index `i`. -/
def timeAt (i : ℕ) : T := t0 + i • env.step

def window (k : ℕ) : List D := (List.range' (8 * k) 9).map points

def result (r : Regulator L) (k : ℕ) : Regulator L × P × Bool :=
  computeBestNewhallApproximation env policy r (timeAt env t0 (8 * k)) (timeAt env t0 (8 * (k + 1))) (window points k)

/-- The regulator before the polynomial of index `k` is computed. -/
def regulatorAt : ℕ → Regulator L
  | 0 => (create env).regulator
  | k + 1 => (result env t0 points policy (regulatorAt k) k).1

def polynomialAt (k : ℕ) : P := (result env t0 points policy (regulatorAt env t0 points policy k) k).2.1

/-- The trajectory has the polynomials between the points of index `8 * α` and `n`, and the state that results from appending the points up to that of index `n`. -/
structure IsSlice (s : Trajectory T L D P E) (α n : ℕ) : Prop where
  le : α ≤ n / 8
  policy_eq : s.policy = policy
  regulator : s.regulator = regulatorAt env t0 points policy (n / 8)
  polynomials : s.polynomials = (List.range' α (n / 8 - α)).map fun k => (timeAt env t0 (8 * (k + 1)), polynomialAt env t0 points policy k)
  first : s.firstTime = some (timeAt env t0 (8 * α))
  last : s.lastPoints = (List.range' (8 * (n / 8)) (n % 8 + 1)).map fun i => (timeAt env t0 i, points i)
  accessed : s.lastAccessed ≤ s.polynomials.length

variable {env t0 points policy}

theorem timeAt_succ (i : ℕ) : timeAt env t0 i + env.step = timeAt env t0 (i + 1) := by
  unfold timeAt; rw [succ_nsmul]; abel

theorem timeAt_zero : timeAt env t0 0 = t0 := by simp [timeAt]

theorem timeAt_strictMono (h : 0 < env.step) : StrictMono (timeAt env t0) := by
  apply strictMono_nat_of_lt_succ
  intro i
  rw [← timeAt_succ]
  exact lt_add_of_pos_right _ h

/-- The first point. -/
theorem slice_create (hp : env.defaultPolicy = policy) :
    ∃ s, append env (create env) t0 (points 0) = some (s, true) ∧ IsSlice env t0 points policy s 0 0 ∧ s.checkpointer = [] := by
  refine ⟨_, rfl, ⟨le_rfl, hp, rfl, by simp [create], by simp [timeAt_zero], by simp [timeAt_zero], by simp [create]⟩, rfl⟩

theorem IsSlice.getLast {s : Trajectory T L D P E} {α n : ℕ} (hs : IsSlice env t0 points policy s α n) : s.lastPoints.getLast? = some (timeAt env t0 n, points n) := by
  rw [hs.last, List.range'_concat, List.map_append, List.getLast?_append]
  have : 8 * (n / 8) + 1 * (n % 8) = n := by omega
  simp only [List.map_cons, List.map_nil, List.getLast?_singleton, Option.some_or, this]

/-- Only the next point may be appended. -/
theorem IsSlice.append_time {s : Trajectory T L D P E} {α n : ℕ} (hs : IsSlice env t0 points policy s α n) {t : T} {d : D} {r : Trajectory T L D P E × Bool}
    (h : append env s t d = some r) : t = timeAt env t0 (n + 1) := by
  unfold append at h
  rw [hs.first, hs.getLast] at h
  simp only at h
  by_cases hc : timeAt env t0 n + env.step = t
  · rw [← hc, timeAt_succ]
  · rw [if_neg hc] at h; cases h

theorem IsSlice.append {s : Trajectory T L D P E} {α n : ℕ} (hs : IsSlice env t0 points policy s α n) :
    ∃ s' b, append env s (timeAt env t0 (n + 1)) (points (n + 1)) = some (s', b) ∧ IsSlice env t0 points policy s' α (n + 1) ∧ s'.checkpointer = s.checkpointer := by
  unfold ContinuousTrajectory.append
  rw [hs.first, hs.getLast]
  simp only
  rw [if_pos (timeAt_succ n)]
  unfold appendChecked
  have hlen : s.lastPoints.length = n % 8 + 1 := by rw [hs.last]; simp
  have hl := hs.last
  rw [List.range'_succ, List.map_cons] at hl
  rw [hl]
  simp only
  rw [← hl]
  rw [if_neg (by rw [hlen]; unfold divisions; omega)]
  by_cases h8 : s.lastPoints.length = divisions
  · rw [if_pos h8]
    have hn : n % 8 = 7 := by rw [hlen] at h8; unfold divisions at h8; omega
    have hd : (n + 1) / 8 = n / 8 + 1 := by omega
    have hm : (n + 1) % 8 = 0 := by omega
    have hn1 : 8 * (n / 8 + 1) = n + 1 := by omega
    have hw : s.lastPoints.map Prod.snd ++ [points (n + 1)] = window points (n / 8) := by
      unfold window
      rw [hs.last, hn, List.map_map, show (9 : ℕ) = 7 + 1 + 1 from rfl, List.range'_concat (n := 7 + 1)]
      rw [List.map_append]
      congr 1
      simp only [List.map_cons, List.map_nil]
      congr 2
      omega
    rw [hw]
    rw [hs.policy_eq, hs.regulator]
    refine ⟨_, _, rfl, ?_, rfl⟩
    · refine ⟨?_, ?_, ?_, ?_, ?_, ?_, ?_⟩
      · have := hs.le; omega
      · rfl
      · show _ = regulatorAt env t0 points policy ((n + 1) / 8)
        rw [hd, regulatorAt, result, hn1]
      · simp only
        rw [hs.polynomials, hd, show n / 8 + 1 - α = (n / 8 - α) + 1 from by have := hs.le; omega, List.range'_concat, List.map_append]
        congr 1
        have : α + 1 * (n / 8 - α) = n / 8 := by have := hs.le; omega
        simp only [List.map_cons, List.map_nil, this, hn1]
        unfold polynomialAt result
        rw [hn1]
      · exact hs.first
      · rw [hd, hm, hn1]; simp
      · simp only [List.length_append]
        exact hs.accessed.trans (Nat.le_add_right _ _)
  · rw [if_neg h8]
    have hn : n % 8 ≠ 7 := by rw [hlen] at h8; unfold divisions at h8; omega
    have hd : (n + 1) / 8 = n / 8 := by omega
    have hm : (n + 1) % 8 = n % 8 + 1 := by omega
    refine ⟨_, _, rfl, ⟨?_, hs.policy_eq, ?_, ?_, hs.first, ?_, hs.accessed⟩, rfl⟩
    · rw [hd]; exact hs.le
    · rw [hd]; exact hs.regulator
    · rw [hd]; exact hs.polynomials
    · simp only
      rw [hs.last, hd, hm, List.range'_concat (n := n % 8 + 1), List.map_append]
      congr 1
      have : 8 * (n / 8) + 1 * (n % 8 + 1) = n + 1 := by omega
      simp only [List.map_cons, List.map_nil, this]

/-! ### Evaluation -/

theorem IsSlice.length {s : Trajectory T L D P E} {α n : ℕ} (hs : IsSlice env t0 points policy s α n) : s.polynomials.length = n / 8 - α := by
  rw [hs.polynomials]; simp

theorem IsSlice.getElem {s : Trajectory T L D P E} {α n : ℕ} (hs : IsSlice env t0 points policy s α n) (i : ℕ) (hi : i < n / 8 - α) :
    s.polynomials[i]? = some (timeAt env t0 (8 * (α + i + 1)), polynomialAt env t0 points policy (α + i)) := by
  rw [hs.polynomials, List.getElem?_map, List.getElem?_range' hi]
  simp

theorem IsSlice.sorted {s : Trajectory T L D P E} {α n : ℕ} (hs : IsSlice env t0 points policy s α n) (h : 0 < env.step) : Sorted s.polynomials := by
  unfold Sorted
  rw [hs.polynomials, List.pairwise_map]
  refine List.Pairwise.imp ?_ (List.pairwise_lt_range' (s := α) (n := n / 8 - α))
  intro a b hab
  exact timeAt_strictMono h (by omega)

theorem IsSlice.tMin {s : Trajectory T L D P E} {α n : ℕ} (hs : IsSlice env t0 points policy s α n) :
    tMin s = if α < n / 8 then some (timeAt env t0 (8 * α)) else none := by
  unfold ContinuousTrajectory.tMin
  by_cases h : α < n / 8
  · rw [if_pos h, if_neg, hs.first]
    intro he
    have := hs.length
    rw [he] at this
    simp at this; omega
  · rw [if_neg h, if_pos]
    apply List.eq_nil_of_length_eq_zero
    rw [hs.length]; omega

theorem IsSlice.lastPolynomial {s : Trajectory T L D P E} {α n : ℕ} (hs : IsSlice env t0 points policy s α n) (h : α < n / 8) :
    s.polynomials.getLast? = some (timeAt env t0 (8 * (n / 8)), polynomialAt env t0 points policy (n / 8 - 1)) := by
  rw [List.getLast?_eq_getElem?, hs.length, hs.getElem _ (by omega)]
  have h1 : α + (n / 8 - α - 1) = n / 8 - 1 := by omega
  have h2 : n / 8 - 1 + 1 = n / 8 := by omega
  rw [h1, h2]

theorem IsSlice.tMax {s : Trajectory T L D P E} {α n : ℕ} (hs : IsSlice env t0 points policy s α n) :
    tMax s = if α < n / 8 then some (timeAt env t0 (8 * (n / 8))) else none := by
  unfold ContinuousTrajectory.tMax
  by_cases h : α < n / 8
  · rw [if_pos h, hs.lastPolynomial h]; rfl
  · rw [if_neg h]
    have : s.polynomials = [] := by
      apply List.eq_nil_of_length_eq_zero
      rw [hs.length]; omega
    rw [this]; rfl

/-- The polynomial of index `k` is used for `t`. -/
def Covers (env : Env T L D P E) (t0 : T) (α k : ℕ) (t : T) : Prop := (timeAt env t0 (8 * k) < t ∨ k = α ∧ timeAt env t0 (8 * k) = t) ∧ t ≤ timeAt env t0 (8 * (k + 1))

theorem exists_covers (α : ℕ) (m : ℕ) {t : T} (h0 : timeAt env t0 (8 * α) ≤ t) (h1 : t ≤ timeAt env t0 (8 * (α + m + 1))) : ∃ k, α ≤ k ∧ k < α + m + 1 ∧ Covers env t0 α k t := by
  induction m with
  | zero =>
    refine ⟨α, le_rfl, by omega, ?_, h1⟩
    rcases h0.lt_or_eq with h | h
    · exact Or.inl h
    · exact Or.inr ⟨rfl, h⟩
  | succ m ih =>
    by_cases hc : t ≤ timeAt env t0 (8 * (α + m + 1))
    · obtain ⟨k, hk, hk', hc⟩ := ih hc
      exact ⟨k, hk, by omega, hc⟩
    · exact ⟨α + m + 1, by omega, by omega, Or.inl (not_le.1 hc), h1⟩

theorem IsSlice.lowerBound {s : Trajectory T L D P E} {α n : ℕ} (hs : IsSlice env t0 points policy s α n) (h : 0 < env.step) {k : ℕ} {t : T} (hk : α ≤ k) (hk' : k < n / 8) (hc : Covers env t0 α k t) :
    lowerBound s.polynomials t = k - α := by
  have hm := timeAt_strictMono (t0 := t0) h
  have hsplit : s.polynomials = ((List.range' α (k - α)).map fun k => (timeAt env t0 (8 * (k + 1)), polynomialAt env t0 points policy k)) ++
      ((List.range' k (n / 8 - k)).map fun k => (timeAt env t0 (8 * (k + 1)), polynomialAt env t0 points policy k)) := by
    rw [hs.polynomials, ← List.map_append, List.range'_eq_append_iff.2 ?_]
    exact ⟨k - α, by omega, rfl, by congr 1 <;> omega⟩
  unfold SortedMap.lowerBound
  rw [hsplit, List.takeWhile_append_of_pos]
  · rw [show n / 8 - k = (n / 8 - k - 1) + 1 from by omega, List.range'_succ, List.map_cons, List.takeWhile_cons_of_neg]
    · simp
    · simpa using hc.2
  · intro a ha
    simp only [List.mem_map, List.mem_range'_1] at ha
    obtain ⟨j, ⟨hj, hj'⟩, rfl⟩ := ha
    simp only [decide_eq_true_eq]
    rcases hc.1 with h2 | ⟨rfl, -⟩
    · exact (hm.monotone (by omega : 8 * (j + 1) ≤ 8 * k)).trans_lt h2
    · omega

theorem IsSlice.find {s : Trajectory T L D P E} {α n : ℕ} (hs : IsSlice env t0 points policy s α n) (h : 0 < env.step) {k : ℕ} {t : T} (hk : α ≤ k) (hk' : k < n / 8) (hc : Covers env t0 α k t) :
    ∃ la, la ≤ s.polynomials.length ∧ findPolynomialForInstant s t = some (k - α, { s with lastAccessed := la }) := by
  have hm := timeAt_strictMono (t0 := t0) h
  unfold findPolynomialForInstant
  rw [if_neg (not_lt.2 hs.accessed)]
  by_cases hh : isLastAccessed s t = true
  · rw [if_pos hh]
    refine ⟨s.lastAccessed, hs.accessed, ?_⟩
    unfold isLastAccessed at hh
    congr 2
    have hlt : s.lastAccessed < n / 8 - α := by
      rw [← hs.length]
      by_contra hge
      rw [List.getElem?_eq_none (not_lt.1 hge)] at hh
      simp at hh
    rw [hs.getElem _ hlt] at hh
    simp only [Bool.and_eq_true, decide_eq_true_eq, Bool.or_eq_true, beq_iff_eq] at hh
    obtain ⟨h1, h2⟩ := hh
    have ha : k ≤ α + s.lastAccessed := by
      by_contra hlt'
      rcases hc.1 with h3 | ⟨rfl, -⟩
      · exact absurd (h3.trans_le h1) (not_lt.2 (hm.monotone (by omega)))
      · omega
    have hb : α + s.lastAccessed ≤ k := by
      by_contra hlt'
      rcases h2 with h2 | h2
      · omega
      · rw [hs.getElem _ (by omega)] at h2
        simp only [decide_eq_true_eq] at h2
        exact absurd (h2.trans_le hc.2) (not_lt.2 (hm.monotone (by omega)))
    omega
  · rw [if_neg hh]
    refine ⟨SortedMap.lowerBound s.polynomials t, lowerBound_le _ _, ?_⟩
    rw [hs.lowerBound h hk hk' hc]

theorem IsSlice.withAccessed {s : Trajectory T L D P E} {α n : ℕ} (hs : IsSlice env t0 points policy s α n) {la : ℕ} (hla : la ≤ s.polynomials.length) :
    IsSlice env t0 points policy { s with lastAccessed := la } α n :=
  ⟨hs.le, hs.policy_eq, hs.regulator, hs.polynomials, hs.first, hs.last, hla⟩

/-- Evaluation inside of the bounds. -/
theorem IsSlice.evaluate {s : Trajectory T L D P E} {α n : ℕ} (hs : IsSlice env t0 points policy s α n) (h : 0 < env.step) {k : ℕ} {t : T} (hk : α ≤ k) (hk' : k < n / 8) (hc : Covers env t0 α k t) :
    ∃ la, la ≤ s.polynomials.length ∧ evaluate s t = some (polynomialAt env t0 points policy k, { s with lastAccessed := la }) := by
  have hm := timeAt_strictMono (t0 := t0) h
  obtain ⟨la, hla, hf⟩ := hs.find h hk hk' hc
  refine ⟨la, hla, ?_⟩
  unfold ContinuousTrajectory.evaluate
  rw [hs.tMin, hs.tMax, if_pos (by omega), if_pos (by omega)]
  simp only
  have hb : timeAt env t0 (8 * α) ≤ t ∧ timeAt env t0 (8 * (n / 8)) ≥ t := by
    constructor
    · have h1 : timeAt env t0 (8 * α) ≤ timeAt env t0 (8 * k) := hm.monotone (by omega)
      rcases hc.1 with h2 | ⟨-, h2⟩
      · exact h1.trans h2.le
      · exact h1.trans h2.le
    · exact hc.2.trans (hm.monotone (by omega))
  rw [if_pos hb, hf]
  · simp only
    rw [hs.getElem _ (by omega)]
    have : α + (k - α) = k := by omega
    simp [this]

/-- Evaluation succeeds only inside of the bounds. -/
theorem IsSlice.evaluate_some {s : Trajectory T L D P E} {α n : ℕ} (hs : IsSlice env t0 points policy s α n) (h : 0 < env.step) {t : T} {r : P × Trajectory T L D P E} (he : ContinuousTrajectory.evaluate s t = some r) :
    α < n / 8 ∧ timeAt env t0 (8 * α) ≤ t ∧ t ≤ timeAt env t0 (8 * (n / 8)) ∧
      ∃ k, α ≤ k ∧ k < n / 8 ∧ Covers env t0 α k t ∧ r.1 = polynomialAt env t0 points policy k ∧ ∃ la, la ≤ s.polynomials.length ∧ r.2 = { s with lastAccessed := la } := by
  have he' := he
  unfold ContinuousTrajectory.evaluate at he
  rw [hs.tMin, hs.tMax] at he
  by_cases hα : α < n / 8
  · rw [if_pos hα, if_pos hα] at he
    simp only at he
    by_cases hb : timeAt env t0 (8 * α) ≤ t ∧ timeAt env t0 (8 * (n / 8)) ≥ t
    · have hb2 : t ≤ timeAt env t0 (8 * (α + (n / 8 - α - 1) + 1)) := by
        rw [show α + (n / 8 - α - 1) + 1 = n / 8 from by omega]; exact hb.2
      obtain ⟨k, hk, hk', hc⟩ := exists_covers α (n / 8 - α - 1) hb.1 hb2
      obtain ⟨la, hla, hf⟩ := hs.evaluate h hk (by omega) hc
      rw [hf] at he'
      simp only [Option.some.injEq] at he'
      refine ⟨hα, hb.1, hb.2, k, hk, by omega, hc, ?_, la, hla, ?_⟩
      · rw [← he']
      · rw [← he']
    · rw [if_neg hb] at he; cases he
  · rw [if_neg hα] at he; cases he

/-! ### Checkpoints -/

theorem IsSlice.checkpoint_eq {s s' : Trajectory T L D P E} {α α' n : ℕ} (hs : IsSlice env t0 points policy s α n) (hs' : IsSlice env t0 points policy s' α' n) : checkpoint s = checkpoint s' := by
  unfold checkpoint
  rw [hs.regulator, hs'.regulator, hs.last, hs'.last]

/-- A checkpoint of the trajectory after the point of index `n`. -/
def IsCheckpoint (env : Env T L D P E) (t0 : T) (points : ℕ → D) (policy : E) (c : Checkpoint T L D) (n : ℕ) : Prop :=
  c.regulator = regulatorAt env t0 points policy (n / 8) ∧
  c.lastPoints = (List.range' (8 * (n / 8)) (n % 8 + 1)).map fun i => (timeAt env t0 i, points i)

theorem IsSlice.isCheckpoint {s : Trajectory T L D P E} {α n : ℕ} (hs : IsSlice env t0 points policy s α n) : IsCheckpoint env t0 points policy (checkpoint s) n :=
  ⟨hs.regulator, hs.last⟩

/-- Reading a checkpoint into a trajectory that has no polynomials. -/
theorem IsCheckpoint.read {s : Trajectory T L D P E} {c : Checkpoint T L D} {n : ℕ} (hc : IsCheckpoint env t0 points policy c n) (hp : s.polynomials = []) (hpol : s.policy = policy) :
    IsSlice env t0 points policy (readCheckpoint s c) (n / 8) n ∧ (readCheckpoint s c).checkpointer = s.checkpointer := by
  have hl := hc.2
  rw [List.range'_succ, List.map_cons] at hl
  unfold readCheckpoint
  rw [hl]
  simp only [hp, List.take_nil]
  refine ⟨⟨le_rfl, hpol, hc.1, by simp, by simp, ?_, by simp⟩, trivial⟩
  simp only
  rw [List.range'_succ, List.map_cons]

/-! ### Prepending -/

theorem IsSlice.prepend {s p : Trajectory T L D P E} {α n α' m : ℕ} (hs : IsSlice env t0 points policy s α n) (hp : IsSlice env t0 points policy p α' m) (hm : m / 8 = α) (hn : α < n / 8 ∨ n = m) :
    ∃ s', prepend s p = some s' ∧ IsSlice env t0 points policy s' α' n ∧ s'.checkpointer = s.checkpointer := by
  unfold ContinuousTrajectory.prepend
  by_cases hα : α' < m / 8
  · rw [hp.lastPolynomial hα]
    simp only
    by_cases he : s.polynomials = []
    · rw [if_pos he]
      have hnm : n = m := by
        rcases hn with hn | hn
        · have := hs.length
          rw [he] at this
          simp at this; omega
        · exact hn
      subst hnm
      exact ⟨_, rfl, ⟨hp.le, hs.policy_eq, hp.regulator, hp.polynomials, hp.first, hp.last, hp.accessed⟩, rfl⟩
    · rw [if_neg he]
      rw [if_pos (by rw [hs.first, hm])]
      refine ⟨_, rfl, ⟨?_, hs.policy_eq, hs.regulator, ?_, hp.first, hs.last, ?_⟩, rfl⟩
      · have := hs.le; omega
      · simp only
        rw [hp.polynomials, hs.polynomials, ← List.map_append]
        congr 1
        have := hs.le
        symm
        rw [List.range'_eq_append_iff]
        exact ⟨m / 8 - α', by omega, rfl, by congr 1 <;> omega⟩
      · simp only [List.length_append]
        exact hs.accessed.trans (Nat.le_add_left _ _)
  · have hnil : p.polynomials = [] := by
      apply List.eq_nil_of_length_eq_zero
      rw [hp.length]; omega
    rw [hnil]
    simp only [List.getLast?_nil]
    have : α' = α := by have := hp.le; omega
    subst this
    exact ⟨s, rfl, hs, rfl⟩

/-- If the prefix doesn't end where the trajectory starts, a check fails, unless one of them is empty. -/
theorem IsSlice.prepend_some {s p s' : Trajectory T L D P E} {α n α' m : ℕ} (hs : IsSlice env t0 points policy s α n) (hp : IsSlice env t0 points policy p α' m) (h : 0 < env.step)
    (hsome : ContinuousTrajectory.prepend s p = some s') :
    s'.checkpointer = s.checkpointer ∧ (IsSlice env t0 points policy s' α n ∧ m / 8 ≤ α' ∨ α' < m / 8 ∧ n / 8 ≤ α ∧ IsSlice env t0 points policy s' α' m ∨ α' < m / 8 ∧ α < n / 8 ∧ m / 8 = α ∧ IsSlice env t0 points policy s' α' n) := by
  have hmono := timeAt_strictMono (t0 := t0) h
  by_cases hα : α' < m / 8
  · have hsome' := hsome
    unfold ContinuousTrajectory.prepend at hsome
    rw [hp.lastPolynomial hα] at hsome
    simp only at hsome
    by_cases he : s.polynomials = []
    · rw [if_pos he] at hsome
      simp only [Option.some.injEq] at hsome
      subst hsome
      refine ⟨rfl, Or.inr (Or.inl ⟨hα, ?_, ⟨hp.le, hs.policy_eq, hp.regulator, hp.polynomials, hp.first, hp.last, hp.accessed⟩⟩)⟩
      have := hs.length
      rw [he] at this
      simp at this; omega
    · rw [if_neg he] at hsome
      have hn : α < n / 8 := by
        by_contra hlt
        apply he
        apply List.eq_nil_of_length_eq_zero
        rw [hs.length]; omega
      by_cases hf : s.firstTime = some (timeAt env t0 (8 * (m / 8)))
      · have hm : m / 8 = α := by
          rw [hs.first, Option.some.injEq] at hf
          have := hmono.injective hf
          omega
        obtain ⟨s'', h1, h2, h3⟩ := hs.prepend hp hm (Or.inl hn)
        rw [h1] at hsome'
        simp only [Option.some.injEq] at hsome'
        subst hsome'
        exact ⟨h3, Or.inr (Or.inr ⟨hα, hn, hm, h2⟩)⟩
      · rw [if_neg hf] at hsome; cases hsome
  · have hnil : p.polynomials = [] := by
      apply List.eq_nil_of_length_eq_zero
      rw [hp.length]; omega
    unfold ContinuousTrajectory.prepend at hsome
    rw [hnil] at hsome
    simp only [List.getLast?_nil, Option.some.injEq] at hsome
    subst hsome
    exact ⟨rfl, Or.inl ⟨hs, not_lt.1 hα⟩⟩

end Reference

end Principia.ContinuousTrajectory
