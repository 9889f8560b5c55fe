import Verif.Physics.ContinuousTrajectoryProps

/-!
# C67: the checkpoints and the saves of a trajectory
-/

set_option linter.unusedSimpArgs false
set_option linter.unusedVariables false
set_option linter.unusedSectionVars false

namespace Principia.ContinuousTrajectory

open Principia.SortedMap Principia.Checkpointer

variable {T L D P E : Type} [AddCommGroup T] [LinearOrder T] [IsOrderedAddMonoid T] [Field L] [LinearOrder L]

/-- A slice only depends on the points up to its end. -/
theorem IsSlice.congr {env : Env T L D P E} {t0 : T} {points points' : ℕ → D} {policy : E} {s : Trajectory T L D P E} {α n : ℕ} (hs : IsSlice env t0 points policy s α n) (hpt : ∀ i, i ≤ n → points i = points' i) :
    IsSlice env t0 points' policy s α n := by
  have hw : ∀ k, k < n / 8 → window points k = window points' k := by
    intro k hk
    unfold window
    apply List.map_congr_left
    intro i hi
    simp only [List.mem_range'_1] at hi
    exact hpt i (by omega)
  have hreg : ∀ k, k ≤ n / 8 → regulatorAt env t0 points policy k = regulatorAt env t0 points' policy k := by
    intro k hk
    induction k with
    | zero => rfl
    | succ k ih => rw [regulatorAt, regulatorAt, ih (by omega), result, result, hw k (by omega)]
  refine ⟨hs.le, hs.policy_eq, by rw [hs.regulator, hreg _ le_rfl], ?_, hs.first, ?_, hs.accessed⟩
  · rw [hs.polynomials]
    apply List.map_congr_left
    intro k hk
    simp only [List.mem_range'_1] at hk
    unfold polynomialAt result
    rw [hreg k (by omega), hw k (by omega)]
  · rw [hs.last]
    apply List.map_congr_left
    intro i hi
    simp only [List.mem_range'_1] at hi
    rw [hpt i (by omega)]

/-- The calls keep the checkpoints. -/
theorem checkpointer_of_calls {env : Env T L D P E} (h : 0 < env.step) {t0 : T} {points : ℕ → D} {policy : E} : ∀ (l : List (Call T D)) (s s' : Trajectory T L D P E) (n : ℕ),
    IsSlice env t0 points policy s 0 n → calls env s l = some s' → (∀ i p, (appended l)[i]? = some p → p.2 = points (n + 1 + i)) → s'.checkpointer = s.checkpointer
  | [], s, s', n, hs, hc, hp => by
    simp only [calls, Option.some.injEq] at hc
    rw [hc]
  | .evaluate t :: l, s, s', n, hs, hc, hp => by
    simp only [calls, call] at hc
    cases he : evaluate s t with
    | none => rw [he] at hc; simp at hc
    | some r =>
      rw [he] at hc
      simp only [Option.map_some, Option.bind_some] at hc
      obtain ⟨-, -, -, k, -, -, -, -, la, hla, hr⟩ := hs.evaluate_some h he
      rw [hr] at hc
      exact (checkpointer_of_calls h l { s with lastAccessed := la } s' n (hs.withAccessed hla) hc hp)
  | .append t d :: l, s, s', n, hs, hc, hp => by
    simp only [calls, call] at hc
    cases he : append env s t d with
    | none => rw [he] at hc; simp at hc
    | some r =>
      have ht := hs.append_time he
      have hd : d = points (n + 1) := by simpa [appended] using hp 0 (t, d) rfl
      obtain ⟨s1, b, h1, h2, h3⟩ := hs.append
      rw [← ht, ← hd, he] at h1
      rw [he] at hc
      simp only [Option.some.injEq] at h1
      subst h1
      simp only [Option.map_some, Option.bind_some] at hc
      rw [checkpointer_of_calls h l s1 s' (n + 1) h2 hc (fun i p hi => by rw [hp (i + 1) p (by simpa [appended] using hi)]; congr 1; omega), h3]

/-- The polynomials of a slice that end at or before a time. -/
theorem IsSlice.takeWhile {env : Env T L D P E} (h : 0 < env.step) {t0 : T} {points : ℕ → D} {policy : E} {s : Trajectory T L D P E} {α n : ℕ} (hs : IsSlice env t0 points policy s α n) {β : ℕ} (hα : α ≤ β) (hβ : β ≤ n / 8)
    {t : T} (ht : timeAt env t0 (8 * β) ≤ t) (ht' : t < timeAt env t0 (8 * (β + 1))) :
    s.polynomials.takeWhile (fun p => decide (p.1 ≤ t)) = (List.range' α (β - α)).map fun k => (timeAt env t0 (8 * (k + 1)), polynomialAt env t0 points policy k) := by
  have hm := timeAt_strictMono (t0 := t0) h
  have key : ∀ (m : ℕ) (c : ℕ), c + m ≥ β → c ≤ β →
      ((List.range' c m).map fun k => (timeAt env t0 (8 * (k + 1)), polynomialAt env t0 points policy k)).takeWhile (fun p => decide (p.1 ≤ t)) =
        (List.range' c (β - c)).map fun k => (timeAt env t0 (8 * (k + 1)), polynomialAt env t0 points policy k) := by
    intro m
    induction m with
    | zero =>
      intro c hc hc'
      rw [show β - c = 0 by omega]; simp
    | succ m ih =>
      intro c hc hc'
      rw [List.range'_succ, List.map_cons, List.takeWhile_cons]
      by_cases hlt : c < β
      · have : timeAt env t0 (8 * (c + 1)) ≤ t := (hm.monotone (by omega)).trans ht
        simp only [this, decide_true, if_true]
        rw [ih (c + 1) (by omega) (by omega), show β - c = (β - (c + 1)) + 1 by omega, List.range'_succ, List.map_cons]
      · have hcb : c = β := by omega
        subst hcb
        have : ¬ timeAt env t0 (8 * (c + 1)) ≤ t := not_le.2 ht'
        simp [this]
  rw [hs.polynomials]
  exact key _ _ (by omega) hα

/-- Reading a checkpoint into a trajectory which has the polynomials that precede the checkpoint. -/
theorem IsCheckpoint.read_slice {env : Env T L D P E} (h : 0 < env.step) {t0 : T} {points : ℕ → D} {policy : E} {s : Trajectory T L D P E} {c : Checkpoint T L D} {n : ℕ} (hc : IsCheckpoint env t0 points policy c n) {α β : ℕ}
    (hα : α ≤ n / 8) (hβ : n / 8 ≤ β) (hp : s.polynomials = (List.range' α (β - α)).map fun k => (timeAt env t0 (8 * (k + 1)), polynomialAt env t0 points policy k)) (hpol : s.policy = policy) (hf : s.firstTime = some (timeAt env t0 (8 * α))) :
    IsSlice env t0 points policy (readCheckpoint s c) α n ∧ (readCheckpoint s c).checkpointer = s.checkpointer ∧ (readCheckpoint s c).lastAccessed = 0 := by
  have hm := timeAt_strictMono (t0 := t0) h
  have hl := hc.2
  rw [List.range'_succ, List.map_cons] at hl
  have htake : s.polynomials.take (upperBound s.polynomials (timeAt env t0 (8 * (n / 8)))) = (List.range' α (n / 8 - α)).map fun k => (timeAt env t0 (8 * (k + 1)), polynomialAt env t0 points policy k) := by
    unfold upperBound
    rw [take_takeWhile]
    have hs : IsSlice env t0 points policy ({ s with regulator := regulatorAt env t0 points policy (8 * β / 8), lastPoints := (List.range' (8 * (8 * β / 8)) (8 * β % 8 + 1)).map (fun i => (timeAt env t0 i, points i)), lastAccessed := 0 }) α (8 * β) :=
      ⟨by omega, hpol, rfl, by simp only; rw [hp]; congr 2; omega, hf, rfl, by simp⟩
    exact hs.takeWhile h hα (by omega) le_rfl (hm (by omega))
  unfold readCheckpoint
  rw [hl]
  simp only [htake]
  refine ⟨⟨hα, hpol, hc.1, rfl, ?_, ?_, by simp⟩, trivial, trivial⟩
  · simp only
    by_cases he : n / 8 = α
    · rw [he]; simp
    · rw [if_neg, hf]
      intro h0
      have := congrArg List.length h0
      simp at this
      omega
  · simp only
    rw [List.range'_succ, List.map_cons]

theorem IsSlice.ext {env : Env T L D P E} {t0 : T} {points : ℕ → D} {policy : E} {s s' : Trajectory T L D P E} {α n : ℕ} (hs : IsSlice env t0 points policy s α n) (hs' : IsSlice env t0 points policy s' α n) :
    s' = { s with lastAccessed := s'.lastAccessed, checkpointer := s'.checkpointer } := by
  obtain ⟨c, r, p, e, la, f, l⟩ := s
  obtain ⟨c', r', p', e', la', f', l'⟩ := s'
  have h1 := hs.regulator.trans hs'.regulator.symm
  have h2 := hs.polynomials.trans hs'.polynomials.symm
  have h3 := hs.policy_eq.trans hs'.policy_eq.symm
  have h4 := hs.first.trans hs'.first.symm
  have h5 := hs.last.trans hs'.last.symm
  simp only at h1 h2 h3 h4 h5
  subst h1 h2 h3 h4 h5
  rfl

/-- What is known of a trajectory to which points are appended after a checkpoint. -/
theorem of_calls₂ {env : Env T L D P E} (h : 0 < env.step) {l l' : List (Call T D)} {s s' : Trajectory T L D P E} {cp : List (T × Checkpoint T L D)} (hc : calls env (create env) l = some s)
    (hc' : calls env { s with checkpointer := cp } l' = some s') (hne : appended l ≠ []) :
    ∃ t0 points n n', n ≤ n' ∧ (∀ p, (appended l).getLast? = some p → p.1 = timeAt env t0 n) ∧ IsSlice env t0 points env.defaultPolicy s 0 n ∧ IsSlice env t0 points env.defaultPolicy s' 0 n' ∧ s'.checkpointer = cp := by
  rcases of_calls h hc with ⟨h1, h2⟩ | ⟨t0, points, n, h1, h2, h3⟩
  · exact absurd h1 hne
  set points' : ℕ → D := fun i => if i ≤ n then points i else (((appended l')[i - (n + 1)]?).map Prod.snd).getD (points 0) with hpts
  have h4 : IsSlice env t0 points' env.defaultPolicy s 0 n := h3.congr fun i hi => by simp [hpts, hi]
  have h5 : IsSlice env t0 points' env.defaultPolicy { s with checkpointer := cp } 0 n := ⟨h4.le, h4.policy_eq, h4.regulator, h4.polynomials, h4.first, h4.last, h4.accessed⟩
  have h6 : ∀ i p, (appended l')[i]? = some p → p.2 = points' (n + 1 + i) := by
    intro i p hi
    have e1 : ¬ n + 1 + i ≤ n := by omega
    have e2 : n + 1 + i - (n + 1) = i := by omega
    simp only [hpts, if_neg e1, e2, hi, Option.map_some, Option.getD_some]
  refine ⟨t0, points', n, n + (appended l').length, by omega, ?_, h4, (slice_of_calls h l' _ s' n h5 hc' h6).1, checkpointer_of_calls h l' _ s' n h5 hc' h6⟩
  intro p hp
  rw [List.getLast?_eq_getElem?, h1, show n + 1 - 1 = n by omega, h2 n le_rfl] at hp
  rw [← Option.some.inj hp]

section

variable [IsStrictOrderedRing L]

/-- Reading a checkpoint restores the trajectory as it was when the checkpoint was taken, whatever was done afterwards: all the polynomials that it had, the last points, and what determines the degree of the next polynomial. -/
theorem C67_checkpoint {env : Env T L D P E} (hs : env.Sane) {l l' : List (Call T D)} {s s' : Trajectory T L D P E} {cp : List (T × Checkpoint T L D)} (hc : calls env (create env) l = some s)
    (hc' : calls env { s with checkpointer := cp } l' = some s') : readCheckpoint s' (checkpoint s) = { s with lastAccessed := 0, checkpointer := s'.checkpointer } := by
  have h := hs.step_pos
  by_cases hne : appended l = []
  · rcases of_calls h hc with ⟨h1, h2⟩ | ⟨t0, points, n, h1, h2, h3⟩
    · subst h2
      have hpol : s'.policy = env.defaultPolicy := by
        have key : ∀ (l : List (Call T D)) (r r' : Trajectory T L D P E), calls env r l = some r' → r'.policy = r.policy := by
          intro l
          induction l with
          | nil => intro r r' hr; simp only [calls, Option.some.injEq] at hr; rw [hr]
          | cons c l ih =>
            intro r r' hr
            simp only [calls] at hr
            cases hk : call env r c with
            | none => rw [hk] at hr; cases hr
            | some r1 =>
              rw [hk] at hr
              rw [ih r1 r' hr]
              cases c with
              | append t d =>
                simp only [call, append] at hk
                have hchecked : ∀ (r : Trajectory T L D P E) (x : Trajectory T L D P E × Bool), appendChecked env r t d = some x → x.1.policy = r.policy := by
                  intro r x hx
                  unfold appendChecked at hx
                  cases hlp : r.lastPoints with
                  | nil => rw [hlp] at hx; simp only [Option.some.injEq] at hx; rw [← hx]
                  | cons a b =>
                    rw [hlp] at hx
                    simp only at hx
                    by_cases g1 : (a :: b).length > divisions
                    · rw [if_pos g1] at hx; cases hx
                    · rw [if_neg g1] at hx
                      by_cases g2 : (a :: b).length = divisions
                      · rw [if_pos g2] at hx; simp only [Option.some.injEq] at hx; rw [← hx]
                      · rw [if_neg g2] at hx; simp only [Option.some.injEq] at hx; rw [← hx]
                cases hft : r.firstTime with
                | none =>
                  rw [hft] at hk
                  simp only [Option.map_eq_some_iff] at hk
                  obtain ⟨x, hx, hx'⟩ := hk
                  rw [← hx', hchecked _ _ hx]
                | some f =>
                  rw [hft] at hk
                  simp only at hk
                  cases hgl : r.lastPoints.getLast? with
                  | none => rw [hgl] at hk; cases hk
                  | some last =>
                    rw [hgl] at hk
                    simp only at hk
                    by_cases g : last.1 + env.step = t
                    · rw [if_pos g] at hk
                      simp only [Option.map_eq_some_iff] at hk
                      obtain ⟨x, hx, hx'⟩ := hk
                      rw [← hx', hchecked _ _ hx]
                    · rw [if_neg g] at hk; cases hk
              | evaluate t =>
                simp only [call, Option.map_eq_some_iff] at hk
                obtain ⟨x, hx, hx'⟩ := hk
                rw [← hx']
                unfold ContinuousTrajectory.evaluate at hx
                cases h1 : tMin r with
                | none => rw [h1] at hx; cases hx
                | some a =>
                  cases h2 : tMax r with
                  | none => rw [h1, h2] at hx; cases hx
                  | some b =>
                    rw [h1, h2] at hx
                    simp only at hx
                    by_cases g : a ≤ t ∧ b ≥ t
                    · rw [if_pos g] at hx
                      unfold findPolynomialForInstant at hx
                      by_cases g1 : r.lastAccessed > r.polynomials.length
                      · rw [if_pos g1] at hx; cases hx
                      · rw [if_neg g1] at hx
                        by_cases g2 : isLastAccessed r t = true
                        · rw [if_pos g2] at hx
                          simp only [Option.map_eq_some_iff] at hx
                          obtain ⟨y, -, hy⟩ := hx
                          rw [← hy]
                        · rw [if_neg g2] at hx
                          simp only [Option.map_eq_some_iff] at hx
                          obtain ⟨y, -, hy⟩ := hx
                          rw [← hy]
                    · rw [if_neg g] at hx; cases hx
        exact key l' _ s' hc'
      unfold readCheckpoint checkpoint
      simp only [create]
      rw [hpol]
    · rw [hne] at h1; simp at h1
  · obtain ⟨t0, points, n, n', hle, -, h1, h2, h3⟩ := of_calls₂ h hc hc' hne
    have hdiv : n / 8 ≤ n' / 8 := Nat.div_le_div_right hle
    obtain ⟨h4, h5, h6⟩ := h1.isCheckpoint.read_slice h (Nat.zero_le _) hdiv h2.polynomials h2.policy_eq h2.first
    have := h1.ext h4
    rw [h5, h6] at this
    exact this

/-- Loading a save of a trajectory that has one checkpoint, taken after its points up to time `t` were appended.  If the desired time is at or after the checkpoint, the trajectory is restored as it was when the checkpoint was
taken.  If the desired time is before the checkpoint, loading succeeds if and only if the trajectory covered the desired time when the checkpoint was taken, and it has all the polynomials that it had then. -/
theorem C67_save {env : Env T L D P E} (hs : env.Sane) {l l' : List (Call T D)} {s s₁ s' : Trajectory T L D P E} {t : T} {d₀ : D} (hc : calls env (create env) l = some s) (ht : (appended l).getLast? = some (t, d₀))
    (hw : writeToCheckpoint s t = some s₁) (hc' : calls env s₁ l' = some s') :
    ∃ m, writeToMessage s' = some m ∧ ∀ d,
      (t ≤ d → readFromMessage env d m = some { s with lastAccessed := 0, checkpointer := s'.checkpointer }) ∧
      (d < t → ((readFromMessage env d m).isSome ↔ ∃ a, tMin s = some a ∧ a ≤ d) ∧ ∀ r, readFromMessage env d m = some r → r.polynomials = s.polynomials ∧ r.firstTime = s.firstTime) := by
  have h := hs.step_pos
  have hm := fun t0 => timeAt_strictMono (env := env) (t0 := t0) h
  have hne : appended l ≠ [] := by intro h0; rw [h0] at ht; simp at ht
  have hcp : s.checkpointer = [] := by
    cases l with
    | nil => simp [appended] at hne
    | cons c l =>
      cases c with
      | evaluate t => simp [calls, call, evaluate, tMin, create] at hc
      | append t1 d1 =>
        set points : ℕ → D := fun i => (((appended (Call.append t1 d1 :: l))[i]?).map Prod.snd).getD d1 with hpoints
        have hp0 : points 0 = d1 := by simp [hpoints, appended]
        obtain ⟨s0, h0, h1, h2⟩ := slice_create (env := env) (t0 := t1) (points := points) rfl
        rw [hp0] at h0
        simp only [calls, call, h0, Option.map_some, Option.bind_some] at hc
        rw [checkpointer_of_calls h l s0 s 0 h1 hc fun i p hi => by
          have : 0 + 1 + i = i + 1 := by omega
          simp [hpoints, appended, this, hi], h2]
  have hw' : s₁ = { s with checkpointer := [(t, checkpoint s)] } := by
    unfold writeToCheckpoint at hw
    rw [hcp] at hw
    simp only [Checkpointer.write, contains, emplace, find, List.find?_nil, Option.map_eq_some_iff] at hw
    obtain ⟨c, hc1, hc2⟩ := hw
    rw [← hc2]
    congr 1
    simpa using hc1.symm
  rw [hw'] at hc'
  obtain ⟨t0, points, n, n', hle, hlast, h1, h2, h3⟩ := of_calls₂ h hc hc' hne
  have htn : t = timeAt env t0 n := hlast _ ht
  have hdiv : n / 8 ≤ n' / 8 := Nat.div_le_div_right hle
  have hpolys : s'.polynomials.takeWhile (fun p => decide (p.1 ≤ t)) = s.polynomials := by
    rw [h1.polynomials]
    exact h2.takeWhile h (Nat.zero_le _) hdiv (by rw [htn]; exact (hm t0).monotone (by omega)) (by rw [htn]; exact hm t0 (by omega))
  have hpolicy : (if env.canUseHardwareFMA then env.defaultPolicy else env.alwaysEstrinWithoutFMA) = env.defaultPolicy := by
    unfold Env.defaultPolicy
    cases env.canUseHardwareFMA <;> rfl
  refine ⟨⟨[(t, checkpoint s)], env.defaultPolicy, s.polynomials, s.firstTime⟩, ?_, ?_⟩
  · unfold ContinuousTrajectory.writeToMessage
    rw [h3]
    simp only [Checkpointer.oldest, List.head?_cons, Option.map_some, Checkpointer.writeToMessage, List.map_cons, List.map_nil]
    rw [hpolys, h2.policy_eq, h2.first, h1.first]
  · intro d
    have hrd : Checkpointer.readFromMessage (none : Option (Checkpoint T L D → Checkpoint T L D)) [(t, checkpoint s)] = [(t, checkpoint s)] := by
      simp [Checkpointer.readFromMessage, emplace, contains, lowerBound]
    unfold ContinuousTrajectory.readFromMessage
    simp only [hrd, Checkpointer.readAtOrBefore, upperBound, hpolicy]
    constructor
    · intro htd
      obtain ⟨h4, h5, h6⟩ := h1.isCheckpoint.read_slice (s := { create env with polynomials := s.polynomials, policy := env.defaultPolicy, firstTime := s.firstTime, checkpointer := [(t, checkpoint s)] }) h (Nat.zero_le _) le_rfl h1.polynomials rfl h1.first
      have := h1.ext h4
      rw [h5, h6] at this
      simp [htd]
      rw [h3]
      exact this
    · intro hdt
      have hnot : ¬ t ≤ d := not_le.2 hdt
      have htm : tMin ({ create env with polynomials := s.polynomials, policy := env.defaultPolicy, firstTime := s.firstTime, checkpointer := [(t, checkpoint s)] } : Trajectory T L D P E) = tMin s := rfl
      simp [hnot]
      rw [htm]
      cases hts : tMin s with
      | none => simp
      | some a =>
        simp only
        by_cases hle : a ≤ d
        · rw [if_pos hle]; simp [hle]
        · rw [if_neg hle]; simp [hle]

/-- The hypotheses of `C67_checkpoint` and `C67_save` are met by a trajectory that has two polynomials when the checkpoint is taken, and more afterwards. -/
example : (do
      let s ← calls Example.env (create Example.env) ((List.range 17).map fun i : ℕ => .append (10 * (i : ℤ)) i)
      let s₁ ← writeToCheckpoint s 160
      let s' ← calls Example.env s₁ ((List.range' 17 10).map fun i : ℕ => .append (10 * (i : ℤ)) i)
      pure (s.polynomials.length, s'.polynomials.length)) = some (2, 3) := by decide +kernel

end

end Principia.ContinuousTrajectory
