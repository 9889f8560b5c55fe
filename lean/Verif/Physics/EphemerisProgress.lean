import Verif.Physics.EphemerisSafety

/-!
# The calls to an ephemeris succeed, and the reanimation reaches its target
-/

set_option linter.unusedSimpArgs false
set_option linter.unusedVariables false
set_option linter.unusedSectionVars false

namespace Principia.Ephemeris

open Principia.SortedMap Principia.ContinuousTrajectory Principia.Checkpointer

variable {T L D P E I : Type} [AddCommGroup T] [LinearOrder T] [IsOrderedAddMonoid T] [Field L] [LinearOrder L]
variable {env : Env T L D P E I} {i0 : I} {d0 : D}

/-! ### The fuel -/

theorem solve_mono {σ : Type} {integrator : Integrator T D I} {append : I → σ → Option σ} {tFinal : T} :
    ∀ (fuel fuel' : ℕ) (stop : Stop) (i : I) (s : σ) {r}, solve integrator append tFinal fuel stop i s = .ok r → fuel ≤ fuel' → solve integrator append tFinal fuel' stop i s = .ok r
  | 0, _, _, _, _, _, h, _ => by simp [solve] at h
  | fuel + 1, 0, _, _, _, _, _, hf => by omega
  | fuel + 1, fuel' + 1, stop, i, s, r, h, hf => by
    have hf' : fuel ≤ fuel' := by omega
    rw [solve.eq_def] at h ⊢
    simp only at h ⊢
    by_cases hdt : integrator.dt i ≤ tFinal - integrator.time i
    · rw [if_pos hdt] at h ⊢
      cases ha : (if integrator.appends (integrator.advance i) = true then append (integrator.advance i) s else some s) with
      | none => rw [ha] at h; simp at h
      | some s1 =>
        rw [ha] at h
        simp only at h ⊢
        cases hp : stop.poll with
        | mk b stop1 =>
          rw [hp] at h
          cases b with
          | false => exact solve_mono fuel fuel' _ _ _ h hf'
          | true =>
            simp only at h ⊢
            by_cases hst : integrator.started i = true
            · rw [if_pos hst] at h ⊢; exact h
            · rw [if_neg hst] at h ⊢
              by_cases hst' : integrator.started (integrator.advance i) = true
              · rw [if_pos hst'] at h ⊢; exact solve_mono fuel fuel' _ _ _ h hf'
              · rw [if_neg hst'] at h ⊢; exact h
    · rw [if_neg hdt] at h ⊢; exact h

theorem prolongLoop_mono {desired : T} {fuel fuel' : ℕ} (hf : fuel ≤ fuel') :
    ∀ (n n' : ℕ) (tFinal : T) (stop : Stop) (s : State T L D P E I) {r}, prolongLoop env fuel desired n tFinal stop s = .ok r → n ≤ n' → prolongLoop env fuel' desired n' tFinal stop s = .ok r
  | 0, _, _, _, _, _, h, _ => by simp [prolongLoop] at h
  | n + 1, 0, _, _, _, _, _, hn => by omega
  | n + 1, n' + 1, tFinal, stop, s, r, h, hn => by
    rw [prolongLoop] at h ⊢
    by_cases hb : beforeBot (tMax s) desired = true
    · rw [if_pos hb] at h ⊢
      cases hs : solve env.integrator (appendState env) tFinal fuel stop s.inst s with
      | error e => rw [hs] at h; simp at h
      | ok q =>
        obtain ⟨i1, s1, ok1, stop1⟩ := q
        rw [hs] at h
        rw [solve_mono _ _ _ _ _ hs hf]
        simp only at h ⊢
        cases hp : stop1.poll with
        | mk b stop2 =>
          rw [hp] at h
          cases b with
          | false => exact prolongLoop_mono hf n n' _ _ _ h (by omega)
          | true => exact h
    · rw [if_neg hb] at h ⊢; exact h

theorem step_mono {s s' : System T L D P E I} {e : Event T} {fuel fuel' : ℕ} (h : step env fuel s e = .ok s') (hf : fuel ≤ fuel') : step env fuel' s e = .ok s' := by
  cases e with
  | prolong t maxSteps stop =>
    unfold step at h ⊢
    simp only at h ⊢
    cases hp : prolong env fuel t maxSteps stop s.ephemeris with
    | error e => rw [hp] at h; simp at h
    | ok r =>
      rw [hp] at h
      have : prolong env fuel' t maxSteps stop s.ephemeris = .ok r := by
        unfold prolong at hp ⊢
        exact prolongLoop_mono hf _ _ _ _ _ hp hf
      rw [this]
      exact h
  | compute stop =>
    unfold step at h ⊢
    simp only at h ⊢
    cases hp : s.pending with
    | nil => rw [hp] at h; exact h
    | cons q l =>
      obtain ⟨tI, tF⟩ := q
      cases hc : s.computed with
      | some c => rw [hp, hc] at h; exact h
      | none =>
        rw [hp, hc] at h
        simp only at h ⊢
        cases hcs : computeSegment env fuel stop s.ephemeris tI tF with
        | error e => rw [hcs] at h; simp at h
        | ok r =>
          have : computeSegment env fuel' stop s.ephemeris tI tF = .ok r := by
            unfold computeSegment at hcs ⊢
            cases h1 : Checkpointer.readAt s.ephemeris.checkpoints tI with
            | none => rw [h1] at hcs; exact hcs
            | some i =>
              rw [h1] at hcs
              simp only at hcs ⊢
              cases h2 : forAll (fun x => readFromCheckpointAt x tI (ContinuousTrajectory.create env.trajectory)) s.ephemeris.trajectories with
              | none => rw [h2] at hcs; exact hcs
              | some l0 =>
                rw [h2] at hcs
                simp only at hcs ⊢
                cases h3 : solve env.integrator (appendToTrajectories env) tF fuel stop i l0 with
                | error e => rw [h3] at hcs; simp at hcs
                | ok r3 =>
                  rw [h3] at hcs
                  rw [solve_mono _ _ _ _ _ h3 hf]
                  exact hcs
          rw [hcs] at h
          rw [this]
          exact h
  | evaluate b t => exact h
  | save => exact h
  | load d => exact h
  | reanimate d => exact h
  | stitch => exact h

/-! ### The integration -/

theorem solve_total {σ : Type} {append : I → σ → Option σ} (hl : Lawful env i0) (Q : ℕ → σ → Prop)
    (hQ : ∀ k s, Q k s → ∃ s', (if env.integrator.appends (orbit env i0 (k + 1)) = true then append (orbit env i0 (k + 1)) s else some s) = some s' ∧ Q (k + 1) s') {tFinal : T} {K : ℕ}
    (hK : tFinal < env.integrator.time (orbit env i0 K)) :
    ∀ (fuel : ℕ) (stop : Stop) (k : ℕ) (s : σ), Q k s → K < k + fuel → 0 < fuel →
      ∃ k' s' ok stop', solve env.integrator append tFinal fuel stop (orbit env i0 k) s = .ok (orbit env i0 k', s', ok, stop') ∧ k ≤ k' ∧ Q k' s' ∧ (k' = k ∨ env.integrator.time (orbit env i0 k') ≤ tFinal) ∧
        (ok = true → tFinal < env.integrator.time (orbit env i0 (k' + 1)) ∨ ∃ m, stop = some m ∧ env.integrator.started (orbit env i0 (k + m + 1)) = false) ∧
        (stop'.poll.1 = false → tFinal < env.integrator.time (orbit env i0 (k' + 1))) ∧ (stop = none → stop' = none ∧ ok = true)
  | 0, _, _, _, _, _, hf => by omega
  | fuel + 1, stop, k, s, hk, hf, _ => by
    rw [solve.eq_def]
    simp only [orbit_succ]
    by_cases hdt : env.integrator.dt (orbit env i0 k) ≤ tFinal - env.integrator.time (orbit env i0 k)
    · rw [if_pos hdt]
      obtain ⟨s1, ha, h1⟩ := hQ k s hk
      rw [ha]
      simp only
      have hle : env.integrator.time (orbit env i0 (k + 1)) ≤ tFinal := by
        rw [hl.time_succ, add_comm]
        exact le_sub_iff_add_le.1 hdt
      have hkK : k + 1 < K := hl.mono.lt_iff_lt.1 (lt_of_le_of_lt hle hK)
      cases hp : stop.poll with
      | mk b stop1 =>
        cases b with
        | false =>
          simp only
          obtain ⟨k', s', ok, stop', e1, e2, e3, e4, e5, e6, e7⟩ := solve_total hl Q hQ hK fuel stop1 (k + 1) s1 h1 (by omega) (by omega)
          refine ⟨k', s', ok, stop', e1, by omega, e3, Or.inr ?_, ?_, e6, ?_⟩
          · rcases e4 with rfl | e4
            · exact hle
            · exact e4
          · intro hok
            rcases e5 hok with h2 | ⟨m, hm, h2⟩
            · exact Or.inl h2
            · refine Or.inr ⟨m + 1, ?_, by rw [← h2]; congr 2; omega⟩
              rw [hm] at hp
              cases stop with
              | none => simp [Stop.poll] at hp
              | some n =>
                cases n with
                | zero => simp [Stop.poll] at hp
                | succ n => simp [Stop.poll] at hp; rw [hp]
          · intro hst
            apply e7
            rw [hst] at hp
            simp [Stop.poll] at hp
            exact hp.symm
        | true =>
          have hstop : stop = some 0 ∧ stop1 = some 0 := by
            cases stop with
            | none => simp [Stop.poll] at hp
            | some n =>
              cases n with
              | zero => simp [Stop.poll] at hp; exact ⟨rfl, hp.symm⟩
              | succ n => simp [Stop.poll] at hp
          obtain ⟨rfl, rfl⟩ := hstop
          simp only
          by_cases hst : env.integrator.started (orbit env i0 k) = true
          · rw [if_pos hst]
            exact ⟨k + 1, s1, false, some 0, rfl, by omega, h1, Or.inr hle, fun h => by simp at h, fun h => by simp [Stop.poll] at h, fun h => by simp at h⟩
          · rw [if_neg hst]
            by_cases hst' : env.integrator.started (orbit env i0 (k + 1)) = true
            · rw [if_pos hst']
              obtain ⟨k', s', ok, stop', e1, e2, e3, e4, e5, e6, e7⟩ := solve_total hl Q hQ hK fuel (some 0) (k + 1) s1 h1 (by omega) (by omega)
              refine ⟨k', s', ok, stop', e1, by omega, e3, Or.inr ?_, ?_, e6, fun h => by simp at h⟩
              · rcases e4 with rfl | e4
                · exact hle
                · exact e4
              · intro hok
                rcases e5 hok with h2 | ⟨m, hm, h2⟩
                · exact Or.inl h2
                · simp at hm
                  subst hm
                  have := hl.started_succ _ hst'
                  rw [show k + 1 + 0 + 1 = k + 1 + 1 by omega, this] at h2
                  simp at h2
            · rw [if_neg hst']
              exact ⟨k + 1, s1, true, some 0, rfl, by omega, h1, Or.inr hle, fun _ => Or.inr ⟨0, rfl, by simpa using hst'⟩, fun h => by simp [Stop.poll] at h, fun h => by simp at h⟩
    · rw [if_neg hdt]
      have hend : tFinal < env.integrator.time (orbit env i0 (k + 1)) := by
        rw [hl.time_succ, add_comm]
        exact sub_lt_iff_lt_add.1 (not_le.1 hdt)
      exact ⟨k, s, true, stop, rfl, le_rfl, hk, Or.inl rfl, fun _ => Or.inl hend, fun _ => hend, fun h => ⟨h, rfl⟩⟩

/-! ### The bounds -/

theorem foldl_maxTop {f : Trajectory T L D P E → Option T} {a : Option T} : ∀ {l : List (Trajectory T L D P E)}, (∀ x ∈ l, f x = a) → l.foldl (fun t y => maxTop t (f y)) a = a
  | [], _ => rfl
  | x :: l, h => by
    rw [List.foldl_cons, h x (by simp)]
    have : maxTop a a = a := by cases a <;> simp [maxTop]
    rw [this]
    exact foldl_maxTop fun y hy => h y (by simp [hy])

theorem foldl_minBot {f : Trajectory T L D P E → Option T} {a : Option T} : ∀ {l : List (Trajectory T L D P E)}, (∀ x ∈ l, f x = a) → l.foldl (fun t y => minBot t (f y)) a = a
  | [], _ => rfl
  | x :: l, h => by
    rw [List.foldl_cons, h x (by simp)]
    have : minBot a a = a := by cases a <;> simp [minBot]
    rw [this]
    exact foldl_minBot fun y hy => h y (by simp [hy])

theorem Eph.tMin {s : State T L D P E I} {α n k : ℕ} {cs : List (T × ℕ × ℕ)} (hl : Lawful env i0) (h : Eph env i0 d0 s α n k cs) : Ephemeris.tMin s = if α < n / 8 then some (at' env i0 (8 * α)) else none := by
  have hall : ∀ x ∈ s.trajectories, ContinuousTrajectory.tMin x = if α < n / 8 then some (at' env i0 (8 * α)) else none := by
    intro x hx
    obtain ⟨b, hb⟩ := List.mem_iff_getElem?.1 hx
    exact (h.trajs.slice b x hb).tMin
  have hlen := h.trajs.length
  unfold Ephemeris.tMin
  cases hs : s.trajectories with
  | nil =>
    rw [hs] at hlen
    exact absurd (List.length_eq_zero_iff.1 hlen.symm) hl.state_ne
  | cons x l =>
    rw [hs] at hall
    simp only
    rw [hall x (by simp)]
    exact foldl_maxTop hall

theorem Eph.tMax {s : State T L D P E I} {α n k : ℕ} {cs : List (T × ℕ × ℕ)} (hl : Lawful env i0) (h : Eph env i0 d0 s α n k cs) : Ephemeris.tMax s = if α < n / 8 then some (at' env i0 (8 * (n / 8))) else none := by
  have hall : ∀ x ∈ s.trajectories, ContinuousTrajectory.tMax x = if α < n / 8 then some (at' env i0 (8 * (n / 8))) else none := by
    intro x hx
    obtain ⟨b, hb⟩ := List.mem_iff_getElem?.1 hx
    exact (h.trajs.slice b x hb).tMax
  have hlen := h.trajs.length
  unfold Ephemeris.tMax
  cases hs : s.trajectories with
  | nil =>
    rw [hs] at hlen
    exact absurd (List.length_eq_zero_iff.1 hlen.symm) hl.state_ne
  | cons x l =>
    rw [hs] at hall
    simp only
    rw [hall x (by simp)]
    exact foldl_minBot hall

theorem Lawful.at_unbounded (hl : Lawful env i0) (t : T) : ∃ n, t < at' env i0 n := by
  obtain ⟨k, hk⟩ := hl.unbounded t
  exact ⟨_, hk.trans (hl.time_lt k)⟩

/-! ### The prolongation -/

/-- The ephemeris while the integrator is at the instance of index `k`. -/
structure Core (env : Env T L D P E I) (i0 : I) (d0 : D) (s : State T L D P E I) (α n k k₀ : ℕ) (cs : List (T × ℕ × ℕ)) : Prop where
  eph : Eph env i0 d0 s α n k₀ cs
  n_eq : n = count env i0 k
  entries : ∀ c ∈ cs, c.1 = env.integrator.time (orbit env i0 c.2.1) ∧ c.2.2 = count env i0 c.2.1
  gaps : cs.Pairwise fun c c' => c.1 + env.maxTimeBetweenCheckpoints < c'.1
  empty : cs = [] → n = 0

/-- A state is appended if necessary. -/
theorem Core.step {s : State T L D P E I} {α n k k₀ : ℕ} {cs : List (T × ℕ × ℕ)} (hl : Lawful env i0) (h : Core env i0 d0 s α n k k₀ cs) :
    ∃ s', (if env.integrator.appends (orbit env i0 (k + 1)) = true then appendState env (orbit env i0 (k + 1)) s else some s) = some s' ∧ s'.oldestReanimated = s.oldestReanimated ∧
      ∃ n' k₀' ext, Core env i0 d0 s' α n' (k + 1) k₀' (cs ++ ext) := by
  by_cases ha : env.integrator.appends (orbit env i0 (k + 1)) = true
  · rw [if_pos ha]
    have hc : count env i0 (k + 1) = n + 1 := by rw [count_succ ha, h.n_eq]
    obtain ⟨s', hs⟩ := h.eph.appendState_some hl h.empty ha hc
    obtain ⟨-, cs', e1, e2, e3, e4⟩ := h.eph.appendState hl h.empty ha hs
    refine ⟨s', hs, e3, n + 1, k + 1, ?_⟩
    rcases e4 with rfl | ⟨rfl, e4⟩
    · exact ⟨[], by simpa using e1, hc.symm, by simpa using h.entries, by simpa using h.gaps, fun he => absurd (by simpa using he) e2⟩
    · refine ⟨_, e1, hc.symm, ?_, ?_, fun he => absurd he e2⟩
      · intro c hcm
        rcases List.mem_append.1 hcm with h1 | h1
        · exact h.entries c h1
        · simp at h1
          subst h1
          exact ⟨rfl, hc.symm⟩
      · rw [List.pairwise_append]
        refine ⟨h.gaps, List.pairwise_singleton _ _, ?_⟩
        intro c hcm c' hc'
        simp at hc'
        subst hc'
        exact e4 c hcm
  · rw [if_neg ha]
    exact ⟨s, rfl, rfl, n, k₀, [], by simpa using h.eph, by rw [h.n_eq, count_succ' ha], by simpa using h.entries, by simpa using h.gaps, fun he => h.empty (by simpa using he)⟩

/-- The states of an ephemeris during a prolongation. -/
def During (env : Env T L D P E I) (i0 : I) (d0 : D) (α : ℕ) (cs : List (T × ℕ × ℕ)) (r : Option T) (k : ℕ) (s : State T L D P E I) : Prop :=
  s.oldestReanimated = r ∧ ∃ n k₀ ext, Core env i0 d0 s α n k k₀ (cs ++ ext)

theorem During.step {α k : ℕ} {cs : List (T × ℕ × ℕ)} {r : Option T} {s : State T L D P E I} (hl : Lawful env i0) (h : During env i0 d0 α cs r k s) :
    ∃ s', (if env.integrator.appends (orbit env i0 (k + 1)) = true then appendState env (orbit env i0 (k + 1)) s else some s) = some s' ∧ During env i0 d0 α cs r (k + 1) s' := by
  obtain ⟨hr, n, k₀, ext, hc⟩ := h
  obtain ⟨s', e1, e2, n', k₀', ext', e3⟩ := hc.step hl
  exact ⟨s', e1, by rw [e2, hr], n', k₀', ext ++ ext', by rw [← List.append_assoc]; exact e3⟩

theorem Core.withInst {s : State T L D P E I} {α n k k₀ : ℕ} {cs : List (T × ℕ × ℕ)} (h : Core env i0 d0 s α n k k₀ cs) (k' : ℕ) : Core env i0 d0 { s with inst := orbit env i0 k' } α n k k' cs :=
  ⟨h.eph.withInst k', h.n_eq, h.entries, h.gaps, h.empty⟩

theorem prolongLoop_total (hl : Lawful env i0) {α : ℕ} {cs : List (T × ℕ × ℕ)} {r : Option T} {desired B : T} {M K fuel : ℕ} (hM : α < M) (hdM : desired ≤ at' env i0 (8 * M)) (hB : at' env i0 (8 * M + 1) ≤ B)
    (hK : B < env.integrator.time (orbit env i0 K)) (hf : K < fuel) :
    ∀ (n : ℕ) (tFinal : T) (stop : Stop) (k : ℕ) (s : State T L D P E I), s.inst = orbit env i0 k → During env i0 d0 α cs r k s →
      (∃ j : ℕ, tFinal + j • env.trajectory.step = B ∧ j + 2 ≤ n) ∨ 8 * M ≤ count env i0 k ∧ 1 ≤ n →
      ∃ k' s' ok, prolongLoop env fuel desired n tFinal stop s = .ok (s', ok) ∧ k ≤ k' ∧ s'.inst = orbit env i0 k' ∧ During env i0 d0 α cs r k' s' ∧ (ok = true → beforeBot (tMax s') desired = false) ∧ (stop = none → ok = true)
  | 0, _, _, _, _, _, _, hn => by
    rcases hn with ⟨j, -, hj⟩ | ⟨-, hj⟩ <;> omega
  | n + 1, tFinal, stop, k, s, hinst, hd, hn => by
    rw [prolongLoop]
    by_cases hb : beforeBot (tMax s) desired = true
    · rw [if_pos hb, hinst]
      have hlt : count env i0 k < 8 * M := by
        by_contra hge
        obtain ⟨-, n1, k₀, ext, hc⟩ := hd
        have hn1 := hc.n_eq
        rw [hc.eph.tMax hl, if_pos (by omega)] at hb
        simp only [beforeBot, decide_eq_true_eq] at hb
        have : at' env i0 (8 * M) ≤ at' env i0 (8 * (n1 / 8)) := hl.atMono.monotone (by omega)
        exact absurd (lt_of_lt_of_le hb hdM) (not_lt.2 this)
      rcases hn with ⟨j, hj, hjn⟩ | ⟨hc, -⟩
      · have hle : tFinal ≤ B := by
          rw [← hj]
          exact le_add_of_nonneg_right (nsmul_nonneg hl.step_pos.le j)
        obtain ⟨k1, s1, ok1, stop1, e1, e2, e3, -, -, e6, e7⟩ := solve_total hl (During env i0 d0 α cs r) (fun k s h => h.step hl) (lt_of_le_of_lt hle hK) fuel stop k s hd (by omega) (by omega)
        rw [e1]
        simp only
        have e8 : During env i0 d0 α cs r k1 { s1 with inst := orbit env i0 k1 } := by
          obtain ⟨h1, n1, k₀, ext, h2⟩ := e3
          exact ⟨h1, n1, k1, ext, h2.withInst k1⟩
        cases hp : stop1.poll with
        | mk b stop2 =>
          cases b with
          | true =>
            refine ⟨k1, _, false, rfl, e2, rfl, e8, fun h => by simp at h, fun h => ?_⟩
            rw [(e7 h).1] at hp
            simp [Stop.poll] at hp
          | false =>
            simp only
            have hend := e6 (by rw [hp])
            have hnext : (∃ j' : ℕ, tFinal + env.trajectory.step + j' • env.trajectory.step = B ∧ j' + 2 ≤ n) ∨ 8 * M ≤ count env i0 k1 ∧ 1 ≤ n := by
              cases j with
              | zero =>
                right
                rw [zero_nsmul, add_zero] at hj
                have h1 : at' env i0 (8 * M + 1) < at' env i0 (count env i0 (k1 + 1) + 1) := (hB.trans hj.ge).trans_lt (hend.trans (hl.time_lt _))
                have h2 := hl.atMono.lt_iff_lt.1 h1
                have h3 : count env i0 (k1 + 1) ≤ count env i0 k1 + 1 := by
                  rw [count]
                  by_cases hap : env.integrator.appends (orbit env i0 (k1 + 1)) = true
                  · rw [if_pos hap]
                  · rw [if_neg hap]; omega
                omega
              | succ j =>
                left
                refine ⟨j, ?_, by omega⟩
                rw [← hj, succ_nsmul]
                abel
            obtain ⟨k', s', ok, g1, g2, g3, g4, g5, g6⟩ := prolongLoop_total hl hM hdM hB hK hf n (tFinal + env.trajectory.step) stop2 k1 _ rfl e8 hnext
            refine ⟨k', s', ok, g1, by omega, g3, g4, g5, fun h => g6 ?_⟩
            rw [(e7 h).1] at hp
            simp [Stop.poll] at hp
            exact hp.symm
      · omega
    · rw [if_neg hb]
      exact ⟨k, s, true, rfl, le_rfl, hinst, hd, fun _ => by simpa using hb, fun _ => rfl⟩

/-- With enough fuel, a prolongation succeeds. -/
theorem prolong_total (hl : Lawful env i0) {α k : ℕ} {cs : List (T × ℕ × ℕ)} {r : Option T} {s : State T L D P E I} (hinst : s.inst = orbit env i0 k) (hd : During env i0 d0 α cs r k s) (t : T) (maxSteps : ℤ) (stop : Stop) :
    ∃ fuel k' s' ok, prolong env fuel t maxSteps stop s = .ok (s', ok) ∧ k ≤ k' ∧ s'.inst = orbit env i0 k' ∧ During env i0 d0 α cs r k' s' ∧ (ok = true → beforeBot (tMax s') (desiredTMax env s t maxSteps) = false) ∧ (stop = none → ok = true) := by
  unfold prolong
  set desired := desiredTMax env s t maxSteps with hdes
  set tFinal := (if desired ≤ env.integrator.time s.inst then env.integrator.time s.inst + env.trajectory.step else desired) with htf
  obtain ⟨N, hN⟩ := hl.at_unbounded desired
  obtain ⟨j, hj⟩ := hl.at_unbounded (env.integrator.time i0 + (at' env i0 (8 * (N + α + 1) + 1) - tFinal))
  have hB : at' env i0 (8 * (N + α + 1) + 1) ≤ tFinal + j • env.trajectory.step := by
    unfold at' timeAt at hj
    have h1 := lt_of_add_lt_add_left hj
    have h2 := sub_lt_iff_lt_add.1 h1
    rw [add_comm (j • _)] at h2
    exact h2.le
  obtain ⟨K, hK⟩ := hl.unbounded (tFinal + j • env.trajectory.step)
  obtain ⟨k', s', ok, h1, h2, h3, h4, h5, h6⟩ := prolongLoop_total (fuel := K + j + 3) hl (M := N + α + 1) (by omega) (hN.le.trans (hl.atMono.monotone (by omega))) hB hK (by omega) (K + j + 3) tFinal stop k s hinst hd
    (Or.inl ⟨j, rfl, by omega⟩)
  exact ⟨K + j + 3, k', s', ok, h1, h2, h3, h4, h5, h6⟩

end Principia.Ephemeris
