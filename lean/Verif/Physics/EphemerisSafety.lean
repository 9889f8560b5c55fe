import Verif.Physics.EphemerisLemmas

/-!
# The trajectories of the ephemeris are always slices of those obtained without interruption
-/

set_option linter.unusedSimpArgs false
set_option linter.unusedVariables false
set_option linter.unusedSectionVars false

namespace Principia.Ephemeris

open Principia.SortedMap Principia.ContinuousTrajectory Principia.Checkpointer

variable {T L D P E I : Type} [AddCommGroup T] [LinearOrder T] [IsOrderedAddMonoid T] [Field L] [LinearOrder L]
variable {env : Env T L D P E I} {i0 : I} {d0 : D}

/-! ### The integration -/

/-- What is preserved by the steps is preserved by the integration. -/
theorem solve_induction {σ : Type} {append : I → σ → Option σ} (Q : ℕ → σ → Prop)
    (hQ : ∀ k s s', Q k s → (if env.integrator.appends (orbit env i0 (k + 1)) = true then append (orbit env i0 (k + 1)) s else some s) = some s' → Q (k + 1) s') {tFinal : T} :
    ∀ (fuel : ℕ) (stop : Stop) (k : ℕ) (s : σ) {i' : I} {s' : σ} {ok : Bool} {stop' : Stop}, solve env.integrator append tFinal fuel stop (orbit env i0 k) s = .ok (i', s', ok, stop') → Q k s →
      ∃ k', k ≤ k' ∧ i' = orbit env i0 k' ∧ Q k' s'
  | 0, _, _, _, _, _, _, _, h, _ => by simp [solve] at h
  | fuel + 1, stop, k, s, i', s', ok, stop', h, hk => by
    rw [solve.eq_def] at h
    simp only [orbit_succ] at h
    by_cases hdt : env.integrator.dt (orbit env i0 k) ≤ tFinal - env.integrator.time (orbit env i0 k)
    · rw [if_pos hdt] at h
      cases ha : (if env.integrator.appends (orbit env i0 (k + 1)) = true then append (orbit env i0 (k + 1)) s else some s) with
      | none => rw [ha] at h; simp at h
      | some s1 =>
        rw [ha] at h
        simp only at h
        have h1 := hQ k s s1 hk ha
        have hrec : ∀ stop1, solve env.integrator append tFinal fuel stop1 (orbit env i0 (k + 1)) s1 = .ok (i', s', ok, stop') → ∃ k', k ≤ k' ∧ i' = orbit env i0 k' ∧ Q k' s' := by
          intro stop1 hs
          obtain ⟨k', e1, e2, e3⟩ := solve_induction Q hQ fuel stop1 (k + 1) s1 hs h1
          exact ⟨k', by omega, e2, e3⟩
        cases hp : stop.poll with
        | mk b stop1 =>
          rw [hp] at h
          cases b with
          | false => exact hrec _ h
          | true =>
            simp only at h
            by_cases hst : env.integrator.started (orbit env i0 k) = true
            · rw [if_pos hst] at h
              simp only [Except.ok.injEq, Prod.mk.injEq] at h
              obtain ⟨rfl, rfl, -, -⟩ := h
              exact ⟨k + 1, by omega, rfl, h1⟩
            · rw [if_neg hst] at h
              by_cases hst' : env.integrator.started (orbit env i0 (k + 1)) = true
              · rw [if_pos hst'] at h
                exact hrec _ h
              · rw [if_neg hst'] at h
                simp only [Except.ok.injEq, Prod.mk.injEq] at h
                obtain ⟨rfl, rfl, -, -⟩ := h
                exact ⟨k + 1, by omega, rfl, h1⟩
    · rw [if_neg hdt] at h
      simp only [Except.ok.injEq, Prod.mk.injEq] at h
      obtain ⟨rfl, rfl, -, -⟩ := h
      exact ⟨k, le_rfl, rfl, hk⟩

/-- What is preserved by the steps is preserved by the prolongation, provided that it doesn't depend on the instance. -/
theorem prolongLoop_induction (Q : ℕ → State T L D P E I → Prop)
    (hQ : ∀ k s s', Q k s → (if env.integrator.appends (orbit env i0 (k + 1)) = true then appendState env (orbit env i0 (k + 1)) s else some s) = some s' → Q (k + 1) s')
    (hi : ∀ k s, Q k s → Q k { s with inst := orbit env i0 k }) {desired : T} {fuel : ℕ} :
    ∀ (n : ℕ) (tFinal : T) (stop : Stop) (k : ℕ) (s : State T L D P E I) {s' : State T L D P E I} {ok : Bool}, prolongLoop env fuel desired n tFinal stop s = .ok (s', ok) → s.inst = orbit env i0 k → Q k s →
      ∃ k', k ≤ k' ∧ s'.inst = orbit env i0 k' ∧ Q k' s'
  | 0, _, _, _, _, _, _, h, _, _ => by simp [prolongLoop] at h
  | n + 1, tFinal, stop, k, s, s', ok, h, hinst, hk => by
    rw [prolongLoop] at h
    by_cases hb : beforeBot (tMax s) desired = true
    · rw [if_pos hb, hinst] at h
      cases hs : solve env.integrator (appendState env) tFinal fuel stop (orbit env i0 k) s with
      | error e => rw [hs] at h; simp at h
      | ok r =>
        obtain ⟨i1, s1, ok1, stop1⟩ := r
        rw [hs] at h
        simp only at h
        obtain ⟨k1, e1, rfl, e3⟩ := solve_induction Q hQ _ _ _ _ hs hk
        have e4 := hi k1 s1 e3
        cases hp : stop1.poll with
        | mk b stop2 =>
          rw [hp] at h
          cases b with
          | false =>
            obtain ⟨k2, e5, e6, e7⟩ := prolongLoop_induction Q hQ hi n _ _ k1 _ h rfl e4
            exact ⟨k2, by omega, e6, e7⟩
          | true =>
            simp only [Except.ok.injEq, Prod.mk.injEq] at h
            obtain ⟨rfl, -⟩ := h
            exact ⟨k1, e1, rfl, e4⟩
    · rw [if_neg hb] at h
      simp only [Except.ok.injEq, Prod.mk.injEq] at h
      obtain ⟨rfl, -⟩ := h
      exact ⟨k, le_rfl, hinst, hk⟩

theorem Eph.withInst {s : State T L D P E I} {α n k : ℕ} {cs : List (T × ℕ × ℕ)} (h : Eph env i0 d0 s α n k cs) (k' : ℕ) : Eph env i0 d0 { s with inst := orbit env i0 k' } α n k' cs :=
  ⟨h.trajs, rfl, h.checkpoints, h.sorted, h.oldest⟩

/-! ### Serialization -/

theorem polynomials_takeWhile (hl : Lawful env i0) {b α n : ℕ} {x : Trajectory T L D P E} (h : Slice env i0 d0 b x α n) {o : T} (ho : o < at' env i0 8) : (x.polynomials.takeWhile fun p => decide (p.1 ≤ o)) = [] := by
  cases hp : x.polynomials with
  | nil => rfl
  | cons p l =>
    have hlen := h.length
    rw [hp] at hlen
    simp at hlen
    have h0 := h.getElem 0 (by omega)
    rw [hp] at h0
    simp at h0
    rw [List.takeWhile_cons, if_neg]
    rw [h0]
    simp only [decide_eq_true_eq, not_le]
    refine lt_of_lt_of_le ho (hl.atMono.monotone ?_)
    omega

theorem isCheckpoint_canonical (b n : ℕ) : IsCheckpoint env.trajectory (env.integrator.time i0) (points env i0 d0 b) env.trajectory.defaultPolicy (canonical env i0 d0 b n) n := ⟨rfl, rfl⟩

/-- Writing the ephemeris and reading it yields the ephemeris at the last checkpoint before the desired time, if there is one. -/
theorem Eph.load {s : State T L D P E I} {α n k : ℕ} {cs : List (T × ℕ × ℕ)} (hl : Lawful env i0) (h : Eph env i0 d0 s α n k cs) (ht : cs = [] → env.integrator.time s.inst < at' env i0 8) (d : T) :
    ∃ s' cs', writeToCheckpointIfNeeded env s (env.integrator.time s.inst) = some s' ∧ Eph env i0 d0 s' α n k cs' ∧ s'.oldestReanimated = s.oldestReanimated ∧ (∃ m, writeToMessage env s = some (m, s')) ∧ cs' ≠ [] ∧
      (cs' = cs ∨ cs' = cs ++ [(env.integrator.time (orbit env i0 k), k, n)] ∧ ∀ c ∈ cs, c.1 + env.maxTimeBetweenCheckpoints < env.integrator.time (orbit env i0 k)) ∧
      (((writeToMessage env s).bind fun r => readFromMessage env d r.1) = none ∧ (∀ c ∈ cs', d < c.1) ∨
        ∃ c ∈ cs', c.1 ≤ d ∧ (∀ c' ∈ cs', c'.1 ≤ d → c'.1 ≤ c.1) ∧ ∃ e, ((writeToMessage env s).bind fun r => readFromMessage env d r.1) = some e ∧
          Eph env i0 d0 e (c.2.2 / 8) c.2.2 c.2.1 cs' ∧ e.oldestReanimated = some c.1) := by
  obtain ⟨s', cs', e1, e2, e3, e4, e5⟩ := h.write hl ht
  rw [h.inst] at e5
  refine ⟨s', cs', e1, e2, e4, ?_⟩
  obtain ⟨c0, hc0⟩ : ∃ c0, cs'.head? = some c0 := by
    cases cs' with
    | nil => exact absurd rfl e3
    | cons c _ => exact ⟨c, rfl⟩
  have hw : ∀ (b : ℕ) x, s'.trajectories[b]? = some x → ContinuousTrajectory.writeToMessage x = some ⟨mapValues (fun c => canonical env i0 d0 b c.2) cs', env.trajectory.defaultPolicy, [], x.firstTime⟩ := by
    intro b x hx
    have hck := e2.trajs.checkpointer b x hx
    have hsl := e2.trajs.slice b x hx
    unfold ContinuousTrajectory.writeToMessage
    rw [hck, oldest_mapValues]
    unfold Checkpointer.oldest
    rw [hc0]
    simp only [Option.map_some]
    rw [polynomials_takeWhile hl hsl (e2.oldest c0 hc0), hsl.policy_eq]
    simp [Checkpointer.writeToMessage]
  obtain ⟨ms, hms⟩ := forAll_of (f := ContinuousTrajectory.writeToMessage) (l := s'.trajectories) fun b x hx => by rw [hw b x hx]; rfl
  obtain ⟨hlen, hget⟩ := forAll_some hms
  have hwm : writeToMessage env s = some (⟨Checkpointer.writeToMessage s'.checkpoints, ms⟩, s') := by
    unfold writeToMessage
    rw [e1, Option.bind_some, hms]
    rfl
  refine ⟨⟨_, hwm⟩, e3, e5, ?_⟩
  rw [hwm, Option.bind_some]
  simp only
  unfold readFromMessage
  have hread : ∀ (b : ℕ) m, ms[b]? = some m →
      ContinuousTrajectory.readFromMessage env.trajectory d m =
        (Checkpointer.readAtOrBefore cs' d).map fun c => readCheckpoint { ContinuousTrajectory.create env.trajectory with polynomials := [], policy := env.trajectory.defaultPolicy, firstTime := m.firstTime, checkpointer := mapValues (fun c => canonical env i0 d0 b c.2) cs' } (canonical env i0 d0 b c.2) := by
    intro b m hm
    obtain ⟨x, hx, hxm⟩ := hget b m hm
    rw [hw b x hx, Option.some.injEq] at hxm
    subst hxm
    unfold ContinuousTrajectory.readFromMessage
    have hrt : Checkpointer.readFromMessage none (mapValues (fun c : ℕ × ℕ => canonical env i0 d0 b c.2) cs') = mapValues (fun c => canonical env i0 d0 b c.2) cs' := by
      have := round_trip (sorted_mapValues (fun c : ℕ × ℕ => canonical env i0 d0 b c.2) e2.sorted)
      simpa [Checkpointer.writeToMessage] using this
    simp only [hrt, hl.policy, readAtOrBefore_mapValues]
    cases Checkpointer.readAtOrBefore cs' d with
    | none => rfl
    | some c => rfl
  have hckpts : Checkpointer.readFromMessage none (Checkpointer.writeToMessage s'.checkpoints) = mapValues (fun c => orbit env i0 c.1) cs' := by
    rw [e2.checkpoints]
    exact round_trip (sorted_mapValues _ e2.sorted)
  have hpos : 0 < ms.length := by
    rw [hlen, e2.trajs.length]
    exact List.length_pos_iff.2 hl.state_ne
  by_cases hub : upperBound cs' d = 0
  · left
    refine ⟨?_, (upperBound_eq_zero e2.sorted).1 hub⟩
    have hnone : forAll (ContinuousTrajectory.readFromMessage env.trajectory d) ms = none := by
      cases hf : forAll (ContinuousTrajectory.readFromMessage env.trajectory d) ms with
      | none => rfl
      | some l =>
        exfalso
        obtain ⟨e6, e7⟩ := forAll_some hf
        obtain ⟨m, hm, hm'⟩ := e7 0 _ (List.getElem?_eq_getElem (by rw [e6]; exact hpos))
        rw [hread 0 m hm] at hm'
        unfold Checkpointer.readAtOrBefore at hm'
        simp [hub] at hm'
    rw [hnone]
    rfl
  · right
    obtain ⟨c, hc1, hc2, hc3, hc4, -⟩ := upperBound_pred e2.sorted hub
    refine ⟨c, hc2, hc3, hc4, ?_⟩
    have hra : Checkpointer.readAtOrBefore cs' d = some c.2 := by
      unfold Checkpointer.readAtOrBefore
      simp only
      rw [if_neg hub, hc1]
      rfl
    have hab : Checkpointer.atOrBefore cs' d = some c.1 := by
      unfold Checkpointer.atOrBefore
      simp only
      rw [if_neg hub, hc1]
      rfl
    simp only [hra, Option.map_some] at hread
    obtain ⟨l, hf⟩ := forAll_of (f := ContinuousTrajectory.readFromMessage env.trajectory d) (l := ms) fun b m hm => by rw [hread b m hm]; rfl
    obtain ⟨e6, e7⟩ := forAll_some hf
    rw [hf, Option.bind_some]
    have hne : l ≠ [] := by
      intro he
      rw [he] at e6
      simp at e6
      omega
    rw [if_neg hne]
    simp only [hckpts, atOrBefore_mapValues, hab, Option.bind_some, readAt_mapValues]
    rw [(find_eq_some_iff e2.sorted).2 ⟨hc2, rfl⟩]
    refine ⟨_, rfl, ⟨⟨?_, ?_, ?_⟩, rfl, rfl, e2.sorted, e2.oldest⟩, rfl⟩
    · rw [e6, hlen, e2.trajs.length]
    · intro b y hy
      obtain ⟨m, hm, hm'⟩ := e7 b y hy
      rw [hread b m hm, Option.some.injEq] at hm'
      subst hm'
      exact ((isCheckpoint_canonical b c.2.2).read rfl rfl).1
    · intro b y hy
      obtain ⟨m, hm, hm'⟩ := e7 b y hy
      rw [hread b m hm, Option.some.injEq] at hm'
      subst hm'
      exact ((isCheckpoint_canonical (env := env) (i0 := i0) (d0 := d0) b c.2.2).read (s := { ContinuousTrajectory.create env.trajectory with polynomials := [], policy := env.trajectory.defaultPolicy, firstTime := m.firstTime, checkpointer := mapValues (fun c => canonical env i0 d0 b c.2) cs' }) rfl rfl).2

/-! ### Evaluation -/

theorem Trajs.evaluate {l : List (Trajectory T L D P E)} {α n b : ℕ} {cs : List (T × ℕ × ℕ)} (hl : Lawful env i0) (h : Trajs env i0 d0 l α n cs) {x y : Trajectory T L D P E} {t : T} {p : P} (hx : l[b]? = some x)
    (he : ContinuousTrajectory.evaluate x t = some (p, y)) : Trajs env i0 d0 (l.set b y) α n cs := by
  obtain ⟨-, -, -, k, -, -, -, -, la, hla, hy⟩ := (h.slice b x hx).evaluate_some hl.step_pos he
  simp only at hy
  refine ⟨by rw [List.length_set, h.length], ?_, ?_⟩
  · intro b' z hz
    rw [List.getElem?_set] at hz
    by_cases hb : b = b'
    · subst hb
      rw [if_pos rfl] at hz
      by_cases hlt : b < l.length
      · rw [if_pos hlt, Option.some.injEq] at hz
        subst hz hy
        exact (h.slice b x hx).withAccessed hla
      · rw [if_neg hlt] at hz; simp at hz
    · rw [if_neg hb] at hz
      exact h.slice b' z hz
  · intro b' z hz
    rw [List.getElem?_set] at hz
    by_cases hb : b = b'
    · subst hb
      rw [if_pos rfl] at hz
      by_cases hlt : b < l.length
      · rw [if_pos hlt, Option.some.injEq] at hz
        subst hz hy
        exact h.checkpointer b x hx
      · rw [if_neg hlt] at hz; simp at hz
    · rw [if_neg hb] at hz
      exact h.checkpointer b' z hz

theorem Eph.evaluate {s s' : State T L D P E I} {α n k b : ℕ} {cs : List (T × ℕ × ℕ)} (hl : Lawful env i0) (h : Eph env i0 d0 s α n k cs) {t : T} {p : P} (he : evaluate s b t = some (p, s')) :
    Eph env i0 d0 s' α n k cs ∧ s'.oldestReanimated = s.oldestReanimated := by
  unfold Ephemeris.evaluate at he
  rw [Option.bind_eq_some_iff] at he
  obtain ⟨x, hx, he⟩ := he
  rw [Option.map_eq_some_iff] at he
  obtain ⟨⟨p', y⟩, hy, he⟩ := he
  simp only [Prod.mk.injEq] at he
  obtain ⟨rfl, rfl⟩ := he
  exact ⟨⟨h.trajs.evaluate hl hx hy, h.inst, h.checkpoints, h.sorted, h.oldest⟩, rfl⟩

/-! ### Reanimation -/

/-- The trajectories of a segment after its checkpoint has been read. -/
theorem Eph.readSegment {s : State T L D P E I} {α n k : ℕ} {cs : List (T × ℕ × ℕ)} (h : Eph env i0 d0 s α n k cs) {c : T × ℕ × ℕ} (hc : c ∈ cs) :
    Checkpointer.readAt s.checkpoints c.1 = some (orbit env i0 c.2.1) ∧
    ∃ l, forAll (fun x => readFromCheckpointAt x c.1 (ContinuousTrajectory.create env.trajectory)) s.trajectories = some l ∧ Trajs env i0 d0 l (c.2.2 / 8) c.2.2 [] := by
  have hfind := (find_eq_some_iff h.sorted).2 ⟨hc, rfl⟩
  refine ⟨by rw [h.checkpoints, readAt_mapValues, hfind]; rfl, ?_⟩
  have hr : ∀ (b : ℕ) x, s.trajectories[b]? = some x → readFromCheckpointAt x c.1 (ContinuousTrajectory.create env.trajectory) = some (readCheckpoint (ContinuousTrajectory.create env.trajectory) (canonical env i0 d0 b c.2.2)) := by
    intro b x hx
    unfold readFromCheckpointAt
    rw [h.trajs.checkpointer b x hx, readAt_mapValues, hfind]
    rfl
  obtain ⟨l, hf⟩ := forAll_of (f := fun x => readFromCheckpointAt x c.1 (ContinuousTrajectory.create env.trajectory)) (l := s.trajectories) fun b x hx => by rw [hr b x hx]; rfl
  obtain ⟨e1, e2⟩ := forAll_some hf
  refine ⟨l, hf, by rw [e1, h.trajs.length], ?_, ?_⟩
  · intro b y hy
    obtain ⟨x, hx, hxy⟩ := e2 b y hy
    rw [hr b x hx, Option.some.injEq] at hxy
    subst hxy
    exact ((isCheckpoint_canonical b c.2.2).read rfl rfl).1
  · intro b y hy
    obtain ⟨x, hx, hxy⟩ := e2 b y hy
    rw [hr b x hx, Option.some.injEq] at hxy
    subst hxy
    exact ((isCheckpoint_canonical (env := env) (i0 := i0) (d0 := d0) b c.2.2).read (s := ContinuousTrajectory.create env.trajectory) rfl rfl).2

/-- The trajectories of a computed segment. -/
theorem Eph.compute {s : State T L D P E I} {α n k fuel : ℕ} {cs : List (T × ℕ × ℕ)} {stop : Stop} {tI tF : T} {l : List (Trajectory T L D P E)} (hl : Lawful env i0) (h : Eph env i0 d0 s α n k cs)
    (hc : computeSegment env fuel stop s tI tF = .ok (some l)) : cs ≠ [] ∧ ∃ α' m, Trajs env i0 d0 l α' m [] := by
  unfold computeSegment at hc
  cases hr : Checkpointer.readAt s.checkpoints tI with
  | none => rw [hr] at hc; simp at hc
  | some i =>
    have hr' := hr
    rw [h.checkpoints, readAt_mapValues, Option.map_eq_some_iff] at hr'
    obtain ⟨c, hfind, -⟩ := hr'
    obtain ⟨hc1, rfl⟩ := (find_eq_some_iff h.sorted).1 hfind
    obtain ⟨e1, l0, e2, e3⟩ := h.readSegment hc1
    rw [e1] at hc
    simp only [e2] at hc
    refine ⟨by rintro rfl; simp at hc1, ?_⟩
    cases hs : solve env.integrator (appendToTrajectories env) tF fuel stop (orbit env i0 c.2.1) l0 with
    | error e => rw [hs] at hc; simp at hc
    | ok r =>
      obtain ⟨i1, l1, ok1, stop1⟩ := r
      rw [hs] at hc
      simp only [Except.ok.injEq] at hc
      obtain ⟨k', -, -, α', m, e4⟩ := solve_induction (fun k l => ∃ α' m, Trajs env i0 d0 l α' m []) (by
        rintro k s s' ⟨α', m, hm⟩ hs
        by_cases ha : env.integrator.appends (orbit env i0 (k + 1)) = true
        · rw [if_pos ha] at hs
          exact ⟨α', m + 1, (hm.append hl ha hs).2⟩
        · rw [if_neg ha, Option.some.injEq] at hs
          subst hs
          exact ⟨α', m, hm⟩) fuel stop c.2.1 l0 hs ⟨_, _, e3⟩
      cases ok1 with
      | false => simp at hc
      | true =>
        simp at hc
        subst hc
        exact ⟨α', m, e4⟩

/-- Stitching a segment. -/
theorem Eph.stitch {s s' : State T L D P E I} {α n k α' m : ℕ} {cs : List (T × ℕ × ℕ)} {tI : T} {l : List (Trajectory T L D P E)} (hl : Lawful env i0) (h : Eph env i0 d0 s α n k cs) (hp : Trajs env i0 d0 l α' m [])
    (hs : Ephemeris.stitch s tI l = some s') : ∃ α'' n', Eph env i0 d0 s' α'' n' k cs := by
  unfold Ephemeris.stitch at hs
  rw [Option.map_eq_some_iff] at hs
  obtain ⟨l', hf, rfl⟩ := hs
  obtain ⟨e1, e2, e3⟩ := forAll₂_some hf
  have key : ∃ α'' n', ∀ (b : ℕ) y, l'[b]? = some y → y.checkpointer = mapValues (fun c => canonical env i0 d0 b c.2) cs ∧ Slice env i0 d0 b y α'' n' := by
    have hcase : ∀ (b : ℕ) y, l'[b]? = some y → y.checkpointer = mapValues (fun c => canonical env i0 d0 b c.2) cs ∧
        (Slice env i0 d0 b y α n ∧ m / 8 ≤ α' ∨ α' < m / 8 ∧ n / 8 ≤ α ∧ Slice env i0 d0 b y α' m ∨ α' < m / 8 ∧ α < n / 8 ∧ m / 8 = α ∧ Slice env i0 d0 b y α' n) := by
      intro b y hy
      obtain ⟨x, p, hx, hp', hxy⟩ := e3 b y hy
      have := (h.trajs.slice b x hx).prepend_some (hp.slice b p hp') hl.step_pos hxy
      rw [h.trajs.checkpointer b x hx] at this
      exact this
    by_cases h1 : m / 8 ≤ α'
    · exact ⟨α, n, fun b y hy => ⟨(hcase b y hy).1, by rcases (hcase b y hy).2 with g | g | g; exacts [g.1, absurd g.1 (by omega), absurd g.1 (by omega)]⟩⟩
    · by_cases h2 : n / 8 ≤ α
      · exact ⟨α', m, fun b y hy => ⟨(hcase b y hy).1, by rcases (hcase b y hy).2 with g | g | g; exacts [absurd g.2 (by omega), g.2.2, absurd g.2.1 (by omega)]⟩⟩
      · exact ⟨α', n, fun b y hy => ⟨(hcase b y hy).1, by rcases (hcase b y hy).2 with g | g | g; exacts [absurd g.2 (by omega), absurd g.2.1 (by omega), g.2.2.2]⟩⟩
  obtain ⟨α'', n', hk⟩ := key
  exact ⟨α'', n', ⟨by rw [e2, h.trajs.length], fun b y hy => (hk b y hy).2, fun b y hy => (hk b y hy).1⟩, h.inst, h.checkpoints, h.sorted, h.oldest⟩

/-! ### The invariant -/

/-- The trajectories of the ephemeris and those of the reanimator are slices. -/
structure Safe (env : Env T L D P E I) (i0 : I) (d0 : D) (s : System T L D P E I) (α n k : ℕ) (cs : List (T × ℕ × ℕ)) : Prop where
  eph : Eph env i0 d0 s.ephemeris α n k cs
  empty : cs = [] → n = 0 ∧ count env i0 k = 0 ∧ s.computed = none
  computed : ∀ tI l, s.computed = some (tI, l) → ∃ α' m, Trajs env i0 d0 l α' m []

theorem Safe.create (hl : Lawful env i0) : ∃ s, Ephemeris.create env i0 = some s ∧ Safe env i0 d0 ⟨s, [], none⟩ 0 0 0 [] := by
  obtain ⟨s, h1, h2, -⟩ := Eph.create (d0 := d0) hl
  exact ⟨s, h1, h2, fun _ => ⟨rfl, rfl, rfl⟩, fun _ _ h => by simp at h⟩

theorem checked_ok {A : Type} {o : Option A} {a : A} (h : checked o = .ok a) : o = some a := by
  cases o with
  | none => simp [checked] at h
  | some b => simp [checked] at h; rw [h]

theorem Safe.time_lt {s : System T L D P E I} {α n k : ℕ} {cs : List (T × ℕ × ℕ)} (hl : Lawful env i0) (h : Safe env i0 d0 s α n k cs) : cs = [] → env.integrator.time s.ephemeris.inst < at' env i0 8 := by
  intro hcs
  rw [h.eph.inst]
  refine lt_of_lt_of_le (hl.time_lt k) (hl.atMono.monotone ?_)
  rw [(h.empty hcs).2.1]
  omega

theorem Safe.step {s s' : System T L D P E I} {α n k fuel : ℕ} {cs : List (T × ℕ × ℕ)} {e : Event T} (hl : Lawful env i0) (h : Safe env i0 d0 s α n k cs) (hs : step env fuel s e = .ok s') :
    ∃ α' n' k' cs', Safe env i0 d0 s' α' n' k' cs' := by
  cases e with
  | prolong t maxSteps stop =>
    unfold Ephemeris.step at hs
    simp only at hs
    cases hp : prolong env fuel t maxSteps stop s.ephemeris with
    | error e => rw [hp] at hs; simp at hs
    | ok r =>
      obtain ⟨e', ok⟩ := r
      rw [hp] at hs
      simp only [Except.ok.injEq] at hs
      subst hs
      unfold prolong at hp
      obtain ⟨k', e1, e2, k₀, α', n', cs', e3, e4⟩ := prolongLoop_induction
        (fun k s' => ∃ k₀ α n cs, Eph env i0 d0 s' α n k₀ cs ∧ (cs = [] → n = 0 ∧ count env i0 k = 0 ∧ s.computed = none)) (by
          rintro k s1 s2 ⟨k₀, α, n, cs, h1, h2⟩ hs
          by_cases ha : env.integrator.appends (orbit env i0 (k + 1)) = true
          · rw [if_pos ha] at hs
            obtain ⟨-, cs', g1, g2, -⟩ := h1.appendState hl (fun hcs => (h2 hcs).1) ha hs
            exact ⟨k + 1, α, n + 1, cs', g1, fun hcs => absurd hcs g2⟩
          · rw [if_neg ha, Option.some.injEq] at hs
            subst hs
            exact ⟨k₀, α, n, cs, h1, fun hcs => by rw [count_succ' ha]; exact h2 hcs⟩) (by
          rintro k s1 ⟨k₀, α, n, cs, h1, h2⟩
          exact ⟨k, α, n, cs, h1.withInst k, h2⟩) fuel _ _ k _ hp h.eph.inst ⟨k, α, n, cs, h.eph, h.empty⟩
      exact ⟨α', n', k', cs', ⟨e3.trajs, e2, e3.checkpoints, e3.sorted, e3.oldest⟩, e4, h.computed⟩
  | evaluate b t =>
    unfold Ephemeris.step at hs
    have hs := checked_ok hs
    rw [Option.map_eq_some_iff] at hs
    obtain ⟨⟨p, e'⟩, he, rfl⟩ := hs
    exact ⟨α, n, k, cs, (h.eph.evaluate hl he).1, h.empty, h.computed⟩
  | save =>
    unfold Ephemeris.step at hs
    have hs := checked_ok hs
    rw [Option.map_eq_some_iff] at hs
    obtain ⟨⟨m, e'⟩, he, rfl⟩ := hs
    obtain ⟨s1, cs', -, e2, -, ⟨m', hm'⟩, e4, -⟩ := h.eph.load hl (h.time_lt hl) (env.integrator.time i0)
    rw [hm', Option.some.injEq, Prod.mk.injEq] at he
    obtain ⟨rfl, rfl⟩ := he
    exact ⟨α, n, k, cs', e2, fun hcs => absurd hcs e4, h.computed⟩
  | load d =>
    unfold Ephemeris.step at hs
    have hs := checked_ok hs
    rw [Option.map_eq_some_iff] at hs
    obtain ⟨e', he, rfl⟩ := hs
    obtain ⟨s1, cs', -, -, -, -, e4, -, e6⟩ := h.eph.load hl (h.time_lt hl) d
    rcases e6 with ⟨e6, -⟩ | ⟨c, -, -, -, e, e6, e7, -⟩
    · rw [e6] at he; simp at he
    · rw [e6, Option.some.injEq] at he
      subst he
      exact ⟨_, _, _, cs', e7, fun hcs => absurd hcs e4, fun _ _ hc => by simp at hc⟩
  | reanimate d =>
    unfold Ephemeris.step at hs
    simp only at hs
    by_cases hi : s.pending = [] ∧ s.computed.isNone = true
    · rw [if_pos hi] at hs
      have hs := checked_ok hs
      rw [Option.map_eq_some_iff] at hs
      obtain ⟨l, -, rfl⟩ := hs
      exact ⟨α, n, k, cs, h.eph, h.empty, h.computed⟩
    · rw [if_neg hi, Except.ok.injEq] at hs
      subst hs
      exact ⟨α, n, k, cs, h⟩
  | compute stop =>
    unfold Ephemeris.step at hs
    simp only at hs
    cases hp : s.pending with
    | nil =>
      rw [hp] at hs
      simp only [Except.ok.injEq] at hs
      subst hs
      exact ⟨α, n, k, cs, h⟩
    | cons q l =>
      obtain ⟨tI, tF⟩ := q
      cases hc : s.computed with
      | some c =>
        rw [hp, hc] at hs
        simp only [Except.ok.injEq] at hs
        subst hs
        exact ⟨α, n, k, cs, h⟩
      | none =>
        rw [hp, hc] at hs
        simp only at hs
        cases hcs : computeSegment env fuel stop s.ephemeris tI tF with
        | error e => rw [hcs] at hs; simp at hs
        | ok r =>
          rw [hcs] at hs
          cases r with
          | none =>
            simp only [Except.ok.injEq] at hs
            subst hs
            exact ⟨α, n, k, cs, h.eph, fun he => ⟨(h.empty he).1, (h.empty he).2.1, rfl⟩, fun _ _ h' => by simp [hc] at h'⟩
          | some l' =>
            simp only [Except.ok.injEq] at hs
            subst hs
            obtain ⟨hne, α', m, ht⟩ := h.eph.compute hl hcs
            refine ⟨α, n, k, cs, h.eph, fun he => absurd he hne, ?_⟩
            intro t1 l1 h1
            simp only [Option.some.injEq, Prod.mk.injEq] at h1
            obtain ⟨-, rfl⟩ := h1
            exact ⟨α', m, ht⟩
  | stitch =>
    unfold Ephemeris.step at hs
    simp only at hs
    cases hc : s.computed with
    | none =>
      rw [hc] at hs
      simp only [Except.ok.injEq] at hs
      subst hs
      exact ⟨α, n, k, cs, h⟩
    | some c =>
      obtain ⟨tI, l⟩ := c
      rw [hc] at hs
      have hs := checked_ok hs
      rw [Option.map_eq_some_iff] at hs
      obtain ⟨e', he, rfl⟩ := hs
      obtain ⟨α', m, ht⟩ := h.computed tI l hc
      obtain ⟨α'', n', e1⟩ := h.eph.stitch hl ht he
      exact ⟨α'', n', k, cs, e1, fun hcs => by have := (h.empty hcs).2.2; rw [hc] at this; simp at this, fun _ _ hc' => by simp at hc'⟩

end Principia.Ephemeris
