import Verif.Physics.EphemerisHistory
import Verif.Physics.ContinuousTrajectoryProps

/-!
# Properties of the history of an ephemeris
-/

set_option linter.unusedSimpArgs false
set_option linter.unusedVariables false
set_option linter.unusedSectionVars false

namespace Principia.Ephemeris

open Principia.SortedMap Principia.ContinuousTrajectory Principia.Checkpointer

variable {T L D P E I : Type} [AddCommGroup T] [LinearOrder T] [IsOrderedAddMonoid T] [Field L] [LinearOrder L]

/-! ### Specification -/

/-- What happens to an ephemeris when the events satisfy a condition. -/
inductive Run (env : Env T L D P E I) (condition : System T L D P E I → Event T → Prop) : System T L D P E I → System T L D P E I → Prop
  | refl (s : System T L D P E I) : Run env condition s s
  | step {s s' s'' : System T L D P E I} {e : Event T} (fuel : ℕ) : Run env condition s s' → condition s' e → step env fuel s' e = .ok s'' → Run env condition s s''

/-- The ephemerides which may be obtained from the initial state by any events, including prolongations and reanimations that are stopped at any point. -/
def Reachable (env : Env T L D P E I) (i0 : I) (s : System T L D P E I) : Prop := ∃ e, create env i0 = some e ∧ Run env (fun _ _ => True) ⟨e, [], none⟩ s

/-- The ephemerides which may be obtained from the initial state by allowed events. -/
def History (env : Env T L D P E I) (i0 : I) (s : System T L D P E I) : Prop := ∃ e, create env i0 = some e ∧ Run env (Allowed env) ⟨e, [], none⟩ s

section Theorems

variable {env : Env T L D P E I} {i0 : I}

theorem exists_d0 (hl : Lawful env i0) : Nonempty D := by
  have := hl.state_ne
  cases h : env.integrator.state i0 with
  | nil => exact absurd h this
  | cons d _ => exact ⟨d⟩

theorem Reachable.safe {s : System T L D P E I} (hl : Lawful env i0) (d0 : D) (h : Reachable env i0 s) : ∃ α n k cs, Safe env i0 d0 s α n k cs := by
  obtain ⟨e, he, hr⟩ := h
  obtain ⟨s0, h1, h2⟩ := Safe.create (d0 := d0) hl
  rw [he, Option.some.injEq] at h1
  subst h1
  induction hr with
  | refl => exact ⟨0, 0, 0, [], h2⟩
  | step fuel _ _ hs ih =>
    obtain ⟨α, n, k, cs, h3⟩ := ih
    exact h3.step hl hs

theorem Good.next {s s' : System T L D P E I} {d0 : D} {α n k fuel : ℕ} {cs : List (T × ℕ × ℕ)} {e : Event T} (hl : Lawful env i0) (h : Good env i0 d0 s α n k cs) (ha : Allowed env s e) (hs : Ephemeris.step env fuel s e = .ok s') :
    ∃ α' n' k' cs', Good env i0 d0 s' α' n' k' cs' ∧ ∀ d, Undisturbing e → Goal cs d (nextFinal s) s.pending → Goal cs' d (nextFinal s') s'.pending := by
  obtain ⟨fuel', s'', α', n', k', cs', h1, h2, h3⟩ := h.step hl ha
  have h4 := step_mono hs (le_max_left fuel fuel')
  rw [step_mono h1 (le_max_right fuel fuel'), Except.ok.injEq] at h4
  subst h4
  exact ⟨α', n', k', cs', h2, h3⟩

theorem History.good {s : System T L D P E I} (hl : Lawful env i0) (d0 : D) (h : History env i0 s) : ∃ α n k cs, Good env i0 d0 s α n k cs := by
  obtain ⟨e, he, hr⟩ := h
  obtain ⟨s0, h1, h2⟩ := Good.create (d0 := d0) hl
  rw [he, Option.some.injEq] at h1
  subst h1
  induction hr with
  | refl => exact ⟨0, 0, 0, [], h2⟩
  | step fuel _ ha hs ih =>
    obtain ⟨α, n, k, cs, h3⟩ := ih
    obtain ⟨α', n', k', cs', h4, -⟩ := h3.next hl ha hs
    exact ⟨α', n', k', cs', h4⟩

theorem History.reachable {s : System T L D P E I} (h : History env i0 s) : Reachable env i0 s := by
  obtain ⟨e, he, hr⟩ := h
  refine ⟨e, he, ?_⟩
  induction hr with
  | refl => exact .refl _
  | step fuel _ _ hs ih => exact .step fuel ih trivial hs

/-! ### Evaluation -/

/-- Whatever happens to an ephemeris (prolongations, saves, loads, reanimations, whether they are stopped or not), it never gives a wrong result: if two ephemerides constructed from the same initial state are able to evaluate
the trajectory of a body at a given time, they use the same polynomial.  This excludes a time which is the first one of one of the ephemerides only, because it may be that of the junction of two polynomials. -/
theorem C68_deterministic {s s' : System T L D P E I} (hl : Lawful env i0) (h : Reachable env i0 s) (h' : Reachable env i0 s') {b : ℕ} {t : T} {p p' : P} {e e' : State T L D P E I}
    (he : evaluate s.ephemeris b t = some (p, e)) (he' : evaluate s'.ephemeris b t = some (p', e')) (ht : tMin s.ephemeris = some t ↔ tMin s'.ephemeris = some t) : p = p' := by
  obtain ⟨d0⟩ := exists_d0 hl
  obtain ⟨α, n, k, cs, hs⟩ := h.safe hl d0
  obtain ⟨α', n', k', cs', hs'⟩ := h'.safe hl d0
  have key : ∀ {s : System T L D P E I} {α n k : ℕ} {cs : List (T × ℕ × ℕ)} {p : P} {e : State T L D P E I}, Safe env i0 d0 s α n k cs → evaluate s.ephemeris b t = some (p, e) →
      ∃ κ, Covers env.trajectory (env.integrator.time i0) α κ t ∧ α ≤ κ ∧ α < n / 8 ∧ p = polynomialAt env.trajectory (env.integrator.time i0) (points env i0 d0 b) env.trajectory.defaultPolicy κ := by
    intro s α n k cs p e hs he
    unfold evaluate at he
    rw [Option.bind_eq_some_iff] at he
    obtain ⟨x, hx, he⟩ := he
    rw [Option.map_eq_some_iff] at he
    obtain ⟨⟨p1, y⟩, hy, he⟩ := he
    simp only [Prod.mk.injEq] at he
    obtain ⟨rfl, -⟩ := he
    obtain ⟨g1, -, -, κ, g2, -, g3, g4, -⟩ := (hs.eph.trajs.slice b x hx).evaluate_some hl.step_pos hy
    exact ⟨κ, g3, g2, g1, g4⟩
  obtain ⟨κ, c1, c2, c3, rfl⟩ := key hs he
  obtain ⟨κ', c1', c2', c3', rfl⟩ := key hs' he'
  rw [hs.eph.tMin hl, hs'.eph.tMin hl, if_pos c3, if_pos c3', Option.some.injEq, Option.some.injEq] at ht
  have hm := hl.atMono
  have heq : κ = κ' := by
    rcases c1 with ⟨a1 | ⟨a1, a2⟩, a3⟩
    · rcases c1' with ⟨a1' | ⟨a1', a2'⟩, a3'⟩
      · have g1 := hm.lt_iff_lt.1 (lt_of_lt_of_le a1 a3')
        have g2 := hm.lt_iff_lt.1 (lt_of_lt_of_le a1' a3)
        omega
      · subst a1'
        have g1 := ht.2 a2'
        rw [← g1] at a1
        have := hm.lt_iff_lt.1 a1
        omega
    · subst a1
      have g1 := ht.1 a2
      rcases c1' with ⟨a1' | ⟨a1', a2'⟩, a3'⟩
      · rw [← g1] at a1'
        have := hm.lt_iff_lt.1 a1'
        omega
      · subst a1'
        have := hm.injective (a2.trans a2'.symm)
        omega
  rw [heq]

/-- An ephemeris always has the same bodies, and all their trajectories may be evaluated between the bounds of the ephemeris, and nowhere else. -/
theorem C68_evaluate {s : System T L D P E I} (hl : Lawful env i0) (h : Reachable env i0 s) (b : ℕ) (t : T) :
    s.ephemeris.trajectories.length = (env.integrator.state i0).length ∧
    ((evaluate s.ephemeris b t).isSome ↔ b < (env.integrator.state i0).length ∧ ∃ first last, tMin s.ephemeris = some first ∧ tMax s.ephemeris = some last ∧ first ≤ t ∧ t ≤ last) := by
  obtain ⟨d0⟩ := exists_d0 hl
  obtain ⟨α, n, k, cs, hs⟩ := h.safe hl d0
  have hlen := hs.eph.trajs.length
  refine ⟨hlen, ?_⟩
  rw [hs.eph.tMin hl, hs.eph.tMax hl]
  constructor
  · intro he
    obtain ⟨⟨p, e⟩, he⟩ := Option.isSome_iff_exists.1 he
    unfold evaluate at he
    rw [Option.bind_eq_some_iff] at he
    obtain ⟨x, hx, he⟩ := he
    rw [Option.map_eq_some_iff] at he
    obtain ⟨⟨p1, y⟩, hy, he⟩ := he
    obtain ⟨g1, g2, g3, -⟩ := (hs.eph.trajs.slice b x hx).evaluate_some hl.step_pos hy
    refine ⟨by rw [← hlen]; exact (List.getElem?_eq_some_iff.1 hx).1, ?_⟩
    rw [if_pos g1, if_pos g1]
    exact ⟨_, _, rfl, rfl, g2, g3⟩
  · rintro ⟨hb, first, last, h1, h2, h3, h4⟩
    rw [← hlen] at hb
    have hlt : α < n / 8 := by
      by_contra hlt
      rw [if_neg hlt] at h1
      simp at h1
    rw [if_pos hlt, Option.some.injEq] at h1 h2
    subst h1 h2
    obtain ⟨κ, g1, g2, g3⟩ := exists_covers (env := env.trajectory) (t0 := env.integrator.time i0) α (n / 8 - α - 1) h3 (by rw [show α + (n / 8 - α - 1) + 1 = n / 8 by omega]; exact h4)
    have hx := List.getElem?_eq_getElem hb
    obtain ⟨la, hla, he⟩ := (hs.eph.trajs.slice b _ hx).evaluate hl.step_pos g1 (by omega) g3
    unfold evaluate
    rw [hx, Option.bind_some, he]
    rfl

/-! ### Success -/

/-- In any history made of allowed events, the next allowed event succeeds. -/
theorem C68_succeeds {s : System T L D P E I} (hl : Lawful env i0) (h : History env i0 s) {e : Event T} (ha : Allowed env s e) : ∃ fuel s', ∀ fuel', fuel ≤ fuel' → step env fuel' s e = .ok s' := by
  obtain ⟨d0⟩ := exists_d0 hl
  obtain ⟨α, n, k, cs, hs⟩ := h.good hl d0
  obtain ⟨fuel, s', -, -, -, -, h1, -⟩ := hs.step hl ha
  exact ⟨fuel, s', fun fuel' hf => step_mono h1 hf⟩

/-- A prolongation which is not stopped returns OK, and the ephemeris then covers the desired time, unless the number of steps is limited; it still covers the times that it covered. -/
theorem C68_prolong {s : System T L D P E I} (hl : Lawful env i0) (h : History env i0 s) (t : T) (maxSteps : ℤ) :
    ∃ fuel e, (∀ fuel', fuel ≤ fuel' → prolong env fuel' t maxSteps none s.ephemeris = .ok (e, true)) ∧
      ∃ last, tMax e = some last ∧ (t ≤ last ∨ env.integrator.time s.ephemeris.inst + maxSteps • env.trajectory.step ≤ last) ∧
        (∀ first, tMin s.ephemeris = some first → tMin e = some first) ∧ ∀ last', tMax s.ephemeris = some last' → last' ≤ last := by
  obtain ⟨d0⟩ := exists_d0 hl
  obtain ⟨α, n, k, cs, hs⟩ := h.good hl d0
  have hd : During env i0 d0 α cs s.ephemeris.oldestReanimated k s.ephemeris := ⟨rfl, n, k, [], by simpa using hs.core⟩
  obtain ⟨fuel, k', e', ok, h1, h2, h3, ⟨h4, n', k₀, ext, h5⟩, h6, h7⟩ := prolong_total hl hs.core.eph.inst hd t maxSteps none
  have hok := h7 rfl
  subst hok
  have h8 := h6 rfl
  have hn : n ≤ n' := by
    rw [hs.core.n_eq, h5.n_eq]
    exact count_mono h2
  rw [h5.eph.tMax hl] at h8
  have hlt : α < n' / 8 := by
    by_contra hlt
    rw [if_neg hlt] at h8
    simp [beforeBot] at h8
  rw [if_pos hlt] at h8
  simp only [beforeBot, decide_eq_false_iff_not, not_lt] at h8
  refine ⟨fuel, e', ?_, at' env i0 (8 * (n' / 8)), ?_, ?_, ?_, ?_⟩
  · intro fuel' hf
    unfold prolong at h1 ⊢
    exact prolongLoop_mono hf _ _ _ _ _ h1 hf
  · rw [h5.eph.tMax hl, if_pos hlt]
  · unfold desiredTMax at h8
    exact min_le_iff.1 h8
  · intro first hf
    rw [hs.core.eph.tMin hl] at hf
    by_cases hlt' : α < n / 8
    · rw [if_pos hlt'] at hf
      rw [h5.eph.tMin hl, if_pos hlt]
      exact hf
    · rw [if_neg hlt'] at hf
      simp at hf
  · intro last' hl'
    rw [hs.core.eph.tMax hl] at hl'
    by_cases hlt' : α < n / 8
    · rw [if_pos hlt', Option.some.injEq] at hl'
      subst hl'
      exact hl.atMono.monotone (by omega)
    · rw [if_neg hlt'] at hl'
      simp at hl'

/-- A prolongation, whether it is stopped or not, doesn't lose anything. -/
theorem C68_prolong_keeps {s : System T L D P E I} (hl : Lawful env i0) (h : History env i0 s) {t : T} {maxSteps : ℤ} {stop : Stop} {fuel : ℕ} {e : State T L D P E I} {ok : Bool}
    (hp : prolong env fuel t maxSteps stop s.ephemeris = .ok (e, ok)) {first last : T} (hf : tMin s.ephemeris = some first) (hla : tMax s.ephemeris = some last) :
    tMin e = some first ∧ ∃ last', tMax e = some last' ∧ last ≤ last' := by
  obtain ⟨d0⟩ := exists_d0 hl
  obtain ⟨α, n, k, cs, hs⟩ := h.good hl d0
  have hd : During env i0 d0 α cs s.ephemeris.oldestReanimated k s.ephemeris := ⟨rfl, n, k, [], by simpa using hs.core⟩
  obtain ⟨fuel', k', e', ok', h1, h2, h3, ⟨h4, n', k₀, ext, h5⟩, h6, h7⟩ := prolong_total hl hs.core.eph.inst hd t maxSteps stop
  have hee : e' = e := by
    unfold prolong at h1 hp
    have g1 := prolongLoop_mono (le_max_left fuel fuel') _ _ _ _ _ hp (le_max_left fuel fuel')
    have g2 := prolongLoop_mono (le_max_right fuel fuel') _ _ _ _ _ h1 (le_max_right fuel fuel')
    rw [g1, Except.ok.injEq, Prod.mk.injEq] at g2
    exact g2.1.symm
  subst hee
  have hn : n ≤ n' := by
    rw [hs.core.n_eq, h5.n_eq]
    exact count_mono h2
  rw [hs.core.eph.tMin hl] at hf
  rw [hs.core.eph.tMax hl] at hla
  have hlt : α < n / 8 := by
    by_contra hlt
    rw [if_neg hlt] at hf
    simp at hf
  rw [if_pos hlt, Option.some.injEq] at hf hla
  subst hf hla
  refine ⟨by rw [h5.eph.tMin hl, if_pos (by omega)], at' env i0 (8 * (n' / 8)), by rw [h5.eph.tMax hl, if_pos (by omega)], hl.atMono.monotone (by omega)⟩

/-! ### Reanimation -/

/-- When the reanimator is idle and starts reanimating, and nothing interferes with the reanimation, then once it is idle again the ephemeris covers the desired time, or starts at the initial time. -/
theorem C68_reanimation {s s₁ s' : System T L D P E I} (hl : Lawful env i0) (h : History env i0 s) (hi : Idle s) {d : T} {fuel : ℕ} (hs : step env fuel s (.reanimate d) = .ok s₁)
    (hr : Run env (fun s e => Allowed env s e ∧ Undisturbing e) s₁ s') (hi' : Idle s') {first : T} (hf : tMin s'.ephemeris = some first) : first ≤ d ∨ first = env.integrator.time i0 := by
  obtain ⟨d0⟩ := exists_d0 hl
  obtain ⟨α, n, k, cs, hg⟩ := h.good hl d0
  obtain ⟨α₁, n₁, k₁, cs₁, hg₁, hgoal₁⟩ : ∃ α' n' k' cs', Good env i0 d0 s₁ α' n' k' cs' ∧ Goal cs' d (nextFinal s₁) s₁.pending := by
    obtain ⟨l, g1, g2, g3⟩ := segments_spec hg.core.eph (fun r hr => by obtain ⟨c, hc, hc', -⟩ := hg.front r hr; exact ⟨c, hc, hc'⟩) d
    have hs1 := hs
    unfold step at hs1
    simp only at hs1
    rw [if_pos ⟨hi.1, by rw [hi.2]; rfl⟩, g1] at hs1
    simp only [Option.map_some, checked, Except.ok.injEq] at hs1
    have hnf : nextFinal s₁ = s.ephemeris.oldestReanimated := by
      rw [← hs1]
      unfold nextFinal
      simp only [hi.2]
    have hpend : s₁.pending = l := by rw [← hs1]
    have hcore : s₁.ephemeris = s.ephemeris := by rw [← hs1]
    have hcomp : s₁.computed = none := by rw [← hs1]; exact hi.2
    refine ⟨α, n, k, cs, ⟨by rw [hcore]; exact hg.core, ?_, by rw [hcore]; exact hg.front, fun tI l h' => by rw [hcomp] at h'; simp at h', by rw [hnf, hpend]; exact g2⟩, by rw [hnf, hpend]; exact g3⟩
    intro hn
    rw [hcore] at hn
    refine ⟨(hg.none hn).1, ?_, hcomp⟩
    rw [hpend]
    rw [hn] at g2
    cases l with
    | nil => rfl
    | cons q l => obtain ⟨a, b⟩ := q; exact absurd g2.1 (by simp)
  obtain ⟨α', n', k', cs', hg', hgoal'⟩ : ∃ α' n' k' cs', Good env i0 d0 s' α' n' k' cs' ∧ Goal cs' d (nextFinal s') s'.pending := by
    clear hi' hf
    induction hr with
    | refl => exact ⟨α₁, n₁, k₁, cs₁, hg₁, hgoal₁⟩
    | step fuel _ ha hs ih =>
      obtain ⟨α, n, k, cs, g1, g2⟩ := ih
      obtain ⟨α', n', k', cs', g3, g4⟩ := g1.next hl ha.1 hs
      exact ⟨α', n', k', cs', g3, g4 d ha.2 g2⟩
  rw [hg'.core.eph.tMin hl] at hf
  have hlt : α' < n' / 8 := by
    by_contra hlt
    rw [if_neg hlt] at hf
    simp at hf
  rw [if_pos hlt, Option.some.injEq] at hf
  subst hf
  have hnf : nextFinal s' = s'.ephemeris.oldestReanimated := by
    unfold nextFinal
    simp only [hi'.2]
  rw [hi'.1, hnf] at hgoal'
  have hzero : α' = 0 → at' env i0 (8 * α') = env.integrator.time i0 := by
    rintro rfl
    exact timeAt_zero
  cases ho : s'.ephemeris.oldestReanimated with
  | none => exact Or.inr (hzero (hg'.none ho).1)
  | some r =>
    obtain ⟨c, h1, h2, h3, -⟩ := hg'.front r ho
    obtain ⟨h4, h5⟩ := hg'.core.entries c h1
    have hle : at' env i0 c.2.2 ≤ c.1 := by
      rw [h4, h5]
      exact hl.time_ge _
    rcases hgoal' r ho with h6 | h6
    · left
      calc at' env i0 (8 * α') ≤ at' env i0 c.2.2 := hl.atMono.monotone (by omega)
        _ ≤ c.1 := hle
        _ = r := h2
        _ ≤ d := h6
    · right
      apply hzero
      rw [Option.map_eq_some_iff] at h6
      obtain ⟨c0, h7, h8⟩ := h6
      have h9 := hg'.core.eph.oldest c0 h7
      rw [h8, ← h2] at h9
      have := hl.atMono.lt_iff_lt.1 (lt_of_le_of_lt hle h9)
      omega

/-- The events by which the reanimator progresses. -/
def ReanimatorOnly (_ : System T L D P E I) (e : Event T) : Prop := e = .compute none ∨ e = .stitch

/-- The work of the reanimator terminates if it is not stopped. -/
theorem C68_reanimation_terminates {s : System T L D P E I} (hl : Lawful env i0) (h : History env i0 s) : ∃ s', Run env ReanimatorOnly s s' ∧ Run env (fun s e => Allowed env s e ∧ Undisturbing e) s s' ∧ Idle s' := by
  obtain ⟨d0⟩ := exists_d0 hl
  obtain ⟨α, n, k, cs, hg⟩ := h.good hl d0
  have key : ∀ (m : ℕ) (s' : System T L D P E I), Run env ReanimatorOnly s s' → Run env (fun s e => Allowed env s e ∧ Undisturbing e) s s' → (∃ α n k cs, Good env i0 d0 s' α n k cs) →
      2 * s'.pending.length + (if s'.computed.isSome then 1 else 0) ≤ m → ∃ s', Run env ReanimatorOnly s s' ∧ Run env (fun s e => Allowed env s e ∧ Undisturbing e) s s' ∧ Idle s' := by
    intro m
    induction m with
    | zero =>
      intro s' h1 h2 _ hm
      refine ⟨s', h1, h2, List.length_eq_zero_iff.1 (by omega), ?_⟩
      cases hc : s'.computed with
      | none => rfl
      | some c => rw [hc] at hm; simp at hm
    | succ m ih =>
      rintro s' h1 h2 ⟨α, n, k, cs, hg⟩ hm
      cases hc : s'.computed with
      | some c =>
        obtain ⟨fuel, s'', α', n', k', cs', g1, g2, -⟩ := hg.step hl (e := .stitch) trivial
        refine ih s'' (.step fuel h1 (Or.inr rfl) g1) (.step (e := .stitch) fuel h2 ⟨trivial, trivial⟩ g1) ⟨_, _, _, _, g2⟩ ?_
        unfold step at g1
        simp only [hc] at g1
        have g1 := checked_ok g1
        rw [Option.map_eq_some_iff] at g1
        obtain ⟨e, -, rfl⟩ := g1
        rw [hc] at hm
        simp at hm ⊢
        omega
      | none =>
        cases hp : s'.pending with
        | nil => exact ⟨s', h1, h2, hp, hc⟩
        | cons q l =>
          obtain ⟨tI, tF⟩ := q
          have hall : Allowed env s' (.compute none) := by
            intro m _ _ _ _ hm
            simp at hm
          obtain ⟨fuel, s'', α', n', k', cs', g1, g2, -⟩ := hg.step hl (e := .compute none) hall
          refine ih s'' (.step fuel h1 (Or.inl rfl) g1) (.step fuel h2 ⟨hall, rfl⟩ g1) ⟨_, _, _, _, g2⟩ ?_
          unfold step at g1
          simp only [hc, hp] at g1
          rw [hc, hp] at hm
          simp at hm
          cases hcs : computeSegment env fuel none s'.ephemeris tI tF with
          | error e => rw [hcs] at g1; simp at g1
          | ok o =>
            rw [hcs] at g1
            cases o with
            | none =>
              simp only [Except.ok.injEq] at g1
              rw [← g1]
              simp
            | some l' =>
              simp only [Except.ok.injEq] at g1
              rw [← g1]
              simp
              omega
  exact key _ s (.refl s) (.refl s) ⟨α, n, k, cs, hg⟩ le_rfl

/-- Saving an ephemeris and loading it, then reanimating it and prolonging it, yields an ephemeris which gives the same results as the original one at all the times that the latter covered, except maybe for the first one. -/
theorem C68_round_trip {s s₁ s₂ s₃ : System T L D P E I} (hl : Lawful env i0) (h : History env i0 s) {first last last' t : T} (hf : tMin s.ephemeris = some first) (hla : tMax s.ephemeris = some last) {fuel₁ fuel₂ : ℕ}
    (hload : Allowed env s (.load t)) (h₁ : step env fuel₁ s (.load t) = .ok s₁) (h₂ : step env fuel₂ s₁ (.reanimate first) = .ok s₂) (h₃ : Run env (fun s e => Allowed env s e ∧ Undisturbing e) s₂ s₃) (hi : Idle s₃)
    (hla' : tMax s₃.ephemeris = some last') (hle : last ≤ last') {b : ℕ} {t' : T} (ht' : t' ≠ first) {p : P} {e : State T L D P E I} (he : evaluate s.ephemeris b t' = some (p, e)) :
    ∃ e', evaluate s₃.ephemeris b t' = some (p, e') := by
  have hist₁ : History env i0 s₁ := by
    obtain ⟨e, he, hr⟩ := h
    exact ⟨e, he, .step fuel₁ hr hload h₁⟩
  have hidle : Idle s₁ := by
    unfold step at h₁
    have h₁ := checked_ok h₁
    rw [Option.map_eq_some_iff] at h₁
    obtain ⟨e, -, rfl⟩ := h₁
    exact ⟨rfl, rfl⟩
  have hist₃ : Reachable env i0 s₃ := by
    obtain ⟨e, he, hr⟩ := hist₁.reachable
    refine ⟨e, he, ?_⟩
    have hr2 := Run.step fuel₂ hr trivial h₂
    clear hla' hi
    induction h₃ with
    | refl => exact hr2
    | step fuel _ _ hs ih => exact .step fuel ih trivial hs
  obtain ⟨d0⟩ := exists_d0 hl
  obtain ⟨α₃, n₃, k₃, cs₃, hs₃⟩ := hist₃.safe hl d0
  have hlt : α₃ < n₃ / 8 := by
    by_contra hlt
    rw [hs₃.eph.tMax hl, if_neg hlt] at hla'
    simp at hla'
  have hfirst : tMin s₃.ephemeris = some (at' env i0 (8 * α₃)) := by rw [hs₃.eph.tMin hl, if_pos hlt]
  have hff : at' env i0 (8 * α₃) ≤ first := by
    rcases C68_reanimation hl hist₁ hidle h₂ h₃ hi hfirst with h4 | h4
    · exact h4
    · rw [h4]
      obtain ⟨α, n, k, cs, hg⟩ := h.good hl d0
      rw [hg.core.eph.tMin hl] at hf
      by_cases hlt' : α < n / 8
      · rw [if_pos hlt', Option.some.injEq] at hf
        rw [← hf, ← timeAt_zero (env := env.trajectory) (t0 := env.integrator.time i0)]
        exact hl.atMono.monotone (Nat.zero_le _)
      · rw [if_neg hlt'] at hf
        simp at hf
  obtain ⟨hb, f, l, hf', hl', hft, htl⟩ := (C68_evaluate hl h.reachable b t').2.1 (by rw [he]; rfl)
  rw [hf, Option.some.injEq] at hf'
  rw [hla, Option.some.injEq] at hl'
  subst hf' hl'
  obtain ⟨⟨p', e'⟩, he'⟩ := Option.isSome_iff_exists.1 ((C68_evaluate hl hist₃ b t').2.2 ⟨hb, _, _, hfirst, hla', hff.trans hft, htl.trans hle⟩)
  refine ⟨e', ?_⟩
  rw [he', C68_deterministic hl h.reachable hist₃ he he']
  rw [hf, hfirst, Option.some.injEq, Option.some.injEq]
  constructor
  · intro h'
    exact absurd h'.symm ht'
  · intro h'
    rw [h'] at hff
    exact absurd (le_antisymm hff hft) ht'

end Theorems

/-! ### Example -/

namespace Example

/-- Two bodies.  The instances are numbered; the first four steps are those of the startup, and one out of two is appended to the trajectories.  The polynomials are represented by their degree and their first point. -/
def env : Env ℤ ℚ ℕ (ℕ × ℕ) Unit ℕ where
  trajectory := { ContinuousTrajectory.Example.env with step := 2 }
  integrator :=
    { time := fun k => if k ≤ 4 then k else 2 * k - 4
      dt := fun k => if k < 4 then 1 else 2
      advance := fun k => k + 1
      appends := fun k => decide (4 < k) || k % 2 == 0
      started := fun k => decide (4 ≤ k)
      state := fun k => [k, 100 + k] }
  maxTimeBetweenCheckpoints := 16

theorem orbit_eq (k : ℕ) : orbit env 0 k = k := by
  unfold orbit
  induction k with
  | zero => rfl
  | succ k ih => rw [Function.iterate_succ_apply', ih]; rfl

theorem count_eq (k : ℕ) : count env 0 k = if k ≤ 4 then k / 2 else k - 2 := by
  induction k with
  | zero => rfl
  | succ k ih =>
    rw [count, ih, orbit_eq]
    simp only [env, Bool.or_eq_true, decide_eq_true_eq, beq_iff_eq]
    split_ifs <;> omega

theorem lawful : Lawful env 0 := by
  refine ⟨by decide, by decide, ?_, ?_, ?_, ?_, fun k => rfl, by decide, ?_, ?_, rfl⟩
  · intro k
    simp only [env]
    split_ifs <;> norm_num
  · intro k
    rw [orbit_eq, orbit_eq]
    simp only [env]
    split_ifs <;> push_cast <;> omega
  · intro k h
    rw [count_eq]
    rw [orbit_eq] at h ⊢
    simp only [env, Bool.or_eq_true, decide_eq_true_eq, beq_iff_eq] at h
    simp only [env, nsmul_eq_mul]
    split_ifs <;> push_cast <;> omega
  · intro k
    rw [count_eq, orbit_eq]
    simp only [env, nsmul_eq_mul]
    split_ifs <;> push_cast <;> omega
  · intro k h
    rw [orbit_eq] at h ⊢
    simp only [env, decide_eq_true_eq] at h ⊢
    omega
  · intro t
    refine ⟨t.toNat + 5, ?_⟩
    rw [orbit_eq]
    simp only [env]
    rw [if_neg (by omega)]
    push_cast
    omega

/-- The steps of a list of events. -/
def steps (fuel : ℕ) : System ℤ ℚ ℕ (ℕ × ℕ) Unit ℕ → List (Event ℤ) → Except Failure (System ℤ ℚ ℕ (ℕ × ℕ) Unit ℕ)
  | s, [] => .ok s
  | s, e :: l =>
    match step env fuel s e with
    | .error f => .error f
    | .ok s' => steps fuel s' l

/-- The outcome of a list of events, from the initial state: the bounds of the ephemeris, the number of pending segments, and whether a segment has been computed. -/
def outcome (l : List (Event ℤ)) : Option (Except Failure (Option ℤ × Option ℤ × ℕ × Bool)) :=
  (create env 0).map fun s =>
    match steps 100 ⟨s, [], none⟩ l with
    | .error f => .error f
    | .ok s => .ok (tMin s.ephemeris, tMax s.ephemeris, s.pending.length, s.computed.isSome)

/-- The polynomial used for a body after a list of events. -/
def evaluation (l : List (Event ℤ)) (b : ℕ) (t : ℤ) : Option (ℕ × ℕ) :=
  (create env 0).bind fun s =>
    match steps 100 ⟨s, [], none⟩ l with
    | .error _ => none
    | .ok s => (evaluate s.ephemeris b t).map Prod.fst

/-- A prolongation. -/
def prolonged : List (Event ℤ) := [.prolong 100 1000 none]
/-- Then a save and a load. -/
def loaded : List (Event ℤ) := prolonged ++ [.evaluate 1 17, .save, .load 50]
/-- Then a prolongation and a reanimation. -/
def reanimated : List (Event ℤ) := loaded ++ [.prolong 90 1000 none, .reanimate 0, .compute none, .prolong 95 1000 (some 3), .stitch, .compute none, .stitch]

/-- The checkpoints of the reanimation. -/
example : ((create env 0).map fun s => match steps 100 ⟨s, [], none⟩ prolonged with | .error _ => [] | .ok s => s.ephemeris.checkpoints.map Prod.fst) = some [2, 20, 38, 56, 74, 92, 110] := by decide +kernel

/-- Whether an event is allowed. -/
def allowed (s : System ℤ ℚ ℕ (ℕ × ℕ) Unit ℕ) : Event ℤ → Bool
  | .prolong _ _ stop => stop.isNone || (tMin s.ephemeris).isSome
  | .evaluate b t => decide (b < s.ephemeris.trajectories.length) && (match tMin s.ephemeris, tMax s.ephemeris with | some first, some last => decide (first ≤ t) && decide (t ≤ last) | _, _ => false)
  | .load desired => decide (((Checkpointer.oldest s.ephemeris.checkpoints).getD (env.integrator.time s.ephemeris.inst)) ≤ desired)
  | .compute stop => stop.isNone
  | _ => true

theorem allowed_correct {s : System ℤ ℚ ℕ (ℕ × ℕ) Unit ℕ} {e : Event ℤ} (h : allowed s e = true) : Allowed env s e := by
  cases e with
  | prolong t m stop => simpa [allowed, Allowed] using h
  | evaluate b t =>
    simp only [allowed, Bool.and_eq_true, decide_eq_true_eq] at h
    refine ⟨h.1, ?_⟩
    cases h1 : tMin s.ephemeris with
    | none => rw [h1] at h; simp at h
    | some first =>
      cases h2 : tMax s.ephemeris with
      | none => rw [h1, h2] at h; simp at h
      | some last =>
        rw [h1, h2] at h
        simp only [Bool.and_eq_true, decide_eq_true_eq] at h
        exact ⟨first, last, rfl, rfl, h.2⟩
  | save => trivial
  | load d => simpa [allowed, Allowed] using h
  | reanimate d => trivial
  | compute stop =>
    intro m _ _ _ _ hm
    rw [hm] at h
    simp [allowed] at h
  | stitch => trivial

/-- Whether the events of a list succeed and are all allowed. -/
def allAllowed (fuel : ℕ) : System ℤ ℚ ℕ (ℕ × ℕ) Unit ℕ → List (Event ℤ) → Bool
  | _, [] => true
  | s, e :: l => allowed s e && (match step env fuel s e with | .error _ => false | .ok s' => allAllowed fuel s' l)

theorem run_of_allAllowed {fuel : ℕ} {s s' : System ℤ ℚ ℕ (ℕ × ℕ) Unit ℕ} {l : List (Event ℤ)} (hr : Run env (Allowed env) s s') (h : allAllowed fuel s' l = true) : ∃ s'', steps fuel s' l = .ok s'' ∧ Run env (Allowed env) s s'' := by
  induction l generalizing s' with
  | nil => exact ⟨s', rfl, hr⟩
  | cons e l ih =>
    simp only [allAllowed, Bool.and_eq_true] at h
    cases hs : step env fuel s' e with
    | error f => rw [hs] at h; simp at h
    | ok s₁ =>
      rw [hs] at h
      obtain ⟨s'', h1, h2⟩ := ih (.step fuel hr (allowed_correct h.1) hs) h.2
      refine ⟨s'', ?_, h2⟩
      rw [steps, hs]
      exact h1

/-- The events of the example are allowed, so it is a history. -/
example : ∃ s₀ s, create env 0 = some s₀ ∧ steps 100 ⟨s₀, [], none⟩ reanimated = .ok s ∧ History env 0 s := by
  cases hc : create env 0 with
  | none => exact absurd hc (by decide +kernel)
  | some s₀ =>
    have h : ((create env 0).map fun s => allAllowed 100 ⟨s, [], none⟩ reanimated) = some true := by decide +kernel
    rw [hc, Option.map_some, Option.some.injEq] at h
    obtain ⟨s, h1, h2⟩ := run_of_allAllowed (.refl _) h
    exact ⟨s₀, s, rfl, h1, s₀, hc, h2⟩

example : outcome prolonged = some (.ok (some 0, some 112, 0, false)) := by decide +kernel
example : outcome loaded = some (.ok (none, none, 0, false)) := by decide +kernel
example : outcome reanimated = some (.ok (some 0, some 96, 0, false)) := by decide +kernel
example : evaluation prolonged 1 17 = some (5, 110) ∧ evaluation loaded 1 17 = none ∧ evaluation reanimated 1 17 = some (5, 110) := by decide +kernel
example : evaluation prolonged 2 17 = none := by decide +kernel

/-- A time which is the first one of an ephemeris only: the results differ. -/
theorem C68_deterministic_counterexample :
    outcome (loaded ++ [.prolong 90 1000 none, .reanimate 20, .compute none, .stitch]) = some (.ok (some 16, some 96, 0, false)) ∧
    evaluation (loaded ++ [.prolong 90 1000 none, .reanimate 20, .compute none, .stitch]) 0 16 = some (5, 10) ∧ evaluation prolonged 0 16 = some (5, 0) := ⟨by decide +kernel, by decide +kernel, by decide +kernel⟩

/-- If the reanimator is stopped while the integrator is being started, the reanimation of the segment is deemed successful, and the ephemeris never covers the desired time, even if a reanimation is requested again. -/
theorem C68_reanimation_stopped_counterexample :
    outcome (loaded ++ [.prolong 90 1000 none, .reanimate 0, .compute none, .stitch, .compute (some 0), .stitch]) = some (.ok (some 16, some 96, 0, false)) ∧
    outcome (loaded ++ [.prolong 90 1000 none, .reanimate 0, .compute none, .stitch, .compute (some 0), .stitch, .reanimate 0]) = some (.ok (some 16, some 96, 0, false)) ∧
    outcome (loaded ++ [.prolong 90 1000 none, .reanimate 0, .compute none, .stitch, .compute none, .stitch]) = some (.ok (some 0, some 96, 0, false)) := ⟨by decide +kernel, by decide +kernel, by decide +kernel⟩

/-- If a prolongation is stopped when the ephemeris is empty, a reanimation overwrites its last points, and the next prolongation fails. -/
theorem C68_stopped_prolong_counterexample :
    outcome (loaded ++ [.reanimate 0, .compute none, .prolong 90 1000 (some 0), .stitch]) = some (.ok (some 16, some 32, 1, false)) ∧
    outcome (loaded ++ [.reanimate 0, .compute none, .prolong 90 1000 (some 0), .stitch, .prolong 90 1000 none]) = some (.error .crashed) := ⟨by decide +kernel, by decide +kernel⟩

end Example

end Principia.Ephemeris
