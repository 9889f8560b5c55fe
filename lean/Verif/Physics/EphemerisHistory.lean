import Verif.Physics.EphemerisProgress

/-!
# The histories of an ephemeris: the calls that are allowed, and what they preserve
-/

set_option linter.unusedSimpArgs false
set_option linter.unusedVariables false
set_option linter.unusedSectionVars false

namespace Principia.Ephemeris

open Principia.SortedMap Principia.ContinuousTrajectory Principia.Checkpointer

variable {T L D P E I : Type} [AddCommGroup T] [LinearOrder T] [IsOrderedAddMonoid T] [Field L] [LinearOrder L]

/-- The calls that are expected to succeed.  A prolongation must not be stopped if the ephemeris is empty; an evaluation must be for a body of the ephemeris and inside of its bounds; the time passed when loading must not be before
the oldest checkpoint, which is the current time if there is no checkpoint, as one is written in this case; the reanimator must not be stopped before the integrator has been started. -/
def Allowed (env : Env T L D P E I) (s : System T L D P E I) : Event T → Prop
  | .prolong _ _ stop => stop = none ∨ (tMin s.ephemeris).isSome
  | .evaluate b t => b < s.ephemeris.trajectories.length ∧ ∃ first last, tMin s.ephemeris = some first ∧ tMax s.ephemeris = some last ∧ first ≤ t ∧ t ≤ last
  | .save => True
  | .load desired => ((Checkpointer.oldest s.ephemeris.checkpoints).getD (env.integrator.time s.ephemeris.inst)) ≤ desired
  | .reanimate _ => True
  | .compute stop => ∀ m tI tF l i, stop = some m → s.pending = (tI, tF) :: l → Checkpointer.readAt s.ephemeris.checkpoints tI = some i → env.integrator.started (env.integrator.advance^[m + 1] i) = true
  | .stitch => True

/-- The events that don't interfere with a reanimation: it is not replaced or stopped. -/
def Undisturbing : Event T → Prop
  | .load _ => False
  | .reanimate _ => False
  | .compute stop => stop = none
  | _ => True

/-- The reanimator has nothing to do. -/
def Idle (s : System T L D P E I) : Prop := s.pending = [] ∧ s.computed = none

variable {env : Env T L D P E I} {i0 : I} {d0 : D}

/-! ### The segments -/

/-- The segments that are yet to be computed are contiguous, and the last of them ends at `o`. -/
def Chain (cs : List (T × ℕ × ℕ)) : Option T → List (T × T) → Prop
  | _, [] => True
  | o, (a, b) :: l => o = some b ∧ a < b ∧ (∃ c ∈ cs, c.1 = a) ∧ Chain cs (some a) l

/-- Once the segments have been reanimated, the oldest checkpoint reanimated is before `d`, or is the oldest one. -/
def Goal (cs : List (T × ℕ × ℕ)) (d : T) : Option T → List (T × T) → Prop
  | o, [] => ∀ r, o = some r → r ≤ d ∨ cs.head?.map Prod.fst = some r
  | _, (a, _) :: l => Goal cs d (some a) l

theorem Chain.mono {cs ext : List (T × ℕ × ℕ)} : ∀ {o : Option T} {l : List (T × T)}, Chain cs o l → Chain (cs ++ ext) o l
  | _, [], _ => trivial
  | _, (a, b) :: l, h => ⟨h.1, h.2.1, by obtain ⟨c, hc, he⟩ := h.2.2.1; exact ⟨c, List.mem_append_left _ hc, he⟩, h.2.2.2.mono⟩

theorem Goal.mono {cs ext : List (T × ℕ × ℕ)} {d : T} : ∀ {o : Option T} {l : List (T × T)}, Goal cs d o l → Goal (cs ++ ext) d o l
  | _, [], h => fun r hr => by
    rcases h r hr with h1 | h1
    · exact Or.inl h1
    · right
      cases cs with
      | nil => simp at h1
      | cons c cs => simpa using h1
  | _, (a, _) :: l, h => Goal.mono (cs := cs) (o := some a) (l := l) h

/-- The pairs of consecutive elements of a list. -/
def pairs : List T → List (T × T)
  | a :: b :: l => (b, a) :: pairs (b :: l)
  | _ => []

theorem zip_tail_reverse : ∀ l : List T, (l.reverse.zip l.reverse.tail).reverse = pairs l
  | [] => rfl
  | [a] => rfl
  | a :: b :: l => by
    have ih := zip_tail_reverse (b :: l)
    have hz : ∀ B : List T, (B ++ [b] ++ [a]).zip (B ++ [b] ++ [a]).tail = (B ++ [b]).zip (B ++ [b]).tail ++ [(b, a)] := by
      intro B
      have h1 : (B ++ [b] ++ [a]).tail = (B ++ [b]).tail ++ [a] := by cases B <;> simp
      have h2 : B.length = ((B ++ [b]).tail).length := by simp
      rw [h1, List.append_assoc, List.zip_append h2]
      conv_rhs => rw [show (B ++ [b]).tail = (B ++ [b]).tail ++ [] by simp]
      rw [List.zip_append h2]
      simp
    have h3 : (a :: b :: l).reverse = l.reverse ++ [b] ++ [a] := by simp
    have h4 : (b :: l).reverse = l.reverse ++ [b] := by simp
    rw [h3, hz, List.reverse_append, ← h4, ih]
    rfl

theorem chain_pairs {cs : List (T × ℕ × ℕ)} : ∀ {a : T} {l : List T}, (a :: l).Pairwise (fun x y => y < x) → (∀ x ∈ l, ∃ c ∈ cs, c.1 = x) → Chain cs (some a) (pairs (a :: l))
  | a, [], _, _ => trivial
  | a, b :: l, h, hm => ⟨rfl, (List.pairwise_cons.1 h).1 b (by simp), hm b (by simp), chain_pairs (List.pairwise_cons.1 h).2 fun x hx => hm x (by simp [hx])⟩

theorem goal_pairs {cs : List (T × ℕ × ℕ)} {d : T} : ∀ {a : T} {l : List T}, (∀ z, (a :: l).getLast? = some z → z ≤ d ∨ cs.head?.map Prod.fst = some z) → Goal cs d (some a) (pairs (a :: l))
  | a, [], h => fun r hr => by simp only [Option.some.injEq] at hr; subst hr; exact h a rfl
  | a, b :: l, h => goal_pairs (a := b) (l := l) fun z hz => h z (by rw [List.getLast?_cons_cons]; exact hz)

/-- The checkpoints between two times, the last of which is that of a checkpoint. -/
theorem filter_between {cs : List (T × ℕ × ℕ)} (hs : Sorted cs) {c : T × ℕ × ℕ} (hc : c ∈ cs) (p : T → Bool) (hp : p c.1 = true) :
    ∃ l, ((cs.filter fun a => p a.1 && decide (a.1 ≤ c.1)).map Prod.fst).reverse = c.1 :: l ∧ (c.1 :: l).Pairwise (fun x y => y < x) ∧ (∀ x ∈ c.1 :: l, (∃ c' ∈ cs, c'.1 = x) ∧ p x = true ∧ x ≤ c.1) := by
  have hpw : (((cs.filter fun a => p a.1 && decide (a.1 ≤ c.1)).map Prod.fst).reverse).Pairwise (fun x y => y < x) := by
    rw [List.pairwise_reverse, List.pairwise_map]
    exact hs.filter _
  have hmem : ∀ x, x ∈ ((cs.filter fun a => p a.1 && decide (a.1 ≤ c.1)).map Prod.fst).reverse ↔ (∃ c' ∈ cs, c'.1 = x) ∧ p x = true ∧ x ≤ c.1 := by
    intro x
    rw [List.mem_reverse, List.mem_map]
    constructor
    · rintro ⟨a, ha, rfl⟩
      rw [List.mem_filter] at ha
      simp only [Bool.and_eq_true, decide_eq_true_eq] at ha
      exact ⟨⟨a, ha.1, rfl⟩, ha.2⟩
    · rintro ⟨⟨a, ha, rfl⟩, h1, h2⟩
      exact ⟨a, List.mem_filter.2 ⟨ha, by simp [h1, h2]⟩, rfl⟩
  have hcm := (hmem c.1).2 ⟨⟨c, hc, rfl⟩, hp, le_rfl⟩
  cases hl : ((cs.filter fun a => p a.1 && decide (a.1 ≤ c.1)).map Prod.fst).reverse with
  | nil => rw [hl] at hcm; simp at hcm
  | cons z l =>
    rw [hl] at hpw hmem hcm
    have hz : z = c.1 := by
      rcases List.mem_cons.1 hcm with h1 | h1
      · exact h1.symm
      · have h2 := (List.pairwise_cons.1 hpw).1 c.1 h1
        have h3 := ((hmem z).1 (by simp)).2.2
        exact absurd h2 (not_lt.2 h3)
    subst hz
    exact ⟨l, rfl, hpw, fun x hx => (hmem x).1 hx⟩

theorem getLast_least {a : T} {l : List T} (h : (a :: l).Pairwise (fun x y => y < x)) {z : T} (hz : (a :: l).getLast? = some z) : z ∈ a :: l ∧ ∀ x ∈ a :: l, z ≤ x := by
  obtain ⟨l', hl'⟩ := List.getLast?_eq_some_iff.1 hz
  rw [hl'] at h ⊢
  refine ⟨by simp, ?_⟩
  intro x hx
  rcases List.mem_append.1 hx with h1 | h1
  · exact ((List.pairwise_append.1 h).2.2 x h1 z (by simp)).le
  · simp at h1; rw [h1]

theorem head_least' {cs : List (T × ℕ × ℕ)} (hs : Sorted cs) {z : T} (hz : ∃ c ∈ cs, c.1 = z) (hmin : ∀ c ∈ cs, z ≤ c.1) : cs.head?.map Prod.fst = some z := by
  obtain ⟨c, hc, rfl⟩ := hz
  cases cs with
  | nil => simp at hc
  | cons c' cs =>
    rcases List.mem_cons.1 hc with h1 | h1
    · rw [h1]; rfl
    · exact absurd ((List.pairwise_cons.1 hs).1 c h1) (not_lt.2 (hmin c' (by simp)))

/-- The segments are contiguous and reach the target. -/
theorem segments_spec {s : State T L D P E I} {α n k : ℕ} {cs : List (T × ℕ × ℕ)} (h : Eph env i0 d0 s α n k cs) (hr : ∀ r, s.oldestReanimated = some r → ∃ c ∈ cs, c.1 = r) (d : T) :
    ∃ l, segments s d = some l ∧ Chain cs s.oldestReanimated l ∧ Goal cs d s.oldestReanimated l := by
  unfold segments
  rw [h.checkpoints, atOrBefore_mapValues]
  cases ho : s.oldestReanimated with
  | none =>
    refine ⟨[], by cases Checkpointer.atOrBefore cs d <;> rfl, trivial, fun r hr' => by simp at hr'⟩
  | some r =>
    obtain ⟨c, hc, rfl⟩ := hr r ho
    have hmk : ∀ (l : List T) (p : T → Bool) (hp : p c.1 = true), l = (cs.filter fun a => p a.1 && decide (a.1 ≤ c.1)).map Prod.fst → (∀ x, p x = true → x ≤ c.1 → (∃ c' ∈ cs, c'.1 = x) → (∀ y, p y = true → y ≤ c.1 → (∃ c' ∈ cs, c'.1 = y) → x ≤ y) → x ≤ d ∨ cs.head?.map Prod.fst = some x) →
        Chain cs (some c.1) (l.zip l.tail).reverse ∧ Goal cs d (some c.1) (l.zip l.tail).reverse := by
      intro l p hp hl hg
      obtain ⟨l', h1, h2, h3⟩ := filter_between h.sorted hc p hp
      have h4 : l = (c.1 :: l').reverse := by rw [hl, ← h1, List.reverse_reverse]
      rw [h4, zip_tail_reverse]
      refine ⟨chain_pairs h2 fun x hx => (h3 x (by simp [hx])).1, goal_pairs ?_⟩
      intro z hz
      obtain ⟨g1, g2⟩ := getLast_least h2 hz
      refine hg z (h3 z g1).2.1 (h3 z g1).2.2 (h3 z g1).1 ?_
      intro y hy1 hy2 hy3
      apply g2
      rw [← h1, List.mem_reverse, List.mem_map]
      obtain ⟨c', hc', rfl⟩ := hy3
      exact ⟨c', List.mem_filter.2 ⟨hc', by simp [hy1, hy2]⟩, rfl⟩
    by_cases hub : upperBound cs d = 0
    · have hab : Checkpointer.atOrBefore cs d = none := by
        unfold Checkpointer.atOrBefore
        simp only
        rw [if_pos hub]
      rw [hab]
      simp only [checkpointsBetween, Option.map_some]
      refine ⟨_, rfl, hmk _ (fun _ => true) rfl ?_ ?_⟩
      · unfold Checkpointer.allAtOrBefore
        rw [upperBound_mapValues, mapValues, ← List.map_take, List.map_map, take_upperBound h.sorted]
        simp only [Bool.true_and]
        rfl
      · intro x _ hx hxm hmin
        right
        apply head_least' h.sorted hxm
        intro c' hc'
        by_cases hle : c'.1 ≤ c.1
        · exact hmin _ rfl hle ⟨c', hc', rfl⟩
        · exact hx.trans (not_le.1 hle).le
    · obtain ⟨c1, hc1, hc2, hc3, hc4, -⟩ := upperBound_pred h.sorted hub
      have hab : Checkpointer.atOrBefore cs d = some c1.1 := by
        unfold Checkpointer.atOrBefore
        simp only
        rw [if_neg hub, hc1]
        rfl
      rw [hab]
      simp only [checkpointsBetween]
      unfold Checkpointer.allBetween
      by_cases hlt : c.1 < c1.1
      · rw [if_pos hlt]
        refine ⟨[], rfl, trivial, ?_⟩
        intro r hr'
        simp only [Option.some.injEq] at hr'
        subst hr'
        exact Or.inl (hlt.le.trans hc3)
      · rw [if_neg hlt]
        have hle : c1.1 ≤ c.1 := not_lt.1 hlt
        simp only [upperBound_mapValues, lowerBound_mapValues]
        rw [if_neg (not_lt.2 (lowerBound_le_upperBound h.sorted hle))]
        simp only [Option.map_some]
        refine ⟨_, rfl, hmk _ (fun x => decide (c1.1 ≤ x)) (by simpa using hle) ?_ ?_⟩
        · rw [mapValues, ← List.map_drop, ← List.map_take, List.map_map]
          have : ((cs.drop (lowerBound cs c1.1)).take (upperBound cs c.1 - lowerBound cs c1.1)) = cs.filter fun a => decide (c1.1 ≤ a.1) && decide (a.1 ≤ c.1) := by
            rw [← List.drop_take, take_upperBound h.sorted]
            have hlb : lowerBound cs c1.1 = lowerBound (cs.filter fun a => decide (a.1 ≤ c.1)) c1.1 := by
              have hs' : Sorted (cs.filter fun a => decide (a.1 ≤ c.1)) := h.sorted.filter _
              have g1 := congrArg List.length (take_lowerBound h.sorted c1.1)
              have g2 := congrArg List.length (take_lowerBound hs' c1.1)
              rw [List.length_take, Nat.min_eq_left (lowerBound_le _ _)] at g1 g2
              rw [g1, g2, List.filter_filter]
              congr 1
              apply List.filter_congr
              intro a _
              by_cases ha : a.1 < c1.1
              · simp [ha, (ha.le.trans hle)]
              · simp [ha]
            rw [hlb, drop_lowerBound (h.sorted.filter _), List.filter_filter]
          rw [this]
          rfl
        · intro x hx1 hx2 hxm hmin
          left
          simp only [decide_eq_true_eq] at hx1
          exact (hmin c1.1 (by simp) hle ⟨c1, hc2, rfl⟩).trans hc3

/-! ### The invariant -/

/-- The checkpoint that the next segment must end at. -/
def nextFinal (s : System T L D P E I) : Option T :=
  match s.computed with
  | some (tI, _) => some tI
  | none => s.ephemeris.oldestReanimated

structure Good (env : Env T L D P E I) (i0 : I) (d0 : D) (s : System T L D P E I) (α n k : ℕ) (cs : List (T × ℕ × ℕ)) : Prop where
  core : Core env i0 d0 s.ephemeris α n k k cs
  none : s.ephemeris.oldestReanimated = none → α = 0 ∧ s.pending = [] ∧ s.computed = none
  front : ∀ r, s.ephemeris.oldestReanimated = some r → ∃ c ∈ cs, c.1 = r ∧ c.2.2 / 8 = α ∧ (α < n / 8 ∨ c.2.2 = n)
  computed : ∀ tI l, s.computed = some (tI, l) → ∃ r, s.ephemeris.oldestReanimated = some r ∧ ∃ c ∈ cs, c.1 = tI ∧ tI < r ∧ ∃ c' ∈ cs, c'.1 = r ∧ Trajs env i0 d0 l (c.2.2 / 8) c'.2.2 []
  pending : Chain cs (nextFinal s) s.pending

theorem Core.write {s : State T L D P E I} {α n k : ℕ} {cs : List (T × ℕ × ℕ)} (h : Core env i0 d0 s α n k k cs) {s' : State T L D P E I} {cs' : List (T × ℕ × ℕ)} (h1 : Eph env i0 d0 s' α n k cs') (h2 : cs' ≠ [])
    (h3 : cs' = cs ∨ cs' = cs ++ [(env.integrator.time (orbit env i0 k), k, n)] ∧ ∀ c ∈ cs, c.1 + env.maxTimeBetweenCheckpoints < env.integrator.time (orbit env i0 k)) :
    ∃ ext, cs' = cs ++ ext ∧ Core env i0 d0 s' α n k k cs' := by
  rcases h3 with rfl | ⟨rfl, h4⟩
  · exact ⟨[], by simp, h1, h.n_eq, h.entries, h.gaps, h.empty⟩
  · refine ⟨_, rfl, h1, h.n_eq, ?_, ?_, fun he => absurd he h2⟩
    · intro c hc
      rcases List.mem_append.1 hc with h5 | h5
      · exact h.entries c h5
      · simp at h5
        subst h5
        exact ⟨rfl, h.n_eq⟩
    · rw [List.pairwise_append]
      refine ⟨h.gaps, List.pairwise_singleton _ _, ?_⟩
      intro c hc c' hc'
      simp at hc'
      subst hc'
      exact h4 c hc

theorem Core.time_lt {s : State T L D P E I} {α n k : ℕ} {cs : List (T × ℕ × ℕ)} (hl : Lawful env i0) (h : Core env i0 d0 s α n k k cs) : cs = [] → env.integrator.time s.inst < at' env i0 8 := by
  intro hcs
  rw [h.eph.inst]
  refine lt_of_lt_of_le (hl.time_lt k) (hl.atMono.monotone ?_)
  rw [← h.n_eq, h.empty hcs]
  omega

/-- Changing the ephemeris without changing its first time. -/
theorem Good.change {s : System T L D P E I} {α n k n' k' : ℕ} {cs ext : List (T × ℕ × ℕ)} {e : State T L D P E I} (h : Good env i0 d0 s α n k cs) (hc : Core env i0 d0 e α n' k' k' (cs ++ ext))
    (hr : e.oldestReanimated = s.ephemeris.oldestReanimated) (hn : α < n' / 8 ∨ n' = n) : Good env i0 d0 { s with ephemeris := e } α n' k' (cs ++ ext) := by
  refine ⟨hc, fun h' => h.none (by rw [← hr]; exact h'), ?_, ?_, ?_⟩
  · intro r h'
    obtain ⟨c, h1, h2, h3, h4⟩ := h.front r (by rw [← hr]; exact h')
    refine ⟨c, List.mem_append_left _ h1, h2, h3, ?_⟩
    rcases hn with h5 | rfl
    · exact Or.inl h5
    · exact h4
  · intro tI l h'
    obtain ⟨r, h1, c, h2, h3, h4, c', h5, h6, h7⟩ := h.computed tI l h'
    exact ⟨r, by rw [← h1]; exact hr, c, List.mem_append_left _ h2, h3, h4, c', List.mem_append_left _ h5, h6, h7⟩
  · have hnf : nextFinal { s with ephemeris := e } = nextFinal s := by
      unfold nextFinal
      simp only [hr]
    rw [hnf]
    exact h.pending.mono

theorem nextFinal_change {s : System T L D P E I} {e : State T L D P E I} (hr : e.oldestReanimated = s.ephemeris.oldestReanimated) : nextFinal { s with ephemeris := e } = nextFinal s := by
  unfold nextFinal
  simp only [hr]

theorem Good.create (hl : Lawful env i0) : ∃ s, Ephemeris.create env i0 = some s ∧ Good env i0 d0 ⟨s, [], .none⟩ 0 0 0 [] := by
  obtain ⟨s, h1, h2, h3⟩ := Eph.create (d0 := d0) hl
  refine ⟨s, h1, ⟨h2, rfl, by simp, List.Pairwise.nil, fun _ => rfl⟩, fun _ => ⟨rfl, rfl, rfl⟩, ?_, fun _ _ h => by simp at h, trivial⟩
  intro r hr
  rw [h3] at hr
  simp at hr

/-- Later checkpoints have more polynomials. -/
theorem Core.entries_lt {s : State T L D P E I} {α n k k₀ : ℕ} {cs : List (T × ℕ × ℕ)} (hl : Lawful env i0) (h : Core env i0 d0 s α n k k₀ cs) {c c' : T × ℕ × ℕ} (hc : c ∈ cs) (hc' : c' ∈ cs) (hlt : c.1 < c'.1) :
    c.2.1 < c'.2.1 ∧ c.2.2 / 8 < c'.2.2 / 8 := by
  obtain ⟨h1, h2⟩ := h.entries c hc
  obtain ⟨h3, h4⟩ := h.entries c' hc'
  have hgap : c.1 + env.maxTimeBetweenCheckpoints < c'.1 := by
    obtain ⟨i, hi, rfl⟩ := List.mem_iff_getElem.1 hc
    obtain ⟨j, hj, rfl⟩ := List.mem_iff_getElem.1 hc'
    rcases Nat.lt_trichotomy i j with h5 | h5 | h5
    · exact List.pairwise_iff_getElem.1 h.gaps i j hi hj h5
    · subst h5; exact absurd hlt (lt_irrefl _)
    · exact absurd (List.pairwise_iff_getElem.1 h.eph.sorted j i hj hi h5) (not_lt.2 hlt.le)
  rw [h1, h3] at hgap hlt
  have := hl.count_gap hgap
  exact ⟨hl.mono.lt_iff_lt.1 hlt, by omega⟩

/-- Computing a segment. -/
theorem computeSegment_total (hl : Lawful env i0) {s : State T L D P E I} {α n k : ℕ} {cs : List (T × ℕ × ℕ)} (h : Core env i0 d0 s α n k k cs) {c c' : T × ℕ × ℕ} (hc : c ∈ cs) (hc' : c' ∈ cs) (hlt : c.1 < c'.1) (stop : Stop)
    (hstop : ∀ m, stop = some m → env.integrator.started (orbit env i0 (c.2.1 + m + 1)) = true) :
    ∃ fuel o, computeSegment env fuel stop s c.1 c'.1 = .ok o ∧ (stop = .none → o.isSome) ∧ ∀ l, o = some l → Trajs env i0 d0 l (c.2.2 / 8) c'.2.2 [] := by
  obtain ⟨e1, l0, e2, e3⟩ := h.eph.readSegment hc
  obtain ⟨h1, h2⟩ := h.entries c hc
  obtain ⟨h3, h4⟩ := h.entries c' hc'
  obtain ⟨hk, -⟩ := h.entries_lt hl hc hc' hlt
  have hK : c'.1 < env.integrator.time (orbit env i0 (c'.2.1 + 1)) := by
    rw [h3]
    exact hl.mono (Nat.lt_succ_self _)
  obtain ⟨k', s', ok, stop', g1, g2, g3, g4, g5, -, g7⟩ := solve_total hl (append := appendToTrajectories env) (fun k l => Trajs env i0 d0 l (c.2.2 / 8) (count env i0 k) []) (by
    intro k l hkl
    by_cases ha : env.integrator.appends (orbit env i0 (k + 1)) = true
    · rw [if_pos ha]
      obtain ⟨l', hl'⟩ := hkl.append_some hl ha (count_succ ha)
      refine ⟨l', hl', ?_⟩
      rw [count_succ ha]
      exact (hkl.append hl ha hl').2
    · rw [if_neg ha]
      exact ⟨l, rfl, by rw [count_succ' ha]; exact hkl⟩) hK (c'.2.1 + 2) stop c.2.1 l0 (by rw [← h2]; exact e3) (by omega) (by omega)
  refine ⟨c'.2.1 + 2, (if ok = true then some s' else .none), ?_, ?_, ?_⟩
  · unfold computeSegment
    rw [e1]
    simp only [e2, g1]
  · intro hs
    rw [(g7 hs).2]
    rfl
  · intro l hol
    cases ok with
    | false => simp at hol
    | true =>
      simp at hol
      subst hol
      have hend : c'.1 < env.integrator.time (orbit env i0 (k' + 1)) := by
        rcases g5 rfl with g5 | ⟨m, hm, g5⟩
        · exact g5
        · rw [hstop m hm] at g5; simp at g5
      have hle : env.integrator.time (orbit env i0 k') ≤ c'.1 := by
        rcases g4 with rfl | g4
        · rw [← h1]; exact hlt.le
        · exact g4
      rw [h3] at hend hle
      have h5 := hl.mono.lt_iff_lt.1 hend
      have h6 := hl.mono.le_iff_le.1 hle
      have h7 : k' = c'.2.1 := by omega
      rw [h4, ← h7]
      exact g3

/-- The events that are allowed succeed, and preserve the invariant; the target of a reanimation is preserved by the events that don't interfere with it. -/
theorem Good.step {s : System T L D P E I} {α n k : ℕ} {cs : List (T × ℕ × ℕ)} {e : Event T} (hl : Lawful env i0) (h : Good env i0 d0 s α n k cs) (ha : Allowed env s e) :
    ∃ fuel s' α' n' k' cs', step env fuel s e = .ok s' ∧ Good env i0 d0 s' α' n' k' cs' ∧ ∀ d, Undisturbing e → Goal cs d (nextFinal s) s.pending → Goal cs' d (nextFinal s') s'.pending := by
  cases e with
  | prolong t maxSteps stop =>
    have hd : During env i0 d0 α cs s.ephemeris.oldestReanimated k s.ephemeris := ⟨rfl, n, k, [], by simpa using h.core⟩
    obtain ⟨fuel, k', e', ok, h1, h2, h3, ⟨h4, n', k₀, ext, h5⟩, h6, h7⟩ := prolong_total hl h.core.eph.inst hd t maxSteps stop
    have hk0 : Core env i0 d0 e' α n' k' k' (cs ++ ext) := ⟨⟨h5.eph.trajs, h3, h5.eph.checkpoints, h5.eph.sorted, h5.eph.oldest⟩, h5.n_eq, h5.entries, h5.gaps, h5.empty⟩
    have hn : α < n' / 8 ∨ n' = n := by
      left
      rcases ha with ha | ha
      · have h8 := h6 (h7 ha)
        rw [hk0.eph.tMax hl] at h8
        by_contra hlt
        rw [if_neg hlt] at h8
        simp [beforeBot] at h8
      · rw [h.core.eph.tMin hl] at ha
        have hlt : α < n / 8 := by
          by_contra hlt
          rw [if_neg hlt] at ha
          simp at ha
        have : n ≤ n' := by
          rw [h.core.n_eq, h5.n_eq]
          exact count_mono h2
        omega
    refine ⟨fuel, { s with ephemeris := e' }, α, n', k', cs ++ ext, ?_, h.change hk0 h4 hn, ?_⟩
    · unfold Ephemeris.step
      simp only [h1]
    · intro d _ hg
      rw [nextFinal_change h4]
      exact hg.mono
  | evaluate b t =>
    obtain ⟨hb, first, last, h1, h2, h3, h4⟩ := ha
    have h1' := h1
    rw [h.core.eph.tMin hl] at h1
    rw [h.core.eph.tMax hl] at h2
    have hlt : α < n / 8 := by
      by_contra hlt
      rw [if_neg hlt] at h1
      simp at h1
    rw [if_pos hlt, Option.some.injEq] at h1 h2
    subst h1 h2
    obtain ⟨κ, g1, g2, g3⟩ := exists_covers (env := env.trajectory) (t0 := env.integrator.time i0) α (n / 8 - α - 1) h3 (by rw [show α + (n / 8 - α - 1) + 1 = n / 8 by omega]; exact h4)
    have hx := List.getElem?_eq_getElem hb
    obtain ⟨la, hla, he⟩ := (h.core.eph.trajs.slice b _ hx).evaluate hl.step_pos g1 (by omega) g3
    obtain ⟨p, e', hev⟩ : ∃ p e', evaluate s.ephemeris b t = some (p, e') := by
      unfold evaluate
      rw [hx, Option.bind_some, he]
      exact ⟨_, _, rfl⟩
    obtain ⟨h5, h6⟩ := h.core.eph.evaluate hl hev
    refine ⟨0, { s with ephemeris := e' }, α, n, k, cs ++ [], ?_, h.change (ext := []) (by rw [List.append_nil]; exact ⟨h5, h.core.n_eq, h.core.entries, h.core.gaps, h.core.empty⟩) h6 (Or.inr rfl), ?_⟩
    · unfold Ephemeris.step
      simp only [hev, Option.map_some]
      rfl
    · intro d _ hg
      rw [nextFinal_change h6]
      exact hg.mono
  | save =>
    obtain ⟨s1, cs', -, e2, e3, ⟨m', hm'⟩, e4, e5, -⟩ := h.core.eph.load hl (h.core.time_lt hl) (env.integrator.time i0)
    obtain ⟨ext, rfl, hc⟩ := h.core.write e2 e4 e5
    refine ⟨0, { s with ephemeris := s1 }, α, n, k, cs ++ ext, ?_, h.change hc e3 (Or.inr rfl), ?_⟩
    · unfold Ephemeris.step
      simp only [hm', Option.map_some]
      rfl
    · intro d _ hg
      rw [nextFinal_change e3]
      exact hg.mono
  | load d =>
    obtain ⟨s1, cs', -, e2, e3, -, e4, e5, e6⟩ := h.core.eph.load hl (h.core.time_lt hl) d
    obtain ⟨ext, hext, hc⟩ := h.core.write e2 e4 e5
    rcases e6 with ⟨-, e6⟩ | ⟨c, hcm, -, -, e, e6, e7, e8⟩
    · exfalso
      unfold Allowed at ha
      cases cs with
      | nil =>
        have hnil : s.ephemeris.checkpoints = [] := by rw [h.core.eph.checkpoints]; rfl
        rw [hnil, h.core.eph.inst] at ha
        simp only [Checkpointer.oldest, List.head?_nil, Option.map_none, Option.getD_none] at ha
        rcases e5 with rfl | ⟨rfl, -⟩
        · exact e4 rfl
        · exact absurd ha (not_le.2 (e6 (env.integrator.time (orbit env i0 k), k, n) (by simp)))
      | cons c0 cs0 =>
        rw [h.core.eph.checkpoints, oldest_mapValues] at ha
        simp only [Checkpointer.oldest, List.head?_cons, Option.map_some, Option.getD_some] at ha
        exact absurd ha (not_le.2 (e6 c0 (by rw [hext]; simp)))
    · refine ⟨0, ⟨e, [], .none⟩, c.2.2 / 8, c.2.2, c.2.1, cs', ?_, ⟨⟨e7, (hc.entries c hcm).2, hc.entries, hc.gaps, fun he => absurd he e4⟩, ?_, ?_, fun _ _ h' => by simp at h', trivial⟩, fun _ hu => absurd hu (by simp [Undisturbing])⟩
      · unfold Ephemeris.step
        simp only [e6, Option.map_some]
        rfl
      · intro h'
        simp only [e8] at h'
        simp at h'
      · intro r h'
        simp only [e8, Option.some.injEq] at h'
        exact ⟨c, hcm, h', rfl, Or.inr rfl⟩
  | reanimate d =>
    by_cases hi : s.pending = [] ∧ s.computed.isNone = true
    · obtain ⟨l, h1, h2, h3⟩ := segments_spec h.core.eph (fun r hr => by obtain ⟨c, hc, hc', -⟩ := h.front r hr; exact ⟨c, hc, hc'⟩) d
      have hcn : s.computed = .none := by simpa using hi.2
      have hnf : nextFinal { s with pending := l } = s.ephemeris.oldestReanimated := by
        unfold nextFinal
        simp only [hcn]
      refine ⟨0, { s with pending := l }, α, n, k, cs, ?_, ⟨h.core, ?_, h.front, h.computed, by rw [hnf]; exact h2⟩, fun _ hu => absurd hu (by simp [Undisturbing])⟩
      · unfold Ephemeris.step
        simp only
        rw [if_pos hi, h1]
        rfl
      · intro hn
        obtain ⟨g1, g2, g3⟩ := h.none hn
        refine ⟨g1, ?_, g3⟩
        simp only at hn ⊢
        rw [hn] at h2
        cases l with
        | nil => rfl
        | cons q l => obtain ⟨a, b⟩ := q; exact absurd h2.1 (by simp)
    · refine ⟨0, s, α, n, k, cs, ?_, h, fun _ hu => absurd hu (by simp [Undisturbing])⟩
      unfold Ephemeris.step
      simp only
      rw [if_neg hi]
  | compute stop =>
    cases hp : s.pending with
    | nil =>
      refine ⟨0, s, α, n, k, cs, ?_, h, fun d _ hg => by rw [hp]; exact hg⟩
      unfold Ephemeris.step
      simp only [hp]
    | cons q l =>
      obtain ⟨tI, tF⟩ := q
      cases hc : s.computed with
      | some c =>
        refine ⟨0, s, α, n, k, cs, ?_, h, fun d _ hg => by rw [hp]; exact hg⟩
        unfold Ephemeris.step
        simp only [hp, hc]
      | none =>
        have hch := h.pending
        have hnf : nextFinal s = s.ephemeris.oldestReanimated := by
          unfold nextFinal
          simp only [hc]
        rw [hp, hnf] at hch
        obtain ⟨h1, h2, ⟨c, hcm, rfl⟩, h3⟩ := hch
        obtain ⟨c', hc', rfl, h4, h5⟩ := h.front _ h1
        obtain ⟨fuel, o, g1, g2, g3⟩ := computeSegment_total hl h.core hcm hc' h2 stop (by
          intro m hm
          have := ha m c.1 c'.1 l (orbit env i0 c.2.1) hm hp (h.core.eph.readSegment hcm).1
          rw [orbit_add] at this
          exact this)
        cases o with
        | none =>
          refine ⟨fuel, { s with pending := [] }, α, n, k, cs, ?_, ⟨h.core, fun hn => ⟨(h.none hn).1, rfl, (h.none hn).2.2⟩, h.front, h.computed, trivial⟩, ?_⟩
          · unfold Ephemeris.step
            simp only [hp, hc, g1]
          · intro d hu
            have := g2 hu
            simp at this
        | some l' =>
          refine ⟨fuel, { s with pending := l, computed := some (c.1, l') }, α, n, k, cs, ?_, ⟨h.core, ?_, h.front, ?_, h3⟩, ?_⟩
          · unfold Ephemeris.step
            simp only [hp, hc, g1]
          · intro hn
            simp only at hn
            rw [h1] at hn
            simp at hn
          · intro t1 l1 ht
            simp only [Option.some.injEq, Prod.mk.injEq] at ht
            obtain ⟨rfl, rfl⟩ := ht
            exact ⟨c'.1, h1, c, hcm, rfl, h2, c', hc', rfl, g3 l' rfl⟩
          · intro d _ hg
            exact hg
  | stitch =>
    cases hc : s.computed with
    | none =>
      refine ⟨0, s, α, n, k, cs, ?_, h, fun d _ hg => hg⟩
      unfold Ephemeris.step
      simp only [hc]
    | some q =>
      obtain ⟨tI, l⟩ := q
      obtain ⟨r, h1, c, h2, rfl, h4, c', h5, rfl, h7⟩ := h.computed tI l hc
      obtain ⟨c'', h8, h9, h10, h11⟩ := h.front _ h1
      have hcc : c'' = c' := eq_of_key h.core.eph.sorted h8 h5 h9
      subst hcc
      obtain ⟨-, hlt⟩ := h.core.entries_lt hl h2 h5 h4
      have hpre : ∀ (b : ℕ) x y, s.ephemeris.trajectories[b]? = some x → l[b]? = some y → ∃ z, prepend x y = some z ∧ Slice env i0 d0 b z (c.2.2 / 8) n ∧ z.checkpointer = mapValues (fun c => canonical env i0 d0 b c.2) cs := by
        intro b x y hx hy
        obtain ⟨z, g1, g2, g3⟩ := (h.core.eph.trajs.slice b x hx).prepend (h7.slice b y hy) h10 (by rcases h11 with h11 | h11; exacts [Or.inl h11, Or.inr h11.symm])
        exact ⟨z, g1, g2, by rw [g3, h.core.eph.trajs.checkpointer b x hx]⟩
      obtain ⟨l', hl'⟩ := forAll₂_of (f := prepend) (l := s.ephemeris.trajectories) (l' := l) (by rw [h7.length, h.core.eph.trajs.length]) fun b x y hx hy => by
        obtain ⟨z, g1, -⟩ := hpre b x y hx hy
        rw [g1]; rfl
      obtain ⟨g1, g2, g3⟩ := forAll₂_some hl'
      have hα : c.2.2 / 8 < α := by omega
      have hle := (h.core.eph.trajs.slice 0 _ (List.getElem?_eq_getElem (by rw [h.core.eph.trajs.length]; exact List.length_pos_iff.2 hl.state_ne))).le
      refine ⟨0, ⟨{ s.ephemeris with trajectories := l', oldestReanimated := some c.1 }, s.pending, .none⟩, c.2.2 / 8, n, k, cs, ?_, ⟨⟨⟨⟨?_, ?_, ?_⟩, h.core.eph.inst, h.core.eph.checkpoints, h.core.eph.sorted, h.core.eph.oldest⟩, h.core.n_eq, h.core.entries, h.core.gaps, h.core.empty⟩, ?_, ?_, fun _ _ h' => by simp at h', ?_⟩, ?_⟩
      · unfold Ephemeris.step Ephemeris.stitch
        simp only [hc, hl', Option.map_some]
        rfl
      · rw [g2, h.core.eph.trajs.length]
      · intro b z hz
        obtain ⟨x, y, hx, hy, hxy⟩ := g3 b z hz
        obtain ⟨z', f1, f2, f3⟩ := hpre b x y hx hy
        rw [f1, Option.some.injEq] at hxy
        subst hxy
        exact f2
      · intro b z hz
        obtain ⟨x, y, hx, hy, hxy⟩ := g3 b z hz
        obtain ⟨z', f1, f2, f3⟩ := hpre b x y hx hy
        rw [f1, Option.some.injEq] at hxy
        subst hxy
        exact f3
      · intro hn; simp at hn
      · intro r hr
        simp only [Option.some.injEq] at hr
        exact ⟨c, h2, hr, rfl, Or.inl (by omega)⟩
      · have hch := h.pending
        unfold nextFinal at hch ⊢
        rw [hc] at hch
        exact hch
      · intro d _ hg
        unfold nextFinal at hg ⊢
        rw [hc] at hg
        exact hg

end Principia.Ephemeris
