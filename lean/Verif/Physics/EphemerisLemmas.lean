import Verif.Physics.EphemerisModel
import Verif.Physics.ContinuousTrajectorySlices
import Verif.Physics.CheckpointerProps
import Mathlib.Logic.Function.Iterate
import Mathlib.Tactic.ByContra
import Mathlib.Data.List.TakeWhile

/-!
# Lemmas about the ephemeris
-/

set_option linter.unusedSimpArgs false
set_option linter.unusedVariables false
set_option linter.unusedSectionVars false

namespace Principia.Ephemeris

open Principia.SortedMap Principia.ContinuousTrajectory Principia.Checkpointer

/-! ### Lists -/

section Lists

variable {A A' B : Type}

theorem forAll_some {f : A → Option B} : ∀ {l : List A} {l' : List B}, forAll f l = some l' → l'.length = l.length ∧ ∀ (b : ℕ) y, l'[b]? = some y → ∃ x, l[b]? = some x ∧ f x = some y
  | [], l', h => by
    simp only [forAll, Option.some.injEq] at h
    subst h
    exact ⟨rfl, by simp⟩
  | a :: l, l', h => by
    simp only [forAll, Option.bind_eq_some_iff, Option.map_eq_some_iff] at h
    obtain ⟨y, hy, l'', hl, rfl⟩ := h
    obtain ⟨h1, h2⟩ := forAll_some hl
    refine ⟨by simp [h1], ?_⟩
    intro b z hb
    cases b with
    | zero => simp at hb; exact ⟨a, rfl, by rw [hy, hb]⟩
    | succ b => simp at hb ⊢; exact h2 b z hb

theorem forAll_of {f : A → Option B} : ∀ {l : List A}, (∀ (b : ℕ) x, l[b]? = some x → (f x).isSome) → ∃ l', forAll f l = some l'
  | [], h => ⟨[], rfl⟩
  | a :: l, h => by
    obtain ⟨y, hy⟩ := Option.isSome_iff_exists.1 (h 0 a rfl)
    obtain ⟨l', hl⟩ := forAll_of (l := l) fun b x hx => h (b + 1) x (by simpa using hx)
    exact ⟨y :: l', by simp [forAll, hy, hl]⟩

theorem forAll₂_some {f : A → A' → Option B} : ∀ {l : List A} {l' : List A'} {l'' : List B}, forAll₂ f l l' = some l'' →
    l'.length = l.length ∧ l''.length = l.length ∧ ∀ (b : ℕ) y, l''[b]? = some y → ∃ x x', l[b]? = some x ∧ l'[b]? = some x' ∧ f x x' = some y
  | [], [], l'', h => by
    simp only [forAll₂, Option.some.injEq] at h
    subst h
    exact ⟨rfl, rfl, by simp⟩
  | [], _ :: _, l'', h => by simp [forAll₂] at h
  | _ :: _, [], l'', h => by simp [forAll₂] at h
  | a :: l, a' :: l', l'', h => by
    simp only [forAll₂, Option.bind_eq_some_iff, Option.map_eq_some_iff] at h
    obtain ⟨y, hy, m, hm, rfl⟩ := h
    obtain ⟨h1, h2, h3⟩ := forAll₂_some hm
    refine ⟨by simp [h1], by simp [h2], ?_⟩
    intro b z hb
    cases b with
    | zero => simp at hb; exact ⟨a, a', rfl, rfl, by rw [hy, hb]⟩
    | succ b => simp only [List.getElem?_cons_succ] at hb ⊢; exact h3 b z hb

theorem forAll₂_of {f : A → A' → Option B} : ∀ {l : List A} {l' : List A'}, l'.length = l.length → (∀ (b : ℕ) x x', l[b]? = some x → l'[b]? = some x' → (f x x').isSome) → ∃ l'', forAll₂ f l l' = some l''
  | [], [], _, _ => ⟨[], rfl⟩
  | [], _ :: _, h, _ => by simp at h
  | _ :: _, [], h, _ => by simp at h
  | a :: l, a' :: l', h, hf => by
    obtain ⟨y, hy⟩ := Option.isSome_iff_exists.1 (hf 0 a a' rfl rfl)
    obtain ⟨m, hm⟩ := forAll₂_of (l := l) (l' := l') (by simpa using h) fun b x x' hx hx' => hf (b + 1) x x' (by simpa using hx) (by simpa using hx')
    exact ⟨y :: m, by simp [forAll₂, hy, hm]⟩

end Lists

/-! ### Checkpoints -/

section MapValues

variable {T V W : Type} [AddCommGroup T] [LinearOrder T] [IsOrderedAddMonoid T]

/-- The contents of a map are changed. -/
def mapValues (f : V → W) (cs : List (T × V)) : List (T × W) := cs.map fun c => (c.1, f c.2)

variable (f : V → W) (cs : List (T × V))

theorem sorted_mapValues {cs : List (T × V)} (h : Sorted cs) : Sorted (mapValues f cs) := by
  unfold Sorted mapValues
  rw [List.pairwise_map]
  exact h

theorem upperBound_mapValues (t : T) : upperBound (mapValues f cs) t = upperBound cs t := by
  unfold upperBound mapValues
  rw [List.takeWhile_map, List.length_map]
  rfl

theorem lowerBound_mapValues (t : T) : lowerBound (mapValues f cs) t = lowerBound cs t := by
  unfold lowerBound mapValues
  rw [List.takeWhile_map, List.length_map]
  rfl

theorem readAt_mapValues (t : T) : Checkpointer.readAt (mapValues f cs) t = (find cs t).map fun c => f c.2 := by
  unfold Checkpointer.readAt find mapValues
  rw [List.find?_map, Option.map_map]
  rfl

theorem atOrBefore_mapValues (t : T) : Checkpointer.atOrBefore (mapValues f cs) t = Checkpointer.atOrBefore cs t := by
  unfold Checkpointer.atOrBefore
  simp only [upperBound_mapValues]
  congr 1
  unfold mapValues
  rw [List.getElem?_map, Option.map_map]
  rfl

theorem readAtOrBefore_mapValues (t : T) : Checkpointer.readAtOrBefore (mapValues f cs) t = (Checkpointer.readAtOrBefore cs t).map f := by
  unfold Checkpointer.readAtOrBefore
  simp only [upperBound_mapValues]
  by_cases h : upperBound cs t = 0
  · rw [if_pos h, if_pos h]; rfl
  · rw [if_neg h, if_neg h]
    unfold mapValues
    rw [List.getElem?_map, Option.map_map, Option.map_map]
    rfl

theorem oldest_mapValues : Checkpointer.oldest (mapValues f cs) = Checkpointer.oldest cs := by
  unfold Checkpointer.oldest mapValues
  rw [List.head?_map, Option.map_map]
  rfl

theorem mapValues_append (t : T) (v : V) : mapValues f (cs ++ [(t, v)]) = mapValues f cs ++ [(t, f v)] := by simp [mapValues]

theorem round_trip {cs : List (T × V)} (h : Sorted cs) : Checkpointer.readFromMessage none (Checkpointer.writeToMessage cs) = cs := by
  have hid : Checkpointer.writeToMessage cs = cs := by simp [Checkpointer.writeToMessage]
  unfold Checkpointer.readFromMessage
  rw [hid]
  have hs : Sorted (([] : List (T × V)) ++ cs.map fun a => (a.1, a.2)) := by simpa using h
  have := foldl_emplace (fun c : V => c) cs [] hs
  simpa using this

theorem write_last {cs : List (T × V)} (h : Sorted cs) {t : T} (ht : ∀ c ∈ cs, c.1 < t) (v : V) : Checkpointer.write cs t v = some (cs ++ [(t, v)]) := by
  unfold Checkpointer.write
  rw [if_neg, emplace_last h ht]
  rw [Bool.not_eq_true, not_contains_iff]
  exact fun a ha => (ht a ha).ne

theorem writeIfNeeded_cases {cs : List (T × V)} (h : Sorted cs) {m : T} (hm : 0 ≤ m) (t : T) (v : V) :
    (∀ c ∈ cs, c.1 + m < t) ∧ Checkpointer.writeIfNeeded cs t m v = some (cs ++ [(t, v)], true) ∨ cs ≠ [] ∧ Checkpointer.writeIfNeeded cs t m v = some (cs, false) := by
  unfold Checkpointer.writeIfNeeded
  cases hl : cs.getLast? with
  | none =>
    rw [List.getLast?_eq_none_iff] at hl
    subst hl
    left
    exact ⟨by simp, by simp [write_last h (t := t) (by simp) v]⟩
  | some last =>
    have hne : cs ≠ [] := by rintro rfl; simp at hl
    simp only
    by_cases hc : m < t - last.1
    · left
      have hlt : ∀ c ∈ cs, c.1 + m < t := by
        intro c hcm
        have hle : c.1 ≤ last.1 := by
          obtain ⟨cs', rfl⟩ := List.getLast?_eq_some_iff.1 hl
          rcases List.mem_append.1 hcm with h1 | h1
          · exact ((List.pairwise_append.1 h).2.2 c h1 last (by simp)).le
          · simp at h1; rw [h1]
        rw [lt_sub_iff_add_lt] at hc
        calc c.1 + m ≤ last.1 + m := by gcongr
          _ = m + last.1 := add_comm _ _
          _ < t := hc
      refine ⟨hlt, ?_⟩
      rw [if_pos hc, write_last h fun c hcm => lt_of_le_of_lt (le_add_of_nonneg_right hm) (hlt c hcm)]
      rfl
    · right
      exact ⟨hne, by rw [if_neg hc]⟩

end MapValues

/-! ### The orbit of the integrator -/

variable {T L D P E I : Type} [AddCommGroup T] [LinearOrder T] [IsOrderedAddMonoid T] [Field L] [LinearOrder L]

/-- The instances that follow the initial one. -/
def orbit (env : Env T L D P E I) (i0 : I) (k : ℕ) : I := env.integrator.advance^[k] i0

/-- The number of states, among the first `k` after the initial one, that are appended to the trajectories. -/
def count (env : Env T L D P E I) (i0 : I) : ℕ → ℕ
  | 0 => 0
  | k + 1 => count env i0 k + if env.integrator.appends (orbit env i0 (k + 1)) then 1 else 0

/-- The integrator behaves like a fixed-step integrator from the initial instance: the time increases by the size of each step, the appended states are equally spaced, and there are no two steps without one of them
being appended; the number of bodies doesn't change; once it has been started it remains started; the time is unbounded; and the checkpoints are far from each other.  The saves are read on a machine where the evaluation of
the polynomials is the same. -/
structure Lawful (env : Env T L D P E I) (i0 : I) : Prop where
  step_pos : 0 < env.trajectory.step
  max_ge : 8 • env.trajectory.step ≤ env.maxTimeBetweenCheckpoints
  dt_pos : ∀ k, 0 < env.integrator.dt (orbit env i0 k)
  time_succ : ∀ k, env.integrator.time (orbit env i0 (k + 1)) = env.integrator.time (orbit env i0 k) + env.integrator.dt (orbit env i0 k)
  append_time : ∀ k, env.integrator.appends (orbit env i0 (k + 1)) = true → env.integrator.time (orbit env i0 (k + 1)) = env.integrator.time i0 + count env i0 (k + 1) • env.trajectory.step
  between : ∀ k, env.integrator.time (orbit env i0 k) < env.integrator.time i0 + (count env i0 k + 1) • env.trajectory.step
  state_length : ∀ k, (env.integrator.state (orbit env i0 k)).length = (env.integrator.state i0).length
  state_ne : env.integrator.state i0 ≠ []
  started_succ : ∀ k, env.integrator.started (orbit env i0 k) = true → env.integrator.started (orbit env i0 (k + 1)) = true
  unbounded : ∀ t, ∃ k, t < env.integrator.time (orbit env i0 k)
  policy : (if env.trajectory.canUseHardwareFMA then env.trajectory.defaultPolicy else env.trajectory.alwaysEstrinWithoutFMA) = env.trajectory.defaultPolicy

section Orbit

variable {env : Env T L D P E I} {i0 : I}

theorem orbit_succ (k : ℕ) : env.integrator.advance (orbit env i0 k) = orbit env i0 (k + 1) := by
  unfold orbit; rw [Function.iterate_succ_apply']

theorem orbit_zero : orbit env i0 0 = i0 := rfl

theorem orbit_add (k m : ℕ) : env.integrator.advance^[m] (orbit env i0 k) = orbit env i0 (k + m) := by
  unfold orbit; rw [← Function.iterate_add_apply, Nat.add_comm]

/-- The time of the appended states. -/
abbrev at' (env : Env T L D P E I) (i0 : I) (j : ℕ) : T := timeAt env.trajectory (env.integrator.time i0) j

theorem Lawful.max_nonneg (h : Lawful env i0) : 0 ≤ env.maxTimeBetweenCheckpoints := (nsmul_nonneg h.step_pos.le 8).trans h.max_ge

theorem Lawful.mono (h : Lawful env i0) : StrictMono fun k => env.integrator.time (orbit env i0 k) := by
  apply strictMono_nat_of_lt_succ
  intro k
  rw [h.time_succ]
  exact lt_add_of_pos_right _ (h.dt_pos k)

theorem Lawful.atMono (h : Lawful env i0) : StrictMono (at' env i0) := timeAt_strictMono h.step_pos

theorem count_mono : Monotone (count env i0) := by
  apply monotone_nat_of_le_succ
  intro k
  rw [count]
  exact Nat.le_add_right _ _

theorem count_succ {k : ℕ} (h : env.integrator.appends (orbit env i0 (k + 1)) = true) : count env i0 (k + 1) = count env i0 k + 1 := by
  rw [count, if_pos h]

theorem count_succ' {k : ℕ} (h : ¬ env.integrator.appends (orbit env i0 (k + 1)) = true) : count env i0 (k + 1) = count env i0 k := by
  rw [count, if_neg h]; rfl

theorem Lawful.time_lt (h : Lawful env i0) (k : ℕ) : env.integrator.time (orbit env i0 k) < at' env i0 (count env i0 k + 1) := h.between k

theorem Lawful.time_append (h : Lawful env i0) {k : ℕ} (ha : env.integrator.appends (orbit env i0 (k + 1)) = true) : env.integrator.time (orbit env i0 (k + 1)) = at' env i0 (count env i0 (k + 1)) := h.append_time k ha

theorem Lawful.time_ge (h : Lawful env i0) (k : ℕ) : at' env i0 (count env i0 k) ≤ env.integrator.time (orbit env i0 k) := by
  induction k with
  | zero => rw [count, orbit_zero]; unfold at'; rw [timeAt_zero]
  | succ k ih =>
    by_cases ha : env.integrator.appends (orbit env i0 (k + 1)) = true
    · rw [h.time_append ha]
    · rw [count_succ' ha]
      exact ih.trans (h.mono (Nat.lt_succ_self k)).le

/-- Instances that are far from each other are separated by eight appended states. -/
theorem Lawful.count_gap (h : Lawful env i0) {k k' : ℕ} (hk : env.integrator.time (orbit env i0 k) + env.maxTimeBetweenCheckpoints < env.integrator.time (orbit env i0 k')) : count env i0 k + 8 ≤ count env i0 k' := by
  have h1 := h.time_ge k
  have h2 := h.time_lt k'
  have h3 : at' env i0 (count env i0 k + 8) < at' env i0 (count env i0 k' + 1) := by
    calc at' env i0 (count env i0 k + 8) = at' env i0 (count env i0 k) + 8 • env.trajectory.step := by unfold at' timeAt; rw [add_nsmul, add_assoc]
      _ ≤ env.integrator.time (orbit env i0 k) + env.maxTimeBetweenCheckpoints := add_le_add h1 h.max_ge
      _ < env.integrator.time (orbit env i0 k') := hk
      _ < _ := h2
  have := h.atMono.lt_iff_lt.1 h3
  omega

open Classical in
/-- The index in the orbit of the appended state of index `j`. -/
noncomputable def index (env : Env T L D P E I) (i0 : I) (j : ℕ) : ℕ := if h : ∃ k, count env i0 k = j then Nat.find h else 0

/-- The degrees of freedom of a body in the appended state of index `j`. -/
noncomputable def points (env : Env T L D P E I) (i0 : I) (d0 : D) (b j : ℕ) : D := ((env.integrator.state (orbit env i0 (index env i0 j)))[b]?).getD d0

theorem index_count {k : ℕ} (h : k = 0 ∨ ∃ k', k = k' + 1 ∧ env.integrator.appends (orbit env i0 (k' + 1)) = true) : index env i0 (count env i0 k) = k := by
  classical
  have he : ∃ k', count env i0 k' = count env i0 k := ⟨k, rfl⟩
  unfold index
  rw [dif_pos he]
  have h1 := Nat.find_min' he rfl
  have h2 := Nat.find_spec he
  rcases h with rfl | ⟨k', rfl, ha⟩
  · exact Nat.le_zero.1 (by convert h1)
  · have h3 := count_succ ha
    rcases Nat.lt_or_ge (Nat.find he) (k' + 1) with h4 | h4
    · have h5 := count_mono (env := env) (i0 := i0) (Nat.lt_succ_iff.1 h4)
      exfalso
      have h6 : count env i0 (Nat.find he) ≤ count env i0 k' := by convert h5
      omega
    · have : Nat.find he = k' + 1 := le_antisymm (by convert h1) h4
      convert this

theorem points_zero {d0 : D} {b : ℕ} {d : D} (h : (env.integrator.state i0)[b]? = some d) : points env i0 d0 b 0 = d := by
  have := index_count (env := env) (i0 := i0) (k := 0) (Or.inl rfl)
  rw [count] at this
  unfold points
  rw [this, orbit_zero, h]; rfl

theorem points_count {d0 : D} {b k : ℕ} {d : D} (ha : env.integrator.appends (orbit env i0 (k + 1)) = true) (h : (env.integrator.state (orbit env i0 (k + 1)))[b]? = some d) : points env i0 d0 b (count env i0 (k + 1)) = d := by
  unfold points
  rw [index_count (Or.inr ⟨k, rfl, ha⟩), h]; rfl

end Orbit

/-! ### The trajectories -/

section Trajectories

variable (env : Env T L D P E I) (i0 : I) (d0 : D)

/-- The trajectory of a body is the slice, between `8 * α` and `n`, of the trajectory obtained without interruption. -/
abbrev Slice (b : ℕ) (x : Trajectory T L D P E) (α n : ℕ) : Prop := IsSlice env.trajectory (env.integrator.time i0) (points env i0 d0 b) env.trajectory.defaultPolicy x α n

/-- The checkpoint of the trajectory of a body after the point of index `n`. -/
noncomputable def canonical (b n : ℕ) : Checkpoint T L D where
  regulator := regulatorAt env.trajectory (env.integrator.time i0) (points env i0 d0 b) env.trajectory.defaultPolicy (n / 8)
  lastPoints := (List.range' (8 * (n / 8)) (n % 8 + 1)).map fun i => (timeAt env.trajectory (env.integrator.time i0) i, points env i0 d0 b i)

/-- The trajectories of all the bodies are slices, and they have checkpoints at the same times.  An element of `cs` has the time of a checkpoint, the index of the instance and that of the last point. -/
structure Trajs (l : List (Trajectory T L D P E)) (α n : ℕ) (cs : List (T × ℕ × ℕ)) : Prop where
  length : l.length = (env.integrator.state i0).length
  slice : ∀ (b : ℕ) x, l[b]? = some x → Slice env i0 d0 b x α n
  checkpointer : ∀ (b : ℕ) x, l[b]? = some x → x.checkpointer = mapValues (fun c => canonical env i0 d0 b c.2) cs

/-- The ephemeris has slices of the trajectories, and checkpoints of the trajectories and of the integrator at the same times. -/
structure Eph (s : State T L D P E I) (α n k : ℕ) (cs : List (T × ℕ × ℕ)) : Prop where
  trajs : Trajs env i0 d0 s.trajectories α n cs
  inst : s.inst = orbit env i0 k
  checkpoints : s.checkpoints = mapValues (fun c => orbit env i0 c.1) cs
  sorted : Sorted cs
  oldest : ∀ c, cs.head? = some c → c.1 < at' env i0 8

variable {env i0 d0}

theorem Slice.checkpoint {b α n : ℕ} {x : Trajectory T L D P E} (h : Slice env i0 d0 b x α n) : checkpoint x = canonical env i0 d0 b n := by
  unfold ContinuousTrajectory.checkpoint canonical
  rw [h.regulator, h.last]

/-- Appending a state to the trajectories. -/
theorem Trajs.append {l l' : List (Trajectory T L D P E)} {α n k : ℕ} {cs : List (T × ℕ × ℕ)} (hl : Lawful env i0) (h : Trajs env i0 d0 l α n cs) (ha : env.integrator.appends (orbit env i0 (k + 1)) = true)
    (hs : appendToTrajectories env (orbit env i0 (k + 1)) l = some l') : count env i0 (k + 1) = n + 1 ∧ Trajs env i0 d0 l' α (n + 1) cs := by
  unfold appendToTrajectories at hs
  obtain ⟨h1, h2, h3⟩ := forAll₂_some hs
  have key : ∀ (b : ℕ) y, l'[b]? = some y → count env i0 (k + 1) = n + 1 ∧ Slice env i0 d0 b y α (n + 1) ∧ y.checkpointer = mapValues (fun c => canonical env i0 d0 b c.2) cs := by
    intro b y hy
    obtain ⟨x, d, hx, hd, hf⟩ := h3 b y hy
    rw [Option.map_eq_some_iff] at hf
    obtain ⟨r, hr, rfl⟩ := hf
    have hsl := h.slice b x hx
    have ht := hsl.append_time hr
    rw [hl.time_append ha] at ht
    have hc : count env i0 (k + 1) = n + 1 := hl.atMono.injective ht
    have hp := points_count (d0 := d0) ha hd
    rw [hc] at hp
    obtain ⟨s', b', e1, e2, e3⟩ := hsl.append
    rw [hl.time_append ha, hc] at hr
    rw [hp, hr, Option.some.injEq] at e1
    subst e1
    exact ⟨hc, e2, by rw [e3, h.checkpointer b x hx]⟩
  have hpos : 0 < l'.length := by
    rw [h2, h.length]
    exact List.length_pos_iff.2 hl.state_ne
  have h0 := key 0 _ (List.getElem?_eq_getElem hpos)
  exact ⟨h0.1, by rw [h2, h.length], fun b y hy => (key b y hy).2.1, fun b y hy => (key b y hy).2.2⟩

theorem Trajs.append_some {l : List (Trajectory T L D P E)} {α n k : ℕ} {cs : List (T × ℕ × ℕ)} (hl : Lawful env i0) (h : Trajs env i0 d0 l α n cs) (ha : env.integrator.appends (orbit env i0 (k + 1)) = true)
    (hc : count env i0 (k + 1) = n + 1) : ∃ l', appendToTrajectories env (orbit env i0 (k + 1)) l = some l' := by
  unfold appendToTrajectories
  apply forAll₂_of
  · rw [h.length, hl.state_length]
  · intro b x d hx hd
    have hsl := h.slice b x hx
    have hp := points_count (d0 := d0) ha hd
    rw [hc] at hp
    obtain ⟨s', b', e1, e2, e3⟩ := hsl.append
    rw [hl.time_append ha, hc]
    rw [hp] at e1
    rw [Option.isSome_map]
    exact Option.isSome_iff_exists.2 ⟨_, e1⟩

/-- Writing a checkpoint. -/
theorem Eph.write {s : State T L D P E I} {α n k : ℕ} {cs : List (T × ℕ × ℕ)} (hl : Lawful env i0) (h : Eph env i0 d0 s α n k cs) {t : T} (ht : cs = [] → t < at' env i0 8) :
    ∃ s' cs', writeToCheckpointIfNeeded env s t = some s' ∧ Eph env i0 d0 s' α n k cs' ∧ cs' ≠ [] ∧ s'.oldestReanimated = s.oldestReanimated ∧
      (cs' = cs ∨ cs' = cs ++ [(t, k, n)] ∧ ∀ c ∈ cs, c.1 + env.maxTimeBetweenCheckpoints < t) := by
  unfold writeToCheckpointIfNeeded
  have hsm : Sorted s.checkpoints := by rw [h.checkpoints]; exact sorted_mapValues _ h.sorted
  rcases writeIfNeeded_cases hsm hl.max_nonneg t s.inst with ⟨h1, h2⟩ | ⟨h1, h2⟩
  · rw [h2]
    simp only [Option.bind_some, if_true]
    have hlt : ∀ c ∈ cs, c.1 + env.maxTimeBetweenCheckpoints < t := by
      intro c hc
      exact h1 (c.1, orbit env i0 c.2.1) (by rw [h.checkpoints]; exact List.mem_map.2 ⟨c, hc, rfl⟩)
    have hlt' : ∀ c ∈ cs, c.1 < t := fun c hc => lt_of_le_of_lt (le_add_of_nonneg_right hl.max_nonneg) (hlt c hc)
    have hw : ∀ (b : ℕ) x, s.trajectories[b]? = some x → writeToCheckpoint x t = some { x with checkpointer := mapValues (fun c => canonical env i0 d0 b c.2) (cs ++ [(t, k, n)]) } := by
      intro b x hx
      unfold writeToCheckpoint
      have hck := h.trajs.checkpointer b x hx
      rw [write_last (by rw [hck]; exact sorted_mapValues _ h.sorted), mapValues_append, hck, Slice.checkpoint (h.trajs.slice b x hx)]
      · rfl
      · rw [hck]
        intro c hc
        obtain ⟨c', hc', rfl⟩ := List.mem_map.1 hc
        exact hlt' c' hc'
    obtain ⟨l', hf⟩ := forAll_of (f := fun x => writeToCheckpoint x t) (l := s.trajectories) fun b x hx => by rw [hw b x hx]; rfl
    obtain ⟨e1, e2⟩ := forAll_some hf
    rw [hf]
    refine ⟨_, cs ++ [(t, k, n)], rfl, ⟨⟨?_, ?_, ?_⟩, h.inst, ?_, ?_, ?_⟩, by simp, rfl, Or.inr ⟨rfl, hlt⟩⟩
    · rw [e1, h.trajs.length]
    · intro b y hy
      obtain ⟨x, hx, hxy⟩ := e2 b y hy
      rw [hw b x hx, Option.some.injEq] at hxy
      subst hxy
      have := h.trajs.slice b x hx
      exact ⟨this.le, this.policy_eq, this.regulator, this.polynomials, this.first, this.last, this.accessed⟩
    · intro b y hy
      obtain ⟨x, hx, hxy⟩ := e2 b y hy
      rw [hw b x hx, Option.some.injEq] at hxy
      subst hxy
      rfl
    · rw [mapValues_append, ← h.checkpoints, h.inst]
    · unfold Sorted
      rw [List.pairwise_append]
      refine ⟨h.sorted, List.pairwise_singleton _ _, ?_⟩
      intro a ha b hb
      simp at hb
      rw [hb]
      exact hlt' a ha
    · intro c hc
      cases cs with
      | nil => simp at hc; rw [← hc]; exact ht rfl
      | cons c' cs' => exact h.oldest c (by simpa using hc)
  · rw [h2]
    refine ⟨s, cs, rfl, h, ?_, rfl, Or.inl rfl⟩
    intro hc
    apply h1
    rw [h.checkpoints, hc]; rfl

/-- Appending a state to the ephemeris. -/
theorem Eph.appendState {s s' : State T L D P E I} {α n k₀ k : ℕ} {cs : List (T × ℕ × ℕ)} (hl : Lawful env i0) (h : Eph env i0 d0 s α n k₀ cs) (hn : cs = [] → n = 0)
    (ha : env.integrator.appends (orbit env i0 (k + 1)) = true) (hs : appendState env (orbit env i0 (k + 1)) s = some s') :
    count env i0 (k + 1) = n + 1 ∧ ∃ cs', Eph env i0 d0 s' α (n + 1) (k + 1) cs' ∧ cs' ≠ [] ∧ s'.oldestReanimated = s.oldestReanimated ∧
      (cs' = cs ∨ cs' = cs ++ [(env.integrator.time (orbit env i0 (k + 1)), k + 1, n + 1)] ∧ ∀ c ∈ cs, c.1 + env.maxTimeBetweenCheckpoints < env.integrator.time (orbit env i0 (k + 1))) := by
  unfold Ephemeris.appendState at hs
  rw [Option.bind_eq_some_iff] at hs
  obtain ⟨l, h1, h2⟩ := hs
  obtain ⟨hc, ht⟩ := h.trajs.append hl ha h1
  refine ⟨hc, ?_⟩
  have he : Eph env i0 d0 { s with trajectories := l, inst := orbit env i0 (k + 1) } α (n + 1) (k + 1) cs := ⟨ht, rfl, h.checkpoints, h.sorted, h.oldest⟩
  obtain ⟨s1, cs', e1, e2, e3, e4, e5⟩ := he.write hl (t := env.integrator.time (orbit env i0 (k + 1))) fun hcs => by
    rw [hl.time_append ha, hc, hn hcs]
    exact hl.atMono (by omega)
  rw [e1, Option.some.injEq] at h2
  subst h2
  exact ⟨cs', e2, e3, e4, e5⟩

theorem Eph.appendState_some {s : State T L D P E I} {α n k₀ k : ℕ} {cs : List (T × ℕ × ℕ)} (hl : Lawful env i0) (h : Eph env i0 d0 s α n k₀ cs) (hn : cs = [] → n = 0)
    (ha : env.integrator.appends (orbit env i0 (k + 1)) = true) (hc : count env i0 (k + 1) = n + 1) : ∃ s', Ephemeris.appendState env (orbit env i0 (k + 1)) s = some s' := by
  unfold Ephemeris.appendState
  obtain ⟨l, h1⟩ := h.trajs.append_some hl ha hc
  obtain ⟨-, ht⟩ := h.trajs.append hl ha h1
  rw [h1]
  have he : Eph env i0 d0 { s with trajectories := l, inst := orbit env i0 (k + 1) } α (n + 1) (k + 1) cs := ⟨ht, rfl, h.checkpoints, h.sorted, h.oldest⟩
  obtain ⟨s1, cs', e1, -⟩ := he.write hl (t := env.integrator.time (orbit env i0 (k + 1))) fun hcs => by
    rw [hl.time_append ha, hc, hn hcs]
    exact hl.atMono (by omega)
  exact ⟨s1, e1⟩

/-- The constructor. -/
theorem Eph.create (hl : Lawful env i0) : ∃ s, Ephemeris.create env i0 = some s ∧ Eph env i0 d0 s 0 0 0 [] ∧ s.oldestReanimated = none := by
  unfold Ephemeris.create
  rw [if_neg hl.state_ne]
  set f : D → Option (Trajectory T L D P E) := fun d => (ContinuousTrajectory.append env.trajectory (ContinuousTrajectory.create env.trajectory) (env.integrator.time i0) d).bind fun r => if r.2 then some r.1 else none with hf
  have hfd : ∀ (b : ℕ) d, (env.integrator.state i0)[b]? = some d → ∃ x, f d = some x ∧ Slice env i0 d0 b x 0 0 ∧ x.checkpointer = [] := by
    intro b d hd
    obtain ⟨x, h1, h2, h3⟩ := slice_create (env := env.trajectory) (t0 := env.integrator.time i0) (points := points env i0 d0 b) (policy := env.trajectory.defaultPolicy) rfl
    rw [points_zero hd] at h1
    refine ⟨x, ?_, h2, h3⟩
    rw [hf]
    simp only
    rw [h1]
    rfl
  obtain ⟨l, h1⟩ := forAll_of (f := f) (l := env.integrator.state i0) fun b d hd => by obtain ⟨x, hx, -⟩ := hfd b d hd; rw [hx]; rfl
  obtain ⟨e1, e2⟩ := forAll_some h1
  rw [h1]
  refine ⟨_, rfl, ⟨⟨e1, ?_, ?_⟩, rfl, rfl, sorted_nil, by simp⟩, rfl⟩
  · intro b y hy
    obtain ⟨d, hd, hfy⟩ := e2 b y hy
    obtain ⟨x, hx, hsl, -⟩ := hfd b d hd
    rw [hx, Option.some.injEq] at hfy
    subst hfy
    exact hsl
  · intro b y hy
    obtain ⟨d, hd, hfy⟩ := e2 b y hy
    obtain ⟨x, hx, -, hc⟩ := hfd b d hd
    rw [hx, Option.some.injEq] at hfy
    subst hfy
    exact hc

end Trajectories

end Principia.Ephemeris
