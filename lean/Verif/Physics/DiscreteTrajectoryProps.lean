import Verif.Physics.DiscreteTrajectoryAttach
import Verif.Physics.DiscreteTrajectoryIteratorLemmas
import Mathlib.Algebra.Order.Group.Int
import Mathlib.Algebra.Order.Group.Unbundled.Abs
import Mathlib.Data.Int.Order.Basic

/-!
# C18 to C23: discrete trajectories
-/

set_option linter.unusedSimpArgs false
set_option linter.unusedVariables false
set_option linter.unusedSectionVars false

namespace Principia.DiscreteTrajectory

open Principia.SortedMap

variable {T D H E : Type} [LinearOrder T] [DecidableEq D] [AddCommGroup E] [LinearOrder E]

/-! ## Histories -/

/-- The operations on a set of trajectories designated by numbers. -/
inductive Op (T D E : Type) where
  | new (i : Nat)
  | newSegment (i : Nat)
  | append (i : Nat) (t : T) (d : D)
  | forgetAfter (i : Nat) (t : T)
  | forgetBefore (i : Nat) (t : T)
  | clear (i : Nat)
  | detach (i k j : Nat)      -- Trajectory `j` becomes the segments of trajectory `i` starting with the `k`-th one.
  | attach (i j : Nat)        -- Trajectory `j` is moved at the end of trajectory `i`.
  | delete (i k : Nat)
  | merge (i j : Nat)         -- Trajectory `j` is moved into trajectory `i`.
  | setDownsampling (i k : Nat) (tolerance : E)
  | clearDownsampling (i k : Nat)

abbrev Pool (T D H E : Type) := Nat → Option (Trajectory T D H E)

def Pool.set (pool : Pool T D H E) (i : Nat) (tr : Option (Trajectory T D H E)) : Pool T D H E := fun j => if j = i then tr else pool j

/-- The effect of an operation; `none` is a crash. -/
def step (h : Hermite T D H E) (pool : Pool T D H E) : Op T D E → Option (Pool T D H E)
  | .new i => some (pool.set i (some Trajectory.new))
  | .newSegment i => do let tr ← pool i; let tr ← tr.newSegment h; some (pool.set i (some tr))
  | .append i t d => do let tr ← pool i; let tr ← tr.append h t d; some (pool.set i (some tr))
  | .forgetAfter i t => do let tr ← pool i; let tr ← tr.forgetAfter t; some (pool.set i (some tr))
  | .forgetBefore i t => do let tr ← pool i; let tr ← tr.forgetBefore t; some (pool.set i (some tr))
  | .clear i => do let tr ← pool i; let tr ← tr.clear; some (pool.set i (some tr))
  | .detach i k j => do let tr ← pool i; let r ← tr.detachSegments k; some ((pool.set i (some r.1)).set j (some r.2))
  | .attach i j => do
    let tr ← pool i; let tj ← pool j; let r ← tr.attachSegments h tj; some ((pool.set j none).set i (some r.1))
  | .delete i k => do let tr ← pool i; let tr ← tr.deleteSegments k; some (pool.set i (some tr))
  | .merge i j => do let tr ← pool i; let tj ← pool j; let r ← tr.merge h tj; some ((pool.set j none).set i (some r))
  | .setDownsampling i k e => do let tr ← pool i; let tr ← tr.setDownsampling k e; some (pool.set i (some tr))
  | .clearDownsampling i k => do let tr ← pool i; let tr ← tr.clearDownsampling k; some (pool.set i (some tr))

/-- The effect of a history. -/
def run (h : Hermite T D H E) : Pool T D H E → List (Op T D E) → Option (Pool T D H E)
  | pool, [] => some pool
  | pool, op :: ops => (step h pool op).bind fun pool => run h pool ops

/-- The trajectories that result from some history. -/
def Reachable (h : Hermite T D H E) (tr : Trajectory T D H E) : Prop :=
  ∃ ops pool i, run h (fun _ => none) ops = some pool ∧ pool i = some tr

/-- Consistency, in terms of the points of the segments. -/
structure Consistent (tr : Trajectory T D H E) : Prop where
  /-- The times are strictly increasing in each segment. -/
  increasing : ∀ s ∈ tr.segs, s.points.Pairwise fun p q => p.1 < q.1
  /-- A segment which follows a non-empty one starts with its last point; in particular, no empty segment follows a non-empty one. -/
  boundaries : ∀ i s s', tr.segs[i]? = some s → tr.segs[i + 1]? = some s' → s.points ≠ [] → s'.points.head? = s.points.getLast?

def PoolInv (pool : Pool T D H E) : Prop := ∀ i tr, pool i = some tr → Inv tr

theorem poolInv_set {pool : Pool T D H E} (h : PoolInv pool) {i : Nat} {tr : Trajectory T D H E} (ht : Inv tr) : PoolInv (pool.set i (some tr)) := by
  intro j tr' hj
  unfold Pool.set at hj
  split at hj
  · simp only [Option.some.injEq] at hj
    subst hj; exact ht
  · exact h j tr' hj

theorem poolInv_set_none {pool : Pool T D H E} (h : PoolInv pool) {i : Nat} : PoolInv (pool.set i none) := by
  intro j tr' hj
  unfold Pool.set at hj
  split at hj
  · simp at hj
  · exact h j tr' hj

theorem inv_forgetAfter {tr tr' : Trajectory T D H E} (hinv : Inv tr) {t : T} (hs : tr.forgetAfter t = some tr') : Inv tr' := by
  by_cases hne : tr.segs = []
  · exfalso
    have hm : tr.map = [] := by
      rw [map_eq_nil_iff hinv.canon]
      intro i
      simp [tm, hd, hne]
    unfold Trajectory.forgetAfter findSegment at hs
    simp [hm, upperBound, Trajectory.clear, hne] at hs
  · obtain ⟨tr'', h1, h2, _⟩ := forgetAfter_spec hinv hne t
    rw [h1] at hs
    simp only [Option.some.injEq] at hs
    subst hs; exact h2

theorem poolInv_step {h : Hermite T D H E} {pool pool' : Pool T D H E} (hp : PoolInv pool) {op : Op T D E} (hs : step h pool op = some pool') :
    PoolInv pool' := by
  cases op with
  | new i =>
    simp only [step, Option.some.injEq] at hs
    subst hs
    exact poolInv_set hp inv_new
  | newSegment i =>
    simp only [step, Option.bind_eq_bind, Option.bind_eq_some_iff, Option.some.injEq] at hs
    obtain ⟨tr, h1, tr', h2, rfl⟩ := hs
    exact poolInv_set hp (inv_newSegment (hp i tr h1) h2).1
  | append i t d =>
    simp only [step, Option.bind_eq_bind, Option.bind_eq_some_iff, Option.some.injEq] at hs
    obtain ⟨tr, h1, tr', h2, rfl⟩ := hs
    exact poolInv_set hp (append_spec (hp i tr h1) h2).1
  | forgetAfter i t =>
    simp only [step, Option.bind_eq_bind, Option.bind_eq_some_iff, Option.some.injEq] at hs
    obtain ⟨tr, h1, tr', h2, rfl⟩ := hs
    exact poolInv_set hp (inv_forgetAfter (hp i tr h1) h2)
  | forgetBefore i t =>
    simp only [step, Option.bind_eq_bind, Option.bind_eq_some_iff, Option.some.injEq] at hs
    obtain ⟨tr, h1, tr', h2, rfl⟩ := hs
    exact poolInv_set hp (forgetBefore_spec (hp i tr h1) h2).1
  | clear i =>
    simp only [step, Option.bind_eq_bind, Option.bind_eq_some_iff, Option.some.injEq] at hs
    obtain ⟨tr, h1, tr', h2, rfl⟩ := hs
    exact poolInv_set hp (inv_clear h2)
  | detach i k j =>
    simp only [step, Option.bind_eq_bind, Option.bind_eq_some_iff, Option.some.injEq] at hs
    obtain ⟨tr, h1, ⟨a, b⟩, h2, rfl⟩ := hs
    obtain ⟨m, p, hkm, hmp⟩ := detachSegments_isSome h2
    obtain ⟨a', b', hab, ha, hb, _⟩ := detachSegments_spec (hp i tr h1) hkm hmp
    rw [h2] at hab
    simp only [Option.some.injEq, Prod.mk.injEq] at hab
    obtain ⟨rfl, rfl⟩ := hab
    exact poolInv_set (poolInv_set hp ha) hb
  | attach i j =>
    simp only [step, Option.bind_eq_bind, Option.bind_eq_some_iff, Option.some.injEq] at hs
    obtain ⟨tr, h1, tj, h2, ⟨r, n⟩, h3, rfl⟩ := hs
    exact poolInv_set (poolInv_set_none hp) (attach_spec (hp i tr h1) (hp j tj h2) h3).1
  | delete i k =>
    simp only [step, Option.bind_eq_bind, Option.bind_eq_some_iff, Option.some.injEq] at hs
    obtain ⟨tr, h1, tr', h2, rfl⟩ := hs
    obtain ⟨tr'', h3, h4, _⟩ := deleteSegments_spec (hp i tr h1) k
    rw [h2] at h3
    simp only [Option.some.injEq] at h3
    subst h3
    exact poolInv_set hp h4
  | merge i j =>
    simp only [step, Option.bind_eq_bind, Option.bind_eq_some_iff, Option.some.injEq] at hs
    obtain ⟨tr, h1, tj, h2, r, h3, rfl⟩ := hs
    exact poolInv_set (poolInv_set_none hp) (merge_spec (hp i tr h1) (hp j tj h2) h3).1
  | setDownsampling i k e =>
    simp only [step, Option.bind_eq_bind, Option.bind_eq_some_iff, Option.some.injEq] at hs
    obtain ⟨tr, h1, tr', h2, rfl⟩ := hs
    exact poolInv_set hp (setDownsampling_spec (hp i tr h1) h2).1
  | clearDownsampling i k =>
    simp only [step, Option.bind_eq_bind, Option.bind_eq_some_iff, Option.some.injEq] at hs
    obtain ⟨tr, h1, tr', h2, rfl⟩ := hs
    exact poolInv_set hp (clearDownsampling_spec (hp i tr h1) h2).1

theorem poolInv_run {h : Hermite T D H E} {ops : List (Op T D E)} : ∀ {pool pool' : Pool T D H E}, PoolInv pool → run h pool ops = some pool' → PoolInv pool' := by
  induction ops with
  | nil =>
    intro pool pool' hp hr
    simp only [run, Option.some.injEq] at hr
    subst hr; exact hp
  | cons op ops ih =>
    intro pool pool' hp hr
    simp only [run, Option.bind_eq_some_iff] at hr
    obtain ⟨p1, h1, h2⟩ := hr
    exact ih (poolInv_step hp h1) h2

theorem inv_of_reachable {h : Hermite T D H E} {tr : Trajectory T D H E} (hr : Reachable h tr) : Inv tr := by
  obtain ⟨ops, pool, i, h1, h2⟩ := hr
  exact poolInv_run (fun j tr hj => by simp at hj) h1 i tr h2

theorem consistent_of_inv {tr : Trajectory T D H E} (hi : Inv tr) : Consistent tr := by
  refine ⟨fun s hs => sorted_seg_points (hi.segs s hs), ?_⟩
  intro i s s' hs hs' hne
  have hl : s.points.getLast? = lst tr.segs i := by rw [lst_of_getElem? hs]; unfold Seg.points; rw [List.getLast?_map]
  have hh : s'.points.head? = hd tr.segs (i + 1) := by rw [hd_of_getElem? hs']; unfold Seg.points; rw [List.head?_map]
  cases hg : s.points.getLast? with
  | none => exact absurd (by simpa using hg) hne
  | some p =>
    rw [hh]
    exact hi.chain i (List.getElem?_eq_some_iff.1 hs').1 p (by rw [← hl]; exact hg)

/-- C18: after any history that does not crash, every trajectory is consistent, and the consistency check of the code accepts it. -/
theorem C18_history (h : Hermite T D H E) (tr : Trajectory T D H E) (hr : Reachable h tr) :
    Consistent tr ∧ consistencyStatus tr = true ∧
      -- Two points with the same time are the same point.
      ∀ t d d', IsPoint tr t d → IsPoint tr t d' → d = d' := by
  have hi := inv_of_reachable hr
  refine ⟨consistent_of_inv hi, consistencyStatus_of_inv hi, ?_⟩
  intro t d d' h1 h2
  obtain ⟨i, hi1⟩ := isPoint_iff.1 h1
  obtain ⟨j, hj1⟩ := isPoint_iff.1 h2
  have := pt_unique hi.segs hi.chain hi1 hj1 rfl
  exact (Prod.mk.inj this).2

/-- C18: the operations do not crash when their preconditions are met.  For `ForgetBefore`, `AttachSegments` and `Merge`, see
`C20_forget_before_partial`, `C22_attach` and `C23_merge_progress`. -/
theorem C18_progress (h : Hermite T D H E) (tr : Trajectory T D H E) (hr : Reachable h tr) (hne : tr.segs ≠ []) :
    (tr.newSegment h).isSome = true ∧
    (∀ t d, (∀ p e, IsPoint tr p e → p < t) → (tr.append h t d).isSome = true) ∧
    (∀ t, (tr.forgetAfter t).isSome = true) ∧
    tr.clear.isSome = true ∧
    (∀ k, (tr.deleteSegments k).isSome = true) ∧
    (∀ k, (tr.detachSegments k).isSome = true ↔ ∃ s ∈ tr.segs.drop k, s.points ≠ []) := by
  have hi := inv_of_reachable hr
  refine ⟨?_, ?_, ?_, clear_isSome.2 hne, ?_, ?_⟩
  · obtain ⟨tr', e⟩ := newSegment_isSome (h := h) hi hne
    rw [e]; rfl
  · intro t d ht
    obtain ⟨tr', e⟩ := append_isSome_of (h := h) (d := d) hi hne ht
    rw [e]; rfl
  · intro t
    obtain ⟨tr', e, _⟩ := forgetAfter_spec hi hne t
    rw [e]; rfl
  · intro k
    obtain ⟨tr', e, _⟩ := deleteSegments_spec hi k
    rw [e]; rfl
  · intro k
    constructor
    · intro hs
      obtain ⟨⟨a, b⟩, hab⟩ := Option.isSome_iff_exists.1 hs
      obtain ⟨m, p, hkm, hmp⟩ := detachSegments_isSome hab
      obtain ⟨s, hs1, hs2⟩ := pt_hd hmp
      refine ⟨s, ?_, List.ne_nil_of_mem hs2⟩
      rw [List.mem_iff_getElem?]
      exact ⟨m - k, by rw [List.getElem?_drop, show k + (m - k) = m by omega]; exact hs1⟩
    · rintro ⟨s, hs, hp⟩
      obtain ⟨j, hj⟩ := List.mem_iff_getElem?.1 hs
      rw [List.getElem?_drop] at hj
      have : ∃ p, hd tr.segs (k + j) = some p := by
        rw [hd_of_getElem? hj]
        cases hst : s.timeline with
        | nil => exact absurd (by unfold Seg.points; rw [hst]; rfl) hp
        | cons a l => exact ⟨_, rfl⟩
      obtain ⟨p, hp⟩ := this
      obtain ⟨a, b, hab, _⟩ := detachSegments_spec hi (Nat.le_add_right k j) hp
      rw [hab]; rfl

/-! ## C19: look-up -/

theorem endIt_eq (tr : Trajectory T D H E) : tr.endIt = { seg := tr.segs.length, pt := none } := by
  have : skipEmpty tr.segs tr.segs.length = tr.segs.length := by simp [skipEmpty]
  unfold Trajectory.endIt Iter.mk'
  simp [this]

theorem at_eq_end {tr : Trajectory T D H E} {it : Iter} (h : At tr.segs it (points tr.segs).length) : it = tr.endIt := by
  have h1 := (at_end_iff h).2 rfl
  obtain ⟨s, pt⟩ := it
  simp only at h1
  subst h1
  have h2 : s = tr.segs.length := h.1
  rw [endIt_eq, h2]

theorem at_deref {segs : List (Seg T D H E)} {it : Iter} {n : Nat} (h : At segs it n) (hn : n < (points segs).length) :
    deref segs it = (points segs)[n]? := by
  obtain ⟨s, _ | k⟩ := it
  · have := h.2; omega
  · obtain ⟨p, h1, h2⟩ := h
    rw [h1, h2]

/-- C19: `find` yields the point at the given time if there is one, and the end otherwise. -/
theorem C19_find (h : Hermite T D H E) (tr : Trajectory T D H E) (hr : Reachable h tr) (t : T) :
    ∃ it, tr.find t = some it ∧ (∀ d, IsPoint tr t d → deref tr.segs it = some (t, d)) ∧ ((∀ d, ¬ IsPoint tr t d) → it = tr.endIt) := by
  obtain ⟨it, h1, h2⟩ := find_spec (inv_of_reachable hr) t
  refine ⟨it, h1, ?_, ?_⟩
  · intro d hd'
    rcases h2 with ⟨d', h3, h4, _⟩ | ⟨h3, _⟩
    · rw [h4, (C18_history h tr hr).2.2 t d d' hd' h3]
    · exact absurd hd' (h3 d)
  · intro hno
    rcases h2 with ⟨d', h3, _⟩ | ⟨_, h4⟩
    · exact absurd h3 (hno d')
    · exact h4

/-- C19: `lower_bound` yields the first point at or after the given time, or the end if there is none. -/
theorem C19_lower_bound (h : Hermite T D H E) (tr : Trajectory T D H E) (hr : Reachable h tr) (t : T) :
    ∃ it, tr.lowerBound t = some it ∧
      (((∀ p d, IsPoint tr p d → p < t) ∧ it = tr.endIt) ∨
       ∃ p d, IsPoint tr p d ∧ t ≤ p ∧ (∀ q e, IsPoint tr q e → t ≤ q → p ≤ q) ∧ deref tr.segs it = some (p, d)) := by
  have hi := inv_of_reachable hr
  obtain ⟨it, h1, h2⟩ := lowerBound_spec hi t
  refine ⟨it, h1, ?_⟩
  by_cases he : SortedMap.lowerBound (points tr.segs) t = (points tr.segs).length
  · left
    refine ⟨?_, at_eq_end (by rw [← he]; exact h2)⟩
    intro p d hp
    exact lowerBound_eq_length sorted_points |>.1 he (p, d) ((mem_points_iff_isPoint hi).2 hp)
  · right
    have hlt := lt_of_le_of_ne (lowerBound_le _ _) he
    have hde := at_deref h2 hlt
    have hg : (points tr.segs)[SortedMap.lowerBound (points tr.segs) t]? = some (points tr.segs)[SortedMap.lowerBound (points tr.segs) t] :=
      List.getElem?_eq_getElem hlt
    generalize ha : (points tr.segs)[SortedMap.lowerBound (points tr.segs) t] = a at hg
    have hmd : a ∈ (points tr.segs).drop (SortedMap.lowerBound (points tr.segs) t) := by
      rw [List.drop_eq_getElem_cons hlt, ha]; exact List.mem_cons_self
    obtain ⟨hm, hta⟩ := (mem_drop_lowerBound sorted_points).1 hmd
    refine ⟨a.1, a.2, (mem_points_iff_isPoint hi).1 hm, hta, ?_, by rw [hde, hg]⟩
    intro q e hq htq
    obtain ⟨m, hmq⟩ := List.mem_iff_getElem?.1 ((mem_points_iff_isPoint hi).2 hq)
    refine (sorted_idx sorted_points hg hmq).2.2.1 ?_
    by_contra hc
    have : (q, e) ∈ (points tr.segs).take (SortedMap.lowerBound (points tr.segs) t) := by
      rw [List.mem_iff_getElem?]
      exact ⟨m, by rw [List.getElem?_take, if_pos (by omega)]; exact hmq⟩
    exact absurd ((mem_take_lowerBound sorted_points).1 this).2 (not_lt.2 htq)

/-- C19: `upper_bound` yields the first point strictly after the given time, or the end if there is none. -/
theorem C19_upper_bound (h : Hermite T D H E) (tr : Trajectory T D H E) (hr : Reachable h tr) (t : T) :
    ∃ it, tr.upperBound t = some it ∧
      (((∀ p d, IsPoint tr p d → p ≤ t) ∧ it = tr.endIt) ∨
       ∃ p d, IsPoint tr p d ∧ t < p ∧ (∀ q e, IsPoint tr q e → t < q → p ≤ q) ∧ deref tr.segs it = some (p, d)) := by
  have hi := inv_of_reachable hr
  obtain ⟨it, h1, h2⟩ := upperBound_spec hi t
  refine ⟨it, h1, ?_⟩
  by_cases he : SortedMap.upperBound (points tr.segs) t = (points tr.segs).length
  · left
    refine ⟨?_, at_eq_end (by rw [← he]; exact h2)⟩
    intro p d hp
    exact upperBound_eq_length sorted_points |>.1 he (p, d) ((mem_points_iff_isPoint hi).2 hp)
  · right
    have hlt := lt_of_le_of_ne (upperBound_le _ _) he
    have hde := at_deref h2 hlt
    have hg : (points tr.segs)[SortedMap.upperBound (points tr.segs) t]? = some (points tr.segs)[SortedMap.upperBound (points tr.segs) t] :=
      List.getElem?_eq_getElem hlt
    generalize ha : (points tr.segs)[SortedMap.upperBound (points tr.segs) t] = a at hg
    have hmd : a ∈ (points tr.segs).drop (SortedMap.upperBound (points tr.segs) t) := by
      rw [List.drop_eq_getElem_cons hlt, ha]; exact List.mem_cons_self
    obtain ⟨hm, hta⟩ := (mem_drop_upperBound sorted_points).1 hmd
    refine ⟨a.1, a.2, (mem_points_iff_isPoint hi).1 hm, hta, ?_, by rw [hde, hg]⟩
    intro q e hq htq
    obtain ⟨m, hmq⟩ := List.mem_iff_getElem?.1 ((mem_points_iff_isPoint hi).2 hq)
    refine (sorted_idx sorted_points hg hmq).2.2.1 ?_
    by_contra hc
    have : (q, e) ∈ (points tr.segs).take (SortedMap.upperBound (points tr.segs) t) := by
      rw [List.mem_iff_getElem?]
      exact ⟨m, by rw [List.getElem?_take, if_pos (by omega)]; exact hmq⟩
    exact absurd htq (not_lt.2 ((mem_take_upperBound sorted_points).1 this).2)

/-- C19: the first and last points of a trajectory. -/
theorem C19_front_back (h : Hermite T D H E) (tr : Trajectory T D H E) (hr : Reachable h tr) :
    (tr.isEmpty = true ↔ ∀ t d, ¬ IsPoint tr t d) ∧
    (tr.isEmpty = false → ∃ f b, tr.front = some f ∧ tr.back = some b ∧ IsPoint tr f.1 f.2 ∧ IsPoint tr b.1 b.2 ∧
      ∀ t d, IsPoint tr t d → f.1 ≤ t ∧ t ≤ b.1) := by
  have hi := inv_of_reachable hr
  constructor
  · rw [← points_eq_nil_iff hi]
    constructor
    · intro e t d hp
      have := (mem_points_iff_isPoint hi).2 hp
      rw [e] at this
      simp at this
    · intro hno
      by_contra hc
      obtain ⟨p, hp⟩ := List.exists_mem_of_ne_nil _ hc
      exact hno p.1 p.2 ((mem_points_iff_isPoint hi).1 hp)
  · intro he
    obtain ⟨f, hf⟩ := front_isSome hi he
    obtain ⟨b, hb⟩ := back_isSome hi he
    obtain ⟨⟨i, hif⟩, hmin⟩ := front_spec hi hf
    have hmax := back_max hi hb
    refine ⟨f, b, hf, hb, isPoint_iff.2 ⟨i, pt_hd hif⟩, ?_, ?_⟩
    · rw [back_eq_lst] at hb
      exact isPoint_iff.2 ⟨_, pt_lst hb⟩
    · intro t d hp
      obtain ⟨j, hj⟩ := isPoint_iff.1 hp
      exact ⟨hmin j _ hj, hmax j _ hj⟩

/-! ## C20: forgetting and appending -/

/-- C20: `ForgetAfter(t)` keeps exactly the points before `t`, except that if a segment starts at `t` and there are points before `t`, the
point at `t` is kept. -/
theorem C20_forget_after (h : Hermite T D H E) (tr : Trajectory T D H E) (hr : Reachable h tr) (hne : tr.segs ≠ []) (t : T) :
    ∃ tr', tr.forgetAfter t = some tr' ∧
      ∀ p d, IsPoint tr' p d ↔ IsPoint tr p d ∧
        (p < t ∨ (p = t ∧ (∃ s ∈ tr.segs, s.points.head?.map Prod.fst = some t) ∧ ∃ q e, IsPoint tr q e ∧ q < t)) := by
  obtain ⟨tr', h1, _, _, h2⟩ := forgetAfter_spec (inv_of_reachable hr) hne t
  refine ⟨tr', h1, ?_⟩
  intro p d
  rw [h2]
  have e : (∃ i, tm tr.segs i = some t) ↔ ∃ s ∈ tr.segs, s.points.head?.map Prod.fst = some t := by
    unfold tm hd Seg.points
    constructor
    · rintro ⟨i, hi⟩
      cases hs : tr.segs[i]? with
      | none => simp [hs] at hi
      | some s =>
        refine ⟨s, List.mem_of_getElem? hs, ?_⟩
        rw [hs] at hi
        simpa [List.head?_map] using hi
    · rintro ⟨s, hs, hp⟩
      obtain ⟨i, hi⟩ := List.mem_iff_getElem?.1 hs
      exact ⟨i, by rw [hi]; simpa [List.head?_map] using hp⟩
  rw [e]

/-- C20: `ForgetBefore(t)` keeps exactly the points at or after `t`, in each segment.  Missing: it crashes if the first point at or after `t`
is strictly after `t`, is at the start of a segment, and is not the first point of the trajectory. -/
theorem C20_forget_before_partial (h : Hermite T D H E) (tr : Trajectory T D H E) (hr : Reachable h tr) (t : T) :
    ((tr.forgetBefore t).isSome = true ↔ ¬ BetweenPointAndBoundary tr t) ∧
    ∀ tr', tr.forgetBefore t = some tr' → tr'.segs.length = tr.segs.length ∧
      (∀ (i : Nat) s s', tr.segs[i]? = some s → tr'.segs[i]? = some s' → s'.points = s.points.filter fun p => t ≤ p.1) ∧
      ∀ p d, IsPoint tr' p d ↔ IsPoint tr p d ∧ t ≤ p := by
  have hi := inv_of_reachable hr
  refine ⟨forgetBefore_isSome hi t, ?_⟩
  intro tr' hs
  obtain ⟨h1, h2, h3, h4⟩ := forgetBefore_spec hi hs
  refine ⟨h2, ?_, h4⟩
  intro i s s' hs1 hs2
  apply ext_mem (sorted_seg_points (h1.segs s' (List.mem_of_getElem? hs2))) ((sorted_seg_points (hi.segs s (List.mem_of_getElem? hs1))).filter _)
  intro p
  have := h3 i p
  unfold pt at this
  rw [hs1, hs2] at this
  simpa using this

/-- C20: `Append` at a time after all the points adds exactly one point at the end of the last segment.  If that segment is downsampled, its
previous last point may be removed. -/
theorem C20_append (h : Hermite T D H E) (tr : Trajectory T D H E) (hr : Reachable h tr) (t : T) (d : D)
    (ht : ∀ p e, IsPoint tr p e → p < t) (s : Seg T D H E) (hs : tr.segs.getLast? = some s) :
    ∃ tr' s', tr.append h t d = some tr' ∧ tr'.segs = tr.segs.dropLast ++ [s'] ∧ s'.tolerance = s.tolerance ∧
      (s'.points = s.points ++ [(t, d)] ∨ (s.tolerance ≠ none ∧ 2 ≤ s.points.length ∧ s'.points = s.points.dropLast ++ [(t, d)])) := by
  have hi := inv_of_reachable hr
  have hne : tr.segs ≠ [] := by rintro e; rw [e] at hs; simp at hs
  obtain ⟨tr', htr'⟩ := append_isSome_of (h := h) (d := d) hi hne ht
  obtain ⟨hI, hcase⟩ := append_spec hi htr'
  rcases hcase with ⟨_, i, hit⟩ | ⟨x, s', hx, happ, hsegs, _⟩
  · exfalso
    obtain ⟨e, he⟩ := hd_of_tm hit
    exact lt_irrefl t (ht t e (isPoint_iff.2 ⟨i, pt_hd he⟩))
  · rw [hs] at hx
    simp only [Option.some.injEq] at hx
    subst hx
    have hsplit : tr.segs = tr.segs.dropLast ++ [s] := by
      rw [List.getLast?_eq_some_getLast hne] at hs
      simp only [Option.some.injEq] at hs
      rw [← hs]; exact (List.dropLast_append_getLast hne).symm
    refine ⟨tr', s', htr', ?_, ?_, ?_⟩
    · rw [hsegs]
      conv_lhs => rw [hsplit]
      rw [List.set_append_right _ _ (by simp)]
      simp
    · cases append_result happ <;> rfl
    · cases append_result happ with
      | first he => left; simp [Seg.points, he, point]
      | ignored a ha e =>
        exfalso
        have hmem : a ∈ s.timeline := List.mem_of_mem_head? ha
        have := ht a.1 a.2.dof ⟨s, List.mem_of_getLast? hs, List.mem_map.2 ⟨a, hmem, rfl⟩⟩
        rw [e] at this
        exact lt_irrefl _ this
      | pushed last hl hlt hd' => left; simp [Seg.points, Seg.push, point]
      | replaced last lower tolerance i hl hlt htol hlower hi' herr =>
        right
        refine ⟨by rw [htol]; simp, ?_, by simp [Seg.points, point, List.map_dropLast]⟩
        cases hst : s.timeline with
        | nil => rw [hst] at hl; simp at hl
        | cons a l =>
          cases l with
          | nil => rw [hst] at hlower; simp at hlower
          | cons b l => simp [Seg.points, hst]

/-! ## C21: iterators -/

/-- C21: the points of a trajectory, in increasing order of the times, each one once. -/
theorem C21_points (h : Hermite T D H E) (tr : Trajectory T D H E) (hr : Reachable h tr) :
    ((points tr.segs).Pairwise fun p q => p.1 < q.1) ∧ (∀ t d, (t, d) ∈ points tr.segs ↔ IsPoint tr t d) ∧
      tr.size = (points tr.segs).length :=
  ⟨sorted_points, fun _ _ => mem_points_iff_isPoint (inv_of_reachable hr), size_spec (inv_of_reachable hr)⟩

/-- C21: an iterator designates a point by its rank in the ordered list of points, or the end.  It starts with the first point; incrementing
and decrementing it go to the next and previous points; at the end and beginning respectively they crash. -/
theorem C21_increment_decrement (h : Hermite T D H E) (tr : Trajectory T D H E) (hr : Reachable h tr) :
    At tr.segs tr.beginIt 0 ∧ At tr.segs tr.endIt (points tr.segs).length ∧
    (∀ it n, At tr.segs it n → n < (points tr.segs).length → deref tr.segs it = (points tr.segs)[n]?) ∧
    (∀ it n, At tr.segs it n → if n < (points tr.segs).length then ∃ it', it.incr tr.segs = some it' ∧ At tr.segs it' (n + 1)
      else it.incr tr.segs = none) ∧
    (∀ it n, At tr.segs it n → if 0 < n then ∃ it', it.decr tr.segs = some it' ∧ At tr.segs it' (n - 1) else it.decr tr.segs = none) := by
  have hi := inv_of_reachable hr
  refine ⟨beginIt_spec hi, endIt_spec tr, fun it n h1 h2 => at_deref h1 h2, ?_, ?_⟩
  · intro it n h1
    split
    · rename_i h2; exact incr_spec hi.segs hi.chain h1 h2
    · rename_i h2
      have := at_le h1
      have e : n = (points tr.segs).length := by omega
      subst e
      exact incr_none h1
  · intro it n h1
    split
    · rename_i h2; exact decr_spec hi.segs hi.chain h1 h2
    · rename_i h2
      have e : n = 0 := by omega
      subst e
      exact decr_none hi.segs hi.chain h1

/-- C21: adding an integer to an iterator or subtracting it is moving by as many points; it crashes if that goes beyond the end or before the
beginning. -/
theorem C21_random_access (h : Hermite T D H E) (tr : Trajectory T D H E) (hr : Reachable h tr) (it : Iter) (n : Nat) (m : Int)
    (hat : At tr.segs it n) :
    (if 0 ≤ n + m ∧ n + m ≤ (points tr.segs).length then ∃ it', it.plus tr.segs m = some it' ∧ At tr.segs it' (n + m).toNat
      else it.plus tr.segs m = none) ∧
    (if 0 ≤ n - m ∧ n - m ≤ (points tr.segs).length then ∃ it', it.minus tr.segs m = some it' ∧ At tr.segs it' (n - m).toNat
      else it.minus tr.segs m = none) := by
  have hi := inv_of_reachable hr
  have h1 := plus_spec hi.segs hi.chain hat m
  have h2 := minus_spec hi.segs hi.chain hat m
  constructor
  · split
    · rename_i hc; exact h1.1 hc.1 hc.2
    · rename_i hc; exact h1.2 (by omega)
  · split
    · rename_i hc; exact h2.1 hc.1 hc.2
    · rename_i hc; exact h2.2 (by omega)

/-- C21: the comparisons of iterators are those of the ranks, and their difference is that of the ranks.  Missing: the difference crashes when
it is negative. -/
theorem C21_compare_and_difference_partial (h : Hermite T D H E) (tr : Trajectory T D H E) (hr : Reachable h tr) (a b : Iter) (n m : Nat)
    (ha : At tr.segs a n) (hb : At tr.segs b m) :
    (a.eq tr.segs b = true ↔ n = m) ∧ (a.lt tr.segs b = true ↔ n < m) ∧ (a.gt tr.segs b = true ↔ m < n) ∧
    (a.le tr.segs b = true ↔ n ≤ m) ∧ (a.ge tr.segs b = true ↔ m ≤ n) ∧
    (m ≤ n → a.distance tr.segs b = some (n - m)) ∧ (n < m → a.distance tr.segs b = none) := by
  have hi := inv_of_reachable hr
  have h1 := lt_spec ha hb
  have h2 := gt_spec ha hb
  refine ⟨eq_spec ha hb, h1, h2, ?_, ?_, (distance_spec hi.segs hi.chain ha hb).1, (distance_spec hi.segs hi.chain ha hb).2⟩
  · unfold Iter.le
    rw [Bool.not_eq_true', Bool.eq_false_iff, ne_eq, h2]
    omega
  · unfold Iter.ge
    rw [Bool.not_eq_true', Bool.eq_false_iff, ne_eq, h1]
    omega

/-- C21: iterating over a segment yields its points. -/
theorem C21_segment_range (h : Hermite T D H E) (tr : Trajectory T D H E) (hr : Reachable h tr) (i : Nat) (s : Seg T D H E)
    (hs : tr.segs[i]? = some s) :
    ∃ it n, segEnd tr.segs i = some it ∧ At tr.segs (segBegin tr.segs i) n ∧ At tr.segs it (n + s.points.length) ∧
      ((points tr.segs).drop n).take s.points.length = s.points :=
  segment_range (inv_of_reachable hr).segs (inv_of_reachable hr).chain hs

/-! ## C22: detaching and attaching -/

/-- C22: detaching distributes the segments; it is possible if some of the detached segments is not empty. -/
theorem C22_detach (h : Hermite T D H E) (tr : Trajectory T D H E) (hr : Reachable h tr) (k : Nat) (a b : Trajectory T D H E)
    (hd' : tr.detachSegments k = some (a, b)) :
    a.segs = tr.segs.take k ∧ b.segs = tr.segs.drop k ∧ Consistent a ∧ Consistent b ∧
      (∀ t d, IsPoint tr t d ↔ IsPoint a t d ∨ IsPoint b t d) := by
  have hi := inv_of_reachable hr
  obtain ⟨m, p, hkm, hmp⟩ := detachSegments_isSome hd'
  obtain ⟨a', b', hab, ha, hb, has, hbs⟩ := detachSegments_spec hi hkm hmp
  rw [hd'] at hab
  simp only [Option.some.injEq, Prod.mk.injEq] at hab
  obtain ⟨rfl, rfl⟩ := hab
  refine ⟨has, hbs, consistent_of_inv ha, consistent_of_inv hb, ?_⟩
  intro t d
  unfold IsPoint
  rw [has, hbs]
  constructor
  · rintro ⟨s, hs, hp⟩
    rw [← List.take_append_drop k tr.segs, List.mem_append] at hs
    rcases hs with hs | hs
    · exact Or.inl ⟨s, hs, hp⟩
    · exact Or.inr ⟨s, hs, hp⟩
  · rintro (⟨s, hs, hp⟩ | ⟨s, hs, hp⟩)
    · exact ⟨s, List.mem_of_mem_take hs, hp⟩
    · exact ⟨s, List.mem_of_mem_drop hs, hp⟩

/-- C22: attaching is possible exactly if the trajectories are `Attachable`; it concatenates the segments and yields the union of the points.
If the trajectories do not share a point, the last point of the first one is added to the first attached segment. -/
theorem C22_attach (h : Hermite T D H E) (tr tj : Trajectory T D H E) (hr : Reachable h tr) (hj : Reachable h tj) :
    ((tr.attachSegments h tj).isSome = true ↔ Attachable tr tj) ∧
    ∀ r n, tr.attachSegments h tj = some (r, n) →
      Consistent r ∧ n = (if tr.isEmpty then 0 else tr.segs.length) ∧ r.segs.length = n + tj.segs.length ∧
      (∀ t d, IsPoint r t d ↔ IsPoint tr t d ∨ IsPoint tj t d) ∧
      (∀ i s, i < n → tr.segs[i]? = some s → r.segs[i]? = some s) ∧
      (∀ i s, 0 < i → tj.segs[i]? = some s → r.segs[n + i]? = some s) ∧
      ∃ s s', tj.segs[0]? = some s ∧ r.segs[n]? = some s' ∧ (s' = s ∨ ∃ p, tr.back = some p ∧ s'.points = p :: s.points) := by
  have hi := inv_of_reachable hr
  have hji := inv_of_reachable hj
  constructor
  · constructor
    · intro hs
      obtain ⟨⟨r, n⟩, e⟩ := Option.isSome_iff_exists.1 hs
      exact attach_attachable hi hji e
    · intro ha
      obtain ⟨r, e, _⟩ := attachSegments_spec (h := h) hi hji ha
      rw [e]; rfl
  · intro r n e
    obtain ⟨h1, h2⟩ := attach_spec hi hji e
    exact ⟨consistent_of_inv h1, h2⟩

/-- C22: attaching the detached segments yields the original trajectory, including its look-up structure.  If no point was left, the empty
segments that were left are lost. -/
theorem C22_round_trip (h : Hermite T D H E) (tr : Trajectory T D H E) (hr : Reachable h tr) (k : Nat) (a b : Trajectory T D H E)
    (hd' : tr.detachSegments k = some (a, b)) :
    (a.isEmpty = false → a.attachSegments h b = some (tr, k)) ∧
      (a.isEmpty = true → a.attachSegments h b = some (b, 0) ∧ ∀ t d, IsPoint b t d ↔ IsPoint tr t d) :=
  detach_attach (inv_of_reachable hr) hd'

/-! ## C23: merging -/

/-- C23: a successful merge yields the union of the points, segment by segment; at a common time the point of the target is kept. -/
theorem C23_merge (h : Hermite T D H E) (tr tj r : Trajectory T D H E) (hr : Reachable h tr) (hj : Reachable h tj)
    (hm : tr.merge h tj = some r) :
    Consistent r ∧ r.segs.length = max tr.segs.length tj.segs.length ∧
      (∀ (i : Nat) p, (∃ s, r.segs[i]? = some s ∧ p ∈ s.points) ↔
        (∃ s, tr.segs[i]? = some s ∧ p ∈ s.points) ∨
        ((∃ s, tj.segs[i]? = some s ∧ p ∈ s.points) ∧ ∀ q, (∃ s, tr.segs[i]? = some s ∧ q ∈ s.points) → q.1 ≠ p.1)) ∧
      ∀ t d, IsPoint r t d ↔ IsPoint tr t d ∨ (IsPoint tj t d ∧ ∀ d', ¬ IsPoint tr t d') := by
  obtain ⟨h1, h2, h3, h4⟩ := merge_spec (inv_of_reachable hr) (inv_of_reachable hj) hm
  exact ⟨consistent_of_inv h1, h2, h3, h4⟩

/-- C23: merging is possible if the segments with the same index can be merged and the resulting segments share their boundaries; extra segments
of the source must not be all empty. -/
theorem C23_merge_progress (h : Hermite T D H E) (tr tj : Trajectory T D H E) (hr : Reachable h tr) (hj : Reachable h tj)
    (c : List (Seg T D H E)) (hc : combine h tr.segs tj.segs = some c)
    (hchain : ∀ i s s', c[i]? = some s → c[i + 1]? = some s' → s.points ≠ [] → s'.points.head? = s.points.getLast?)
    (hextra : tr.segs.length < tj.segs.length → ∃ s ∈ tj.segs.drop tr.segs.length, s.points ≠ []) :
    ∃ r, tr.merge h tj = some r ∧ r.segs = c := by
  refine merge_isSome (inv_of_reachable hr) (inv_of_reachable hj) hc ?_ ?_
  · intro i hi p hp
    have hs : c[i]? = some c[i] := List.getElem?_eq_getElem (by omega)
    have hs' : c[i + 1]? = some c[i + 1] := List.getElem?_eq_getElem hi
    have hl : (c[i]).points.getLast? = lst c i := by rw [lst_of_getElem? hs]; unfold Seg.points; rw [List.getLast?_map]
    have hh : (c[i + 1]).points.head? = hd c (i + 1) := by rw [hd_of_getElem? hs']; unfold Seg.points; rw [List.head?_map]
    rw [← hh, hchain i _ _ hs hs' (by
      intro e
      rw [← hl, e] at hp
      simp at hp), hl, hp]
  · intro hlt
    obtain ⟨s, hs, hne⟩ := hextra hlt
    obtain ⟨j, hj'⟩ := List.mem_iff_getElem?.1 hs
    rw [List.getElem?_drop] at hj'
    refine ⟨tr.segs.length + j, ?_⟩
    rw [hd_of_getElem? hj']
    cases hst : s.timeline with
    | nil => exact absurd (by unfold Seg.points; rw [hst]; rfl) hne
    | cons a l => exact ⟨_, by omega, rfl⟩

/-- C23: two segments can be merged exactly if the points of one are not after those of the other one. -/
theorem C23_segment_merge (h : Hermite T D H E) (tr tj : Trajectory T D H E) (hr : Reachable h tr) (hj : Reachable h tj)
    (s s2 : Seg T D H E) (hs : s ∈ tr.segs) (hs2 : s2 ∈ tj.segs) :
    (s.merge h s2).isSome = true ↔ (∀ p ∈ s.points, ∀ q ∈ s2.points, p.1 ≤ q.1) ∨ (∀ p ∈ s.points, ∀ q ∈ s2.points, q.1 ≤ p.1) :=
  segMerge_isSome ((inv_of_reachable hr).segs s hs) ((inv_of_reachable hj).segs s2 hs2)

/-! ## Examples and counterexamples -/

/-- Times, degrees of freedom and lengths are integers; an interpolation is the slope; the distance of two interpolations is the distance of
the slopes. -/
def exHermite : Hermite Int Int Int Int where
  make p q := (q.2 - p.2) / (q.1 - p.1)
  distance a b := |a - b|

/-- A trajectory with an empty segment, one with two points, one with a single point, and one with three points. -/
def exOps : List (Op Int Int Int) :=
  [.new 0, .newSegment 0, .append 0 0 1, .append 0 10 2, .newSegment 0, .newSegment 0, .append 0 20 3, .append 0 30 4]

def exPoints (ops : List (Op Int Int Int)) (i : Nat) : Option (List (List (Int × Int))) :=
  (run exHermite (fun _ => none) ops).bind fun pool => (pool i).map fun tr => tr.segs.map Seg.points

example : exPoints exOps 0 = some [[], [(0, 1), (10, 2)], [(10, 2)], [(10, 2), (20, 3), (30, 4)]] := by decide +kernel

/-- The trajectory of this example. -/
def exTrajectory : Trajectory Int Int Int Int :=
  ((run exHermite (fun _ => none) exOps).bind fun pool => pool 0).getD Trajectory.new

theorem exTrajectory_reachable : Reachable exHermite exTrajectory := by
  have h : ((run exHermite (fun _ => none) exOps).bind fun pool => pool 0).isSome = true := by decide +kernel
  obtain ⟨tr, htr⟩ := Option.isSome_iff_exists.1 h
  obtain ⟨pool, h1, h2⟩ := Option.bind_eq_some_iff.1 htr
  refine ⟨exOps, pool, 0, h1, ?_⟩
  unfold exTrajectory
  rw [htr]; exact h2

example : points exTrajectory.segs = [(0, 1), (10, 2), (20, 3), (30, 4)] := by decide +kernel
example : exTrajectory.size = 4 := by decide +kernel

-- Look-up of a time on a boundary, between two points, and outside of the trajectory.
example : (exTrajectory.find 10).bind (deref exTrajectory.segs) = some (10, 2) := by decide +kernel
example : (exTrajectory.lowerBound 11).bind (deref exTrajectory.segs) = some (20, 3) := by decide +kernel
example : (exTrajectory.upperBound 10).bind (deref exTrajectory.segs) = some (20, 3) := by decide +kernel
example : (exTrajectory.find 5) = some exTrajectory.endIt := by decide +kernel

-- Iterators.
example : (exTrajectory.beginIt.plus exTrajectory.segs 3).bind (deref exTrajectory.segs) = some (30, 4) := by decide +kernel
example : (exTrajectory.endIt.minus exTrajectory.segs 3).bind (deref exTrajectory.segs) = some (10, 2) := by decide +kernel
example : exTrajectory.endIt.distance exTrajectory.segs exTrajectory.beginIt = some 4 := by decide +kernel

-- Forgetting.
example : exPoints (exOps ++ [.forgetAfter 0 25]) 0 = some [[], [(0, 1), (10, 2)], [(10, 2)], [(10, 2), (20, 3)]] := by decide +kernel
example : exPoints (exOps ++ [.forgetAfter 0 10]) 0 = some [[], [(0, 1), (10, 2)]] := by decide +kernel
example : exPoints (exOps ++ [.forgetBefore 0 10]) 0 = some [[], [(10, 2)], [(10, 2)], [(10, 2), (20, 3), (30, 4)]] := by decide +kernel
example : exPoints (exOps ++ [.forgetBefore 0 15]) 0 = some [[], [], [], [(20, 3), (30, 4)]] := by decide +kernel
example : exPoints (exOps ++ [.append 0 40 5]) 0 = some [[], [(0, 1), (10, 2)], [(10, 2)], [(10, 2), (20, 3), (30, 4), (40, 5)]] := by
  decide +kernel

-- Detaching and attaching.
example : exPoints (exOps ++ [.detach 0 3 1]) 0 = some [[], [(0, 1), (10, 2)], [(10, 2)]] ∧
    exPoints (exOps ++ [.detach 0 3 1]) 1 = some [[(10, 2), (20, 3), (30, 4)]] := by decide +kernel
example : exPoints (exOps ++ [.detach 0 3 1, .attach 0 1]) 0 = exPoints exOps 0 := by decide +kernel
example : exPoints [.new 0, .append 0 0 1, .new 1, .append 1 10 2, .append 1 20 3, .attach 0 1] 0 =
    some [[(0, 1)], [(0, 1), (10, 2), (20, 3)]] := by decide +kernel

-- Merging.
example : exPoints (exOps ++ [.new 1, .append 1 (-10) 0, .newSegment 1, .append 1 0 1, .clear 1, .newSegment 1, .append 1 (-5) 7, .merge 0 1]) 0 =
    some [[], [(-5, 7), (0, 1), (10, 2)], [(10, 2)], [(10, 2), (20, 3), (30, 4)]] := by decide +kernel

/-- C20: `ForgetBefore(t)` is not possible for all times: here a time between the only two points of a segment followed by another one. -/
theorem C20_forget_before_counterexample :
    ∃ (tr : Trajectory Int Int Int Int) (t : Int), Reachable exHermite tr ∧ (∃ p d, IsPoint tr p d ∧ p < t) ∧ (∃ p d, IsPoint tr p d ∧ t < p) ∧
      tr.forgetBefore t = none := by
  refine ⟨exTrajectory, 5, exTrajectory_reachable, ⟨0, 1, ?_⟩, ⟨10, 2, ?_⟩, by decide +kernel⟩
  · exact ⟨(mem_points_iff_isPoint (inv_of_reachable exTrajectory_reachable)).1 (by decide +kernel), by decide⟩
  · exact ⟨(mem_points_iff_isPoint (inv_of_reachable exTrajectory_reachable)).1 (by decide +kernel), by decide⟩

/-- C20: `ForgetAfter(t)` does not always remove the point at `t`. -/
theorem C20_forget_after_counterexample :
    ∃ (tr tr' : Trajectory Int Int Int Int) (t : Int) (d : Int), Reachable exHermite tr ∧ tr.forgetAfter t = some tr' ∧ IsPoint tr' t d := by
  have hr := exTrajectory_reachable
  obtain ⟨tr', h1, h2⟩ := C20_forget_after exHermite exTrajectory hr (by decide +kernel) 10
  refine ⟨exTrajectory, tr', 10, 2, hr, h1, (h2 10 2).2 ⟨?_, Or.inr ⟨rfl, ?_, 0, 1, ?_, by decide⟩⟩⟩
  · exact (mem_points_iff_isPoint (inv_of_reachable hr)).1 (by decide +kernel)
  · decide +kernel
  · exact (mem_points_iff_isPoint (inv_of_reachable hr)).1 (by decide +kernel)

/-- C21: the difference of two iterators is not always defined. -/
theorem C21_difference_counterexample :
    Reachable exHermite exTrajectory ∧ exTrajectory.beginIt.distance exTrajectory.segs exTrajectory.endIt = none :=
  ⟨exTrajectory_reachable, by decide +kernel⟩

end Principia.DiscreteTrajectory
