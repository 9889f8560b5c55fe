import Verif.Base.ThreadPoolModel
import Mathlib.Tactic.ByContra
import Mathlib.Data.List.Perm.Basic

/-!
# C10: thread pool
-/

set_option linter.unusedSimpArgs false
set_option linter.unusedVariables false

namespace Principia.ThreadPool

open Principia.Lts

def ThreadPc.isBusy : ThreadPc → Bool
  | .executing _ | .finishing => true
  | _ => false

def ThreadPc.isWaiting : ThreadPc → Bool
  | .waiting => true
  | _ => false

def ThreadPc.current : ThreadPc → Option Nat
  | .executing c => some c
  | _ => none

/-- The calls being executed. -/
def running (s : State) : List Nat := s.threads.filterMap ThreadPc.current

structure Inv (n : Nat) (s : State) : Prop where
  size : s.threads.length = n
  fifo : s.started ++ s.calls = s.added
  busy : s.busy = s.threads.countP (·.isBusy)
  terminated : ∀ t ∈ s.threads, t = .terminated → s.shutdown = true
  completed : (s.completed ++ running s).Perm s.started

theorem filterMap_set_perm (f : ThreadPc → Option Nat) {l : List ThreadPc} {i : Nat} {p q : ThreadPc} (h : l[i]? = some p) :
    ((f p).toList ++ (l.set i q).filterMap f).Perm ((f q).toList ++ l.filterMap f) := by
  induction l generalizing i with
  | nil => simp at h
  | cons x l ih =>
    cases i with
    | zero =>
      simp at h; subst h
      simp only [List.set_cons_zero]
      have e : ∀ y, (y :: l).filterMap f = (f y).toList ++ l.filterMap f := by
        intro y; cases hy : f y <;> simp [List.filterMap_cons, hy]
      rw [e, e, ← List.append_assoc, ← List.append_assoc]
      exact (List.perm_append_comm).append_right _
    | succ i =>
      simp at h
      have := ih h
      simp only [List.set_cons_succ]
      have e : ∀ m : List ThreadPc, (x :: m).filterMap f = (f x).toList ++ m.filterMap f := by
        intro m; cases hy : f x <;> simp [List.filterMap_cons, hy]
      rw [e, e]
      refine (List.perm_append_comm_assoc _ _ _).trans ?_
      refine List.Perm.trans ?_ (List.perm_append_comm_assoc _ _ _).symm
      exact this.append_left _

theorem countP_set' (f : ThreadPc → Bool) {l : List ThreadPc} {i : Nat} {a b : ThreadPc}
    (h : l[i]? = some a) :
    (l.set i b).countP f + (if f a then 1 else 0) = l.countP f + (if f b then 1 else 0) := by
  obtain ⟨hi, e⟩ := List.getElem?_eq_some_iff.1 h
  rw [List.countP_set hi, e]
  have : f a = true → 0 < l.countP f := by
    intro hf
    exact List.countP_pos_iff.2 ⟨a, List.mem_of_getElem? h, hf⟩
  split <;> split <;> simp_all <;> omega

theorem inv_init (n : Nat) : Inv n (init n) := by
  refine ⟨by simp [init], rfl, ?_, ?_, ?_⟩
  · simp [init, List.countP_replicate, ThreadPc.isBusy]
  · intro t ht e
    simp [init] at ht
    rw [ht.2] at e; simp at e
  · have : running (init n) = [] := by
      unfold running init
      induction n with
      | zero => rfl
      | succ n ih => simpa [List.replicate_succ, List.filterMap_cons, ThreadPc.current] using ih
    rw [this]; simp [init]

theorem inv_push {n : Nat} {s : State} (h : Inv n s) (c : Nat) : Inv n (push s c) := by
  refine ⟨h.size, ?_, h.busy, h.terminated, h.completed⟩
  simp only [push]
  rw [← List.append_assoc, h.fifo]

theorem inv_step {n : Nat} (s : State) (l : Label) (s' : State) (h : Inv n s) (hs : step s l = some s') : Inv n s' := by
  cases l with
  | add c => simp only [step, Option.some.injEq] at hs; subst hs; exact inv_push h c
  | tryStart c =>
    simp only [step] at hs
    split at hs <;> (simp only [Option.some.injEq] at hs; subst hs)
    · exact ⟨h.size, h.fifo, h.busy, h.terminated, h.completed⟩
    · exact h
  | tryFinish c =>
    simp only [step] at hs
    split at hs
    · have h' : Inv n { s with trying := s.trying.erase c } := ⟨h.size, h.fifo, h.busy, h.terminated, h.completed⟩
      split at hs <;> (simp only [Option.some.injEq] at hs; subst hs)
      · exact inv_push h' c
      · exact h'
    · simp at hs
  | shutdown =>
    simp only [step, Option.some.injEq] at hs; subst hs
    exact ⟨h.size, h.fifo, h.busy, fun _ _ _ => rfl, h.completed⟩
  | thread i =>
    simp only [step, threadStep, Option.bind_eq_bind, Option.bind_eq_some_iff] at hs
    obtain ⟨p, hi, hs⟩ := hs
    have kb := fun q => countP_set' (·.isBusy) (b := q) hi
    have kp := fun q => filterMap_set_perm ThreadPc.current (q := q) hi
    have hb := h.busy
    have b1 : ThreadPc.isBusy .waiting = false := rfl
    have b2 : ∀ c, ThreadPc.isBusy (.executing c) = true := fun _ => rfl
    have b3 : ThreadPc.isBusy .finishing = true := rfl
    have b4 : ThreadPc.isBusy .terminated = false := rfl
    have c1 : ThreadPc.current .waiting = none := rfl
    have c2 : ∀ c, ThreadPc.current (.executing c) = some c := fun _ => rfl
    have c3 : ThreadPc.current .finishing = none := rfl
    have c4 : ThreadPc.current .terminated = none := rfl
    have hterm : ∀ q, q ≠ .terminated → ∀ t ∈ s.threads.set i q, t = .terminated → s.shutdown = true := by
      intro q hq t ht e
      rcases List.mem_or_eq_of_mem_set ht with ht | rfl
      · exact h.terminated t ht e
      · exact absurd e hq
    cases p with
    | waiting =>
      simp only at hs
      split at hs
      · rename_i hsh
        simp only [Option.some.injEq] at hs; subst hs
        have k1 := kb .terminated
        have k2 := kp .terminated
        simp only [b1, b4, Bool.false_eq_true, if_false, Nat.add_zero] at k1
        simp only [c1, c4, Option.toList_none, List.nil_append] at k2
        refine ⟨by simpa using h.size, h.fifo, by simp only [k1]; exact hb, fun _ _ _ => hsh, ?_⟩
        exact (k2.append_left _).trans h.completed
      · split at hs
        · simp at hs
        · rename_i c cs hc
          simp only [Option.some.injEq] at hs; subst hs
          have k1 := kb (.executing c)
          have k2 := kp (.executing c)
          simp only [b1, b2, Bool.false_eq_true, if_false, if_true, Nat.add_zero] at k1
          simp only [c1, c2, Option.toList_none, Option.toList_some, List.nil_append] at k2
          refine ⟨by simpa using h.size, ?_, by simp only [k1]; omega, hterm _ (by simp), ?_⟩
          · have := h.fifo; rw [hc] at this; simp only; rw [← this]; simp
          · refine (k2.append_left _).trans ?_
            refine (List.perm_append_comm_assoc _ _ _).trans ?_
            refine (List.perm_append_comm).trans ?_
            exact h.completed.append_right _
    | executing c =>
      simp only [Option.some.injEq] at hs; subst hs
      have k1 := kb .finishing
      have k2 := kp .finishing
      simp only [b3, b2, Bool.false_eq_true, if_false, if_true, Nat.add_zero, Nat.add_right_cancel_iff] at k1
      simp only [c3, c2, Option.toList_none, Option.toList_some, List.nil_append] at k2
      refine ⟨by simpa using h.size, h.fifo, by simp only [k1]; exact hb, hterm _ (by simp), ?_⟩
      simp only [List.append_assoc]
      exact (k2.append_left _).trans h.completed
    | finishing =>
      simp only [Option.some.injEq] at hs; subst hs
      have k1 := kb .waiting
      have k2 := kp .waiting
      simp only [b1, b3, Bool.false_eq_true, if_false, if_true, Nat.add_zero] at k1
      simp only [c1, c3, Option.toList_none, Option.toList_some, List.nil_append] at k2
      refine ⟨by simpa using h.size, h.fifo, by simp only; omega, hterm _ (by simp), ?_⟩
      exact (k2.append_left _).trans h.completed
    | terminated => simp at hs

theorem countP_waiting {n : Nat} {s : State} (h : Inv n s) (hns : s.shutdown = false) :
    s.threads.countP (·.isWaiting) + s.threads.countP (·.isBusy) = n := by
  have : ∀ l : List ThreadPc, (∀ t ∈ l, t ≠ .terminated) →
      l.countP (·.isWaiting) + l.countP (·.isBusy) = l.length := by
    intro l hl
    induction l with
    | nil => rfl
    | cons t l ih =>
      have := ih (fun t ht => hl t (List.mem_cons_of_mem _ ht))
      simp only [List.countP_cons, List.length_cons]
      have ht := hl t (by simp)
      cases t
      case waiting =>
        have e1 : ThreadPc.isWaiting .waiting = true := rfl
        have e2 : ThreadPc.isBusy .waiting = false := rfl
        simp only [e1, e2, if_true, Bool.false_eq_true, if_false]; omega
      case executing c =>
        have e1 : ThreadPc.isWaiting (.executing c) = false := rfl
        have e2 : ThreadPc.isBusy (.executing c) = true := rfl
        simp only [e1, e2, if_true, Bool.false_eq_true, if_false]; omega
      case finishing =>
        have e1 : ThreadPc.isWaiting .finishing = false := rfl
        have e2 : ThreadPc.isBusy .finishing = true := rfl
        simp only [e1, e2, if_true, Bool.false_eq_true, if_false]; omega
      case terminated => exact absurd rfl ht
  rw [this s.threads (fun t ht e => by have := h.terminated t ht e; rw [hns] at this; simp at this), h.size]

/-- **C10**: for every pool size and every schedule, the calls started so far, in order, followed by the calls which are
queued, are exactly the calls that were accepted, in the order in which they were accepted: each accepted call is started at
most once, and in order.  The calls that were started are those that are executing and those that are completed, each exactly
once, and no more than `poolSize` are executing at any time. -/
theorem C10_order (poolSize : Nat) (schedule : List Label) (s : State) (h : run step (init poolSize) schedule = some s) :
    s.started ++ s.calls = s.added ∧ (s.completed ++ running s).Perm s.started ∧ (running s).length ≤ poolSize := by
  have hi := run_invariant (step := step) (Inv poolSize) inv_step (inv_init poolSize) h
  refine ⟨hi.fifo, hi.completed, ?_⟩
  exact Nat.le_trans (List.length_filterMap_le _ _) (Nat.le_of_eq hi.size)

/-- What `added` means: a call to `Add` is always accepted. -/
theorem C10_add (s : State) (c : Nat) : ∃ s', step s (.add c) = some s' ∧ s'.added = s.added ++ [c] :=
  ⟨_, rfl, rfl⟩

/-- **C10**: `TryAdd` accepts a call only if, at that point, there are enough threads waiting for a call for all the queued calls,
including this one, to be executed immediately (the pool not being shut down). -/
theorem C10_tryAdd (poolSize : Nat) (schedule : List Label) (s s' : State) (c : Nat)
    (h : run step (init poolSize) schedule = some s) (hns : s.shutdown = false)
    (hs : step s (.tryFinish c) = some s') :
    (s'.added = s.added ++ [c] ∧ s'.calls = s.calls ++ [c] ∧ s'.calls.length ≤ s'.threads.countP (·.isWaiting)) ∨
    (s'.added = s.added ∧ s'.calls = s.calls ∧ s.threads.countP (·.isWaiting) ≤ s.calls.length) := by
  have hi := run_invariant (step := step) (Inv poolSize) inv_step (inv_init poolSize) h
  have hw := countP_waiting hi hns
  have hb := hi.busy
  have hsz := hi.size
  simp only [step] at hs
  split at hs
  · split at hs
    · rename_i hc
      simp only [Option.some.injEq] at hs; subst hs
      left
      refine ⟨rfl, rfl, ?_⟩
      simp only [canSchedule, decide_eq_true_eq] at hc
      simp only [push, List.length_append, List.length_singleton]
      omega
    · rename_i hc
      simp only [Option.some.injEq] at hs; subst hs
      right
      refine ⟨rfl, rfl, ?_⟩
      simp only [canSchedule, decide_eq_true_eq] at hc
      omega
  · simp at hs

/-- A label of a worker thread. -/
def Label.isThread : Label → Bool
  | .thread _ => true
  | _ => false

/-- **C10**: as long as the pool is not shut down and has at least one thread, either some thread can take a step, or all the
calls accepted are completed, each exactly once. -/
theorem C10_progress (poolSize : Nat) (hp : 0 < poolSize) (schedule : List Label) (s : State)
    (h : run step (init poolSize) schedule = some s) (hns : s.shutdown = false) :
    (∃ i s', step s (.thread i) = some s') ∨ s.completed.Perm s.added := by
  have hi := run_invariant (step := step) (Inv poolSize) inv_step (inv_init poolSize) h
  by_cases hb : ∃ t ∈ s.threads, t.isBusy = true
  · left
    obtain ⟨t, ht, hb⟩ := hb
    obtain ⟨i, hi', e⟩ := List.mem_iff_getElem.1 ht
    refine ⟨i, ?_⟩
    simp only [step, threadStep, List.getElem?_eq_getElem hi', e, Option.bind_eq_bind, Option.bind_some]
    cases t with
    | waiting => simp [ThreadPc.isBusy] at hb
    | executing c => exact ⟨_, rfl⟩
    | finishing => exact ⟨_, rfl⟩
    | terminated => simp [ThreadPc.isBusy] at hb
  · have hw : ∀ t ∈ s.threads, t = .waiting := by
      intro t ht
      cases t with
      | waiting => rfl
      | executing c => exact absurd ⟨_, ht, rfl⟩ hb
      | finishing => exact absurd ⟨_, ht, rfl⟩ hb
      | terminated => have := hi.terminated _ ht rfl; rw [hns] at this; simp at this
    cases hc : s.calls with
    | cons c cs =>
      left
      have hlt : 0 < s.threads.length := by rw [hi.size]; exact hp
      refine ⟨0, ?_⟩
      simp only [step, threadStep, List.getElem?_eq_getElem hlt, hw _ (List.getElem_mem hlt), hc, hns, Option.bind_eq_bind,
        Option.bind_some, Bool.false_eq_true, if_false]
      exact ⟨_, rfl⟩
    | nil =>
      right
      have h1 := hi.fifo
      rw [hc, List.append_nil] at h1
      have h2 : running s = [] := by
        unfold running
        rw [List.filterMap_eq_nil_iff]
        intro t ht; rw [hw t ht]; rfl
      have h3 := hi.completed
      rw [h2, List.append_nil, h1] at h3
      exact h3

/-- The number of steps that the threads may take. -/
def remaining (s : State) : Nat :=
  3 * s.calls.length + 2 * (running s).length + s.threads.countP (fun t => decide (t = .finishing))

theorem remaining_step {s s' : State} {i : Nat} (hns : s.shutdown = false) (hs : threadStep s i = some s') :
    s'.shutdown = false ∧ remaining s' < remaining s := by
  simp only [threadStep, Option.bind_eq_bind, Option.bind_eq_some_iff] at hs
  obtain ⟨p, hi, hs⟩ := hs
  have kf := fun q => countP_set' (fun t => decide (t = .finishing)) (b := q) hi
  have kp := fun q => (filterMap_set_perm ThreadPc.current (q := q) hi).length_eq
  simp only [List.length_append] at kp
  have c1 : ThreadPc.current .waiting = none := rfl
  have c2 : ∀ c, ThreadPc.current (.executing c) = some c := fun _ => rfl
  have c3 : ThreadPc.current .finishing = none := rfl
  cases p with
  | waiting =>
    simp only [hns, Bool.false_eq_true, if_false] at hs
    split at hs
    · simp at hs
    · rename_i c cs hc
      simp only [Option.some.injEq] at hs; subst hs
      have k1 := kf (.executing c)
      have k2 := kp (.executing c)
      simp [c1, c2] at k1 k2
      refine ⟨rfl, ?_⟩
      simp only [remaining, running, hc, List.length_cons]
      omega
  | executing c =>
    simp only [Option.some.injEq] at hs; subst hs
    have k1 := kf .finishing
    have k2 := kp .finishing
    simp [c3, c2] at k1 k2
    refine ⟨hns, ?_⟩
    simp only [remaining, running]
    omega
  | finishing =>
    simp only [Option.some.injEq] at hs; subst hs
    have k1 := kf .waiting
    have k2 := kp .waiting
    simp [c3, c1] at k1 k2
    refine ⟨hns, ?_⟩
    simp only [remaining, running]
    omega
  | terminated => simp at hs

/-- **C10**: the threads can only take a bounded number of steps without being given new calls: together with `C10_progress`,
once the clients stop adding calls, all the calls accepted complete. -/
theorem C10_termination (poolSize : Nat) (schedule schedule' : List Label) (s s' : State)
    (h : run step (init poolSize) schedule = some s) (hns : s.shutdown = false)
    (hthreads : ∀ l ∈ schedule', l.isThread = true) (h' : run step s schedule' = some s') :
    schedule'.length ≤ 3 * s.added.length + poolSize := by
  have hi := run_invariant (step := step) (Inv poolSize) inv_step (inv_init poolSize) h
  suffices H : ∀ (ls : List Label) (s s' : State), (∀ l ∈ ls, l.isThread = true) → s.shutdown = false →
      run step s ls = some s' → ls.length ≤ remaining s by
    have h1 := H schedule' s s' hthreads hns h'
    have h2 := hi.fifo
    have h3 := hi.completed.length_eq
    have h4 : s.threads.countP (fun t => decide (t = .finishing)) ≤ s.threads.length := List.countP_le_length
    rw [hi.size] at h4
    rw [← h2]
    simp only [List.length_append] at h3 ⊢
    simp only [remaining] at h1
    omega
  intro ls
  induction ls with
  | nil => intro s s' _ _ _; simp
  | cons l ls ih =>
    intro s s' hl hns hr
    simp only [run, Option.bind_eq_some_iff] at hr
    obtain ⟨s1, h1, h2⟩ := hr
    cases l with
    | thread i =>
      obtain ⟨k1, k2⟩ := remaining_step hns h1
      have := ih s1 s' (fun l hm => hl l (List.mem_cons_of_mem _ hm)) k1 h2
      simp only [List.length_cons]; omega
    | _ => have := hl _ List.mem_cons_self; simp [Label.isThread] at this

/-- The destructor drops the calls that were accepted but not started: their futures never become ready with a value. -/
theorem C10_shutdown_drops_calls :
    ∃ schedule s, run step (init 1) schedule = some s ∧ s.added = [7, 8] ∧ s.completed = [7] ∧
      (∀ l, l.isThread = true → step s l = none) := by
  refine ⟨[.add 7, .add 8, .thread 0, .shutdown, .thread 0, .thread 0, .thread 0], _, rfl, rfl, rfl, ?_⟩
  intro l hl
  cases l with
  | thread i =>
    cases i with
    | zero => rfl
    | succ i => simp [step, threadStep, push, init]
  | _ => simp [Label.isThread] at hl

/-- Non-vacuity: two threads, one call added and one call tried successfully, another one rejected. -/
example : ∃ schedule s s', run step (init 2) schedule = some s ∧ s.shutdown = false ∧ s.added = [1, 2] ∧
    s.started = [1] ∧ step s (.tryFinish 3) = some s' ∧ s'.added = [1, 2] := by
  exact ⟨[.tryStart 2, .tryStart 3, .add 1, .thread 1, .tryFinish 2], _, _, rfl, rfl, rfl, rfl, rfl, rfl⟩

end Principia.ThreadPool
