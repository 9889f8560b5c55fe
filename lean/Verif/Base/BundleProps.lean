import Verif.Base.BundleModel
import Mathlib.Tactic.ByContra

/-!
# C09: joining a bundle
-/

set_option linter.unusedSimpArgs false
set_option linter.unusedVariables false

namespace Principia.Bundle

open Principia.Lts

def WorkerPc.isActive : WorkerPc → Bool
  | .running | .returned | .decrement => true
  | _ => false

/-- The worker is such that a notification will happen. -/
def WorkerPc.isUrgent : WorkerPc → Bool
  | .running | .returned | .decrement | .notify => true
  | .check n => n = 0
  | _ => false

/-- The worker has accounted for the status of its task. -/
def WorkerPc.accounted : WorkerPc → Bool
  | .running | .returned => false
  | _ => true

def ClientPc.pending : ClientPc → List Nat
  | .adding ts => ts
  | .emplacing t ts => t :: ts
  | _ => []

def ClientPc.adds : ClientPc → Bool
  | .adding _ | .emplacing _ _ => true
  | _ => false

/-- The invariant. -/
structure Inv (tasks : List Nat) (s : State) : Prop where
  tasks : s.workers.map Prod.fst ++ s.client.pending = tasks
  joining : s.joining = !s.client.adds
  active : s.active = s.workers.countP (·.2.isActive) +
    (match s.client with | .emplacing .. => 1 | _ => 0)
  ok : s.expired = false → s.status = 0 → ∀ w ∈ s.workers, w.2.accounted → w.1 = 0
  failed : s.expired = false → s.status ≠ 0 → s.status ∈ s.workers.map Prod.fst
  waiting : s.client = .waiting → s.notifications = 0 → 0 < s.workers.countP (·.2.isUrgent)
  joined : ∀ i, s.client = .joining i → i ≤ s.workers.length ∧ ∀ j < i, ∀ w, s.workers[j]? = some w → w.2 = .done
  allDone : s.client = .returning ∨ (∃ r, s.client = .returned r) → ∀ w ∈ s.workers, w.2 = .done
  noCrash : s.client ≠ .crashed ∧ (s.client = .expired → s.expired = true)
  result : ∀ r, s.client = .returned r → r = s.status
  notExpired : s.client.adds ∨ s.client = .counting ∨ s.client = .waiting → s.expired = false
  afterExpiry : s.expired = true → s.client = .expired ∨ s.status = deadlineExceeded

theorem inv_init (tasks : List Nat) : Inv tasks (init tasks) := by
  constructor <;> simp [init, ClientPc.pending, ClientPc.adds]

theorem map_fst_set {l : List (Nat × WorkerPc)} {i : Nat} {t : Nat} {p q : WorkerPc} (h : l[i]? = some (t, p)) :
    (l.set i (t, q)).map Prod.fst = l.map Prod.fst := by
  rw [List.map_set]
  apply List.ext_getElem?
  intro j
  rw [List.getElem?_set]
  split
  · rename_i e; subst e
    obtain ⟨hi, e⟩ := List.getElem?_eq_some_iff.1 h
    simp [hi, e]
  · rfl

theorem countP_set' (f : Nat × WorkerPc → Bool) {l : List (Nat × WorkerPc)} {i : Nat} {a b : Nat × WorkerPc}
    (h : l[i]? = some a) :
    (l.set i b).countP f + (if f a then 1 else 0) = l.countP f + (if f b then 1 else 0) := by
  obtain ⟨hi, e⟩ := List.getElem?_eq_some_iff.1 h
  rw [List.countP_set hi, e]
  have : f a = true → 0 < l.countP f := by
    intro hf
    exact List.countP_pos_iff.2 ⟨a, List.mem_of_getElem? h, hf⟩
  split <;> split <;> simp_all <;> omega

theorem mem_set' {l : List (Nat × WorkerPc)} {i : Nat} {b w : Nat × WorkerPc} (h : w ∈ l.set i b) : w = b ∨ w ∈ l := by
  rcases List.mem_or_eq_of_mem_set h with h | h
  · exact Or.inr h
  · exact Or.inl h

theorem getElem?_set' {l : List (Nat × WorkerPc)} {i j : Nat} {b w : Nat × WorkerPc} (h : (l.set i b)[j]? = some w) :
    (j = i ∧ w = b) ∨ (j ≠ i ∧ l[j]? = some w) := by
  rw [List.getElem?_set] at h
  split at h
  · rename_i e
    split at h
    · left; exact ⟨e.symm, by simpa using h.symm⟩
    · simp at h
  · rename_i e; right; exact ⟨fun h => e h.symm, h⟩

theorem inv_worker {tasks : List Nat} {s : State} (h : Inv tasks s) {i t : Nat} {p q : WorkerPc}
    (hi : s.workers[i]? = some (t, p)) (hp : p ≠ .done) (st n : Nat) (a : Int)
    (ha : a + (if p.isActive then 1 else 0) = s.active + (if q.isActive then 1 else 0))
    (hst : st = s.status ∨ (s.status = 0 ∧ st = t))
    (hok : s.expired = false → st = 0 → q.accounted → t = 0)
    (hw : s.client = .waiting → n = 0 → s.notifications = 0 → 0 < s.workers.countP (·.2.isUrgent) →
      0 < (s.workers.set i (t, q)).countP (·.2.isUrgent)) (hn : s.notifications ≤ n) :
    Inv tasks { s with status := st, notifications := n, active := a, workers := s.workers.set i (t, q) } := by
  have hmem : (t, p) ∈ s.workers := List.mem_of_getElem? hi
  have hmap := map_fst_set (q := q) hi
  refine ⟨?_, h.joining, ?_, ?_, ?_, ?_, ?_, ?_, h.noCrash, ?_, h.notExpired, ?_⟩
  · simp only [hmap]; exact h.tasks
  · have h1 := countP_set' (fun w => w.2.isActive) (b := (t, q)) hi
    have h2 := h.active
    simp only at h1 ⊢
    rw [h2] at ha
    cases hpa : p.isActive <;> cases hqa : q.isActive <;> simp only [hpa, hqa, if_true, Bool.false_eq_true, if_false] at ha h1 <;> omega
  · intro he hs w hm hacc
    simp only at he hs
    rcases mem_set' hm with rfl | hm
    · exact hok he hs hacc
    · refine h.ok he ?_ w hm hacc
      rcases hst with e | ⟨e, _⟩
      · rw [← e]; exact hs
      · exact e
  · intro he hs
    simp only at he hs
    simp only [hmap]
    rcases hst with e | ⟨_, e⟩
    · rw [e]; exact h.failed he (by rw [← e]; exact hs)
    · rw [e]; exact List.mem_map.2 ⟨_, hmem, rfl⟩
  · intro hc h0
    simp only at hc h0
    exact hw hc h0 (by omega) (h.waiting hc (by omega))
  · intro k hk
    obtain ⟨h1, h2⟩ := h.joined k hk
    refine ⟨by simpa using h1, ?_⟩
    intro j hj w hw'
    rcases getElem?_set' hw' with ⟨rfl, _⟩ | ⟨_, hw'⟩
    · exact absurd (h2 j hj _ hi) hp
    · exact h2 j hj w hw'
  · intro hc
    exact absurd (h.allDone hc _ hmem) hp
  · intro r hr
    exact absurd (h.allDone (Or.inr ⟨r, hr⟩) _ hmem) hp
  · intro he
    rcases h.afterExpiry he with e | e
    · exact Or.inl e
    · right
      rcases hst with e' | ⟨e', _⟩
      · simp only; rw [e', e]
      · rw [e] at e'; simp [deadlineExceeded] at e'

theorem urgent_keep {l : List (Nat × WorkerPc)} {i t : Nat} {p q : WorkerPc} (hi : l[i]? = some (t, p))
    (hq : q.isUrgent = p.isUrgent) (hpos : 0 < l.countP (·.2.isUrgent)) :
    0 < (l.set i (t, q)).countP (·.2.isUrgent) := by
  have h := countP_set' (fun w => w.2.isUrgent) (b := (t, q)) hi
  simp only [hq] at h
  omega

theorem inv_workerStep {tasks : List Nat} {s s' : State} (h : Inv tasks s) {i : Nat} (hs : workerStep s i = some s') :
    Inv tasks s' := by
  unfold workerStep at hs
  simp only [Option.bind_eq_bind, Option.bind_eq_some_iff] at hs
  obtain ⟨⟨t, p⟩, hi, hs⟩ := hs
  have hmem : (t, p) ∈ s.workers := List.mem_of_getElem? hi
  cases p with
  | running =>
    simp only [Option.some.injEq] at hs
    subst hs
    refine inv_worker h hi (by simp) _ _ _ (by simp [WorkerPc.isActive]) (Or.inl rfl) (by simp [WorkerPc.accounted]) ?_ (Nat.le_refl _)
    exact fun _ _ _ => urgent_keep hi rfl
  | returned =>
    have hw : 0 < s.workers.countP (·.2.isUrgent) → 0 < (s.workers.set i (t, .decrement)).countP (·.2.isUrgent) :=
      urgent_keep hi rfl
    simp only at hs
    split at hs
    · rename_i ht
      simp only [Option.some.injEq] at hs
      subst hs
      refine inv_worker h hi (by simp) _ _ _ (by simp [WorkerPc.isActive]) ?_ ?_ (fun _ _ _ => hw) (Nat.le_refl _)
      · unfold update
        split
        · rename_i e; exact Or.inr ⟨e, rfl⟩
        · exact Or.inl rfl
      · intro _ he
        unfold update at he
        split at he
        · exact absurd he ht
        · rename_i e; exact absurd he e
    · rename_i ht
      simp only [Option.some.injEq] at hs
      subst hs
      exact inv_worker h hi (by simp) _ _ _ (by simp [WorkerPc.isActive]) (Or.inl rfl)
        (fun _ _ _ => by simpa using ht) (fun _ _ _ => hw) (Nat.le_refl _)
  | decrement =>
    simp only [Option.some.injEq] at hs
    subst hs
    refine inv_worker h hi (by simp) _ _ _ (by simp [WorkerPc.isActive]) (Or.inl rfl)
      (fun he h0 _ => h.ok he h0 _ hmem rfl) ?_ (Nat.le_refl _)
    intro hc _ _ hpos
    by_cases e : s.active - 1 = 0
    · exact urgent_keep hi (by simp [WorkerPc.isUrgent, e]) hpos
    · -- There is another active worker.
      have h2 := countP_set' (fun w => w.2.isActive) (b := (t, .check (s.active - 1))) hi
      have h3 := h.active
      rw [hc] at h3
      simp only [Int.add_zero] at h3
      have a1 : WorkerPc.isActive .decrement = true := rfl
      have a2 : ∀ n, WorkerPc.isActive (.check n) = false := fun _ => rfl
      simp only [a1, a2, if_true, Bool.false_eq_true, if_false, Nat.add_zero] at h2
      have h4 : 0 < (s.workers.set i (t, .check (s.active - 1))).countP (fun w => w.2.isActive) := by omega
      obtain ⟨w, hw1, hw2⟩ := List.countP_pos_iff.1 h4
      refine List.countP_pos_iff.2 ⟨w, hw1, ?_⟩
      revert hw2
      cases w.2 <;> simp [WorkerPc.isActive, WorkerPc.isUrgent]
  | check n =>
    simp only at hs
    split at hs
    · rename_i e
      simp only [Option.some.injEq] at hs
      subst hs
      refine inv_worker h hi (by simp) _ _ _ (by simp [WorkerPc.isActive]) (Or.inl rfl)
        (fun he h0 _ => h.ok he h0 _ hmem rfl) ?_ (Nat.le_refl _)
      intro hc _ _ hpos
      exact urgent_keep hi (by simp [WorkerPc.isUrgent, e]) hpos
    · rename_i e
      simp only [Option.some.injEq] at hs
      subst hs
      refine inv_worker h hi (by simp) _ _ _ (by simp [WorkerPc.isActive]) (Or.inl rfl)
        (fun he h0 _ => h.ok he h0 _ hmem rfl) ?_ (Nat.le_refl _)
      intro hc _ _ hpos
      have hj := h.joining
      rw [hc] at hj
      have hn : n ≠ 0 := fun h0 => e ⟨by simpa [ClientPc.adds] using hj, h0⟩
      exact urgent_keep hi (by simp [WorkerPc.isUrgent, hn]) hpos
  | notify =>
    simp only [Option.some.injEq] at hs
    subst hs
    refine inv_worker h hi (by simp) _ _ _ (by simp [WorkerPc.isActive]) (Or.inl rfl)
      (fun he h0 _ => h.ok he h0 _ hmem rfl) ?_ (Nat.le_succ _)
    intro _ h0; omega
  | done => simp at hs

theorem inv_clientStep {tasks : List Nat} {s s' : State} (h : Inv tasks s) (hs : clientStep s = some s') : Inv tasks s' := by
  unfold clientStep at hs
  have hT := h.tasks
  have hJ := h.joining
  have hA := h.active
  have hE := h.notExpired
  split at hs
  · -- Add.
    rename_i task ts hc
    rw [hc] at hT hJ hA hE
    split at hs
    · rename_i hj; simp [ClientPc.adds] at hJ; simp [hJ] at hj
    · simp only [Option.some.injEq] at hs
      subst hs
      have hE' := hE (by simp [ClientPc.adds])
      refine ⟨hT, hJ, ?_, h.ok, h.failed, ?_, ?_, ?_, ?_, ?_, ?_, ?_⟩
      · simp only at hA ⊢; omega
      · simp
      · simp
      · simp
      · simp
      · simp
      · intro _; exact hE'
      · intro he; simp [hE'] at he
  · rename_i task ts hc
    rw [hc] at hT hJ hA hE
    simp only [Option.some.injEq] at hs
    subst hs
    have hE' := hE (by simp [ClientPc.adds])
    refine ⟨?_, hJ, ?_, ?_, ?_, ?_, ?_, ?_, ?_, ?_, ?_, ?_⟩
    · simpa [ClientPc.pending] using hT
    · simp only [List.countP_append] at hA ⊢
      have a1 : WorkerPc.isActive .running = true := rfl
      simp only [List.countP_cons, a1, List.countP_nil, if_true]
      omega
    · intro he h0 w hw hacc
      rcases List.mem_append.1 hw with hw | hw
      · exact h.ok he h0 w hw hacc
      · simp at hw; subst hw; simp [WorkerPc.accounted] at hacc
    · intro he h0
      have := h.failed he h0
      simp only [List.map_append, List.mem_append]
      exact Or.inl this
    · simp
    · simp
    · simp
    · simp
    · simp
    · intro _; exact hE'
    · intro he; simp [hE'] at he
  · rename_i hc
    rw [hc] at hT hJ hA hE
    simp only [Option.some.injEq] at hs
    subst hs
    have hE' := hE (by simp [ClientPc.adds])
    refine ⟨?_, by simp [ClientPc.adds], hA, h.ok, h.failed, ?_, ?_, ?_, ?_, ?_, ?_, ?_⟩
    · simpa [ClientPc.pending] using hT
    · simp
    · simp
    · simp
    · simp
    · simp
    · intro _; exact hE'
    · intro he; simp [hE'] at he
  · rename_i hc
    rw [hc] at hT hJ hA hE
    simp only [Option.some.injEq] at hs
    subst hs
    have hE' := hE (by simp)
    by_cases hpos : s.active > 0
    · simp only [hpos, if_true]
      refine ⟨?_, by simpa [ClientPc.adds] using hJ, hA, h.ok, h.failed, ?_, ?_, ?_, ?_, ?_, ?_, ?_⟩
      · simpa [ClientPc.pending] using hT
      · intro _ _
        have h4 : 0 < s.workers.countP (fun w => w.2.isActive) := by simp only at hA; omega
        obtain ⟨w, hw1, hw2⟩ := List.countP_pos_iff.1 h4
        refine List.countP_pos_iff.2 ⟨w, hw1, ?_⟩
        revert hw2
        cases w.2 <;> simp [WorkerPc.isActive, WorkerPc.isUrgent]
      · simp
      · simp
      · simp
      · simp
      · intro _; exact hE'
      · intro he; simp [hE'] at he
    · simp only [hpos, if_false]
      refine ⟨?_, by simpa [ClientPc.adds] using hJ, hA, h.ok, h.failed, ?_, ?_, ?_, ?_, ?_, ?_, ?_⟩
      · simpa [ClientPc.pending] using hT
      · simp
      · intro i hi; simp at hi; subst hi; simp
      · simp
      · simp
      · simp
      · simp [ClientPc.adds]
      · intro he; simp [hE'] at he
  · rename_i hc
    rw [hc] at hT hJ hA hE
    split at hs
    · simp only [Option.some.injEq] at hs
      subst hs
      have hE' := hE (by simp)
      refine ⟨?_, by simpa [ClientPc.adds] using hJ, hA, h.ok, h.failed, ?_, ?_, ?_, ?_, ?_, ?_, ?_⟩
      · simpa [ClientPc.pending] using hT
      · simp
      · intro i hi; simp at hi; subst hi; simp
      · simp
      · simp
      · simp
      · simp [ClientPc.adds]
      · intro he; simp [hE'] at he
    · simp at hs
  · rename_i hc
    rw [hc] at hT hJ hA hE
    simp only [Option.some.injEq] at hs
    subst hs
    refine ⟨?_, by simpa [ClientPc.adds] using hJ, hA, ?_, ?_, ?_, ?_, ?_, ?_, ?_, ?_, ?_⟩
    · simpa [ClientPc.pending] using hT
    · intro _ h0; simp [deadlineExceeded] at h0
    · intro he _
      simp only at he
      exact absurd he (by simp [h.noCrash.2 hc])
    · simp
    · intro i hi; simp at hi; subst hi; simp
    · simp
    · simp
    · simp
    · simp [ClientPc.adds]
    · intro _; exact Or.inr rfl
  · rename_i i hc
    rw [hc] at hT hJ hA hE
    obtain ⟨hle, hdone⟩ := h.joined i hc
    have hexp : s.expired = true → s.status = deadlineExceeded := by
      intro he
      rcases h.afterExpiry he with e | e
      · rw [hc] at e; simp at e
      · exact e
    split at hs
    · rename_i t hget
      simp only [Option.some.injEq] at hs
      subst hs
      refine ⟨?_, by simpa [ClientPc.adds] using hJ, hA, h.ok, h.failed, ?_, ?_, ?_, ?_, ?_, ?_, ?_⟩
      · simpa [ClientPc.pending] using hT
      · simp
      · intro k hk
        simp at hk; subst hk
        obtain ⟨hlt, _⟩ := List.getElem?_eq_some_iff.1 hget
        refine ⟨hlt, ?_⟩
        intro j hj w hw
        by_cases e : j = i
        · subst e; simp only at hw; rw [hget] at hw; simp at hw; rw [← hw]
        · exact hdone j (by omega) w hw
      · simp
      · simp
      · simp
      · simp [ClientPc.adds]
      · intro he; exact Or.inr (hexp he)
    · simp at hs
    · rename_i hget
      simp only [Option.some.injEq] at hs
      subst hs
      refine ⟨?_, by simpa [ClientPc.adds] using hJ, hA, h.ok, h.failed, ?_, ?_, ?_, ?_, ?_, ?_, ?_⟩
      · simpa [ClientPc.pending] using hT
      · simp
      · simp
      · intro _ w hw
        obtain ⟨j, hj, hjw⟩ := List.mem_iff_getElem.1 hw
        have : s.workers.length ≤ i := by simpa using hget
        exact hdone j (by simp only at hj; omega) w (by rw [← hjw]; exact List.getElem?_eq_getElem hj)
      · simp
      · simp
      · simp [ClientPc.adds]
      · intro he; exact Or.inr (hexp he)
  · rename_i hc
    rw [hc] at hT hJ hA hE
    simp only [Option.some.injEq] at hs
    subst hs
    refine ⟨?_, by simpa [ClientPc.adds] using hJ, hA, h.ok, h.failed, ?_, ?_, ?_, ?_, ?_, ?_, ?_⟩
    · simpa [ClientPc.pending] using hT
    · simp
    · simp
    · intro _; exact h.allDone (Or.inl hc)
    · simp
    · intro r hr; simp at hr; exact hr.symm
    · simp [ClientPc.adds]
    · intro he
      rcases h.afterExpiry he with e | e
      · rw [hc] at e; simp at e
      · exact Or.inr e
  · simp at hs
  · simp at hs

theorem inv_step {timed : Bool} {tasks : List Nat} (s : State) (l : Label) (s' : State) (h : Inv tasks s)
    (hs : step timed s l = some s') : Inv tasks s' := by
  cases l with
  | client => exact inv_clientStep h hs
  | worker i => exact inv_workerStep h hs
  | timeout =>
    simp only [step] at hs
    split at hs
    · rename_i hc
      obtain ⟨_, hc, _⟩ := hc
      simp only [Option.some.injEq] at hs
      subst hs
      have hT := h.tasks
      have hJ := h.joining
      have hA := h.active
      rw [hc] at hT hJ hA
      refine ⟨?_, by simpa [ClientPc.adds] using hJ, hA, ?_, ?_, ?_, ?_, ?_, ?_, ?_, ?_, ?_⟩
      · simpa [ClientPc.pending] using hT
      · simp
      · simp
      · simp
      · simp
      · simp
      · simp
      · simp
      · simp [ClientPc.adds]
      · simp
    · simp at hs

/-! ## Termination -/

def WorkerPc.weight : WorkerPc → Nat
  | .running => 5 | .returned => 4 | .decrement => 3 | .check _ => 2 | .notify => 1 | .done => 0

theorem weight_running : WorkerPc.weight .running = 5 := rfl
theorem weight_returned : WorkerPc.weight .returned = 4 := rfl
theorem weight_decrement : WorkerPc.weight .decrement = 3 := rfl
theorem weight_check (n : Int) : WorkerPc.weight (.check n) = 2 := rfl
theorem weight_notify : WorkerPc.weight .notify = 1 := rfl
theorem weight_done : WorkerPc.weight .done = 0 := rfl

def clientWeight (n : Nat) : ClientPc → Nat
  | .adding ts => 10 * ts.length + n + 6
  | .emplacing _ ts => 10 * ts.length + 9 + n + 6
  | .counting => n + 5
  | .waiting => n + 4
  | .expired => n + 3
  | .joining i => n - i + 2
  | .returning => 1
  | .returned _ | .crashed => 0

def measure (s : State) : Nat :=
  clientWeight (s.workers.length + s.client.pending.length) s.client + (s.workers.map (·.2.weight)).sum

theorem sum_set {l : List (Nat × WorkerPc)} {i : Nat} {a b : Nat × WorkerPc} (h : l[i]? = some a) :
    ((l.set i b).map (·.2.weight)).sum + a.2.weight = (l.map (·.2.weight)).sum + b.2.weight := by
  induction l generalizing i with
  | nil => simp at h
  | cons x l ih =>
    cases i with
    | zero => simp at h; subst h; simp; omega
    | succ i =>
      simp at h
      have := ih h
      simp only [List.set_cons_succ, List.map_cons, List.sum_cons]
      omega

theorem measure_step {timed : Bool} {tasks : List Nat} (s : State) (l : Label) (s' : State) (h : Inv tasks s)
    (hs : step timed s l = some s') : measure s' < measure s := by
  cases l with
  | timeout =>
    simp only [step] at hs
    split at hs
    · rename_i hc
      obtain ⟨_, hc, _⟩ := hc
      simp only [Option.some.injEq] at hs
      subst hs
      simp [measure, hc, clientWeight, ClientPc.pending]
    · simp at hs
  | worker i =>
    simp only [step, workerStep, Option.bind_eq_bind, Option.bind_eq_some_iff] at hs
    obtain ⟨⟨t, p⟩, hi, hs⟩ := hs
    have key := fun q : WorkerPc => sum_set (b := (t, q)) hi
    cases p with
    | running =>
      simp only [Option.some.injEq] at hs
      subst hs
      have := key .returned
      simp only [weight_running, weight_returned, weight_decrement, weight_check, weight_notify, weight_done] at this
      simp only [measure, List.length_set]; omega
    | returned =>
      have := key .decrement
      simp only [weight_running, weight_returned, weight_decrement, weight_check, weight_notify, weight_done] at this
      simp only at hs
      split at hs <;> (simp only [Option.some.injEq] at hs; subst hs; simp only [measure, List.length_set]; omega)
    | decrement =>
      simp only [Option.some.injEq] at hs
      subst hs
      have := key (.check (s.active - 1))
      simp only [weight_running, weight_returned, weight_decrement, weight_check, weight_notify, weight_done] at this
      simp only [measure, List.length_set]; omega
    | check n =>
      have h1 := key .notify
      have h2 := key .done
      simp only [weight_running, weight_returned, weight_decrement, weight_check, weight_notify, weight_done] at h1 h2
      simp only at hs
      split at hs <;> (simp only [Option.some.injEq] at hs; subst hs; simp only [measure, List.length_set]; omega)
    | notify =>
      simp only [Option.some.injEq] at hs
      subst hs
      have := key .done
      simp only [weight_running, weight_returned, weight_decrement, weight_check, weight_notify, weight_done] at this
      simp only [measure, List.length_set]; omega
    | done => simp at hs
  | client =>
    simp only [step, clientStep] at hs
    split at hs
    · rename_i hc
      split at hs <;>
        (simp only [Option.some.injEq] at hs; subst hs; simp [measure, hc, clientWeight, ClientPc.pending])
      omega
    · rename_i hc
      simp only [Option.some.injEq] at hs; subst hs
      simp [measure, hc, clientWeight, ClientPc.pending, weight_running]; omega
    · rename_i hc
      simp only [Option.some.injEq] at hs; subst hs
      simp [measure, hc, clientWeight, ClientPc.pending]
    · rename_i hc
      simp only [Option.some.injEq] at hs; subst hs
      by_cases hp : s.active > 0
      · simp [measure, hc, clientWeight, ClientPc.pending, hp]
      · simp [measure, hc, clientWeight, ClientPc.pending, hp]
    · rename_i hc
      split at hs
      · simp only [Option.some.injEq] at hs; subst hs
        simp [measure, hc, clientWeight, ClientPc.pending]
      · simp at hs
    · rename_i hc
      simp only [Option.some.injEq] at hs; subst hs
      simp [measure, hc, clientWeight, ClientPc.pending]
    · rename_i i hc
      split at hs
      · rename_i hget
        obtain ⟨hlt, _⟩ := List.getElem?_eq_some_iff.1 hget
        simp only [Option.some.injEq] at hs; subst hs
        simp [measure, hc, clientWeight, ClientPc.pending]; omega
      · simp at hs
      · simp only [Option.some.injEq] at hs; subst hs
        simp [measure, hc, clientWeight, ClientPc.pending]
    · rename_i hc
      simp only [Option.some.injEq] at hs; subst hs
      simp [measure, hc, clientWeight, ClientPc.pending]
    · simp at hs
    · simp at hs

theorem worker_enabled {s : State} {w : Nat × WorkerPc} (hw : w ∈ s.workers) (hd : w.2 ≠ .done) :
    ∃ i s', workerStep s i = some s' := by
  obtain ⟨i, hi, e⟩ := List.mem_iff_getElem.1 hw
  refine ⟨i, ?_⟩
  obtain ⟨t, p⟩ := w
  unfold workerStep
  rw [List.getElem?_eq_getElem hi, e]
  simp only [Option.bind_eq_bind, Option.bind_some]
  cases p with
  | running => exact ⟨_, rfl⟩
  | returned => simp only; split <;> exact ⟨_, rfl⟩
  | decrement => exact ⟨_, rfl⟩
  | check n => simp only; split <;> exact ⟨_, rfl⟩
  | notify => exact ⟨_, rfl⟩
  | done => exact absurd rfl hd

/-! ## The property -/

/-- **C09**: for every list of tasks and every schedule, when `Join*` returns, all the tasks have been executed to completion,
and:
* if the wait did not time out (always the case for `Join`), the status returned is `OK` if all the tasks returned
  `OK`, and otherwise it is a status returned by a failing task;
* if it timed out, `kDeadlineExceeded` is returned. -/
theorem C09_join (timed : Bool) (tasks : List Nat) (schedule : List Label) (s : State) (r : Nat)
    (h : run (step timed) (init tasks) schedule = some s) (hr : s.client = .returned r) :
    s.workers.map Prod.fst = tasks ∧ (∀ w ∈ s.workers, w.2 = .done) ∧
    (s.expired = false → (r = 0 ↔ ∀ t ∈ tasks, t = 0) ∧ (r ≠ 0 → r ∈ tasks)) ∧
    (s.expired = true → timed = true ∧ r = deadlineExceeded) := by
  have hi := run_invariant (step := step timed) (Inv tasks) inv_step (inv_init tasks) h
  have ht : s.workers.map Prod.fst = tasks := by simpa [hr, ClientPc.pending] using hi.tasks
  have hd := hi.allDone (Or.inr ⟨r, hr⟩)
  have hres := hi.result r hr
  refine ⟨ht, hd, ?_, ?_⟩
  · intro he
    refine ⟨⟨?_, ?_⟩, ?_⟩
    · intro h0 t htm
      rw [← ht] at htm
      obtain ⟨w, hw, rfl⟩ := List.mem_map.1 htm
      exact hi.ok he (by rw [← hres]; exact h0) w hw (by rw [hd w hw]; rfl)
    · intro hall
      rw [hres]
      by_contra h0
      have := hi.failed he h0
      rw [ht] at this
      exact h0 (hall _ this)
    · intro h0
      have := hi.failed he (by rw [← hres]; exact h0)
      rw [ht] at this
      rw [hres]; exact this
  · intro he
    constructor
    · by_contra ht
      have hf : timed = false := by simpa using ht
      subst hf
      have : s.expired = false := run_invariant (step := step false) (fun s => s.expired = false) (by
        intro s l s' hI hs
        cases l with
        | timeout => simp [step] at hs
        | worker i =>
          simp only [step, workerStep, Option.bind_eq_bind, Option.bind_eq_some_iff] at hs
          obtain ⟨⟨t, p⟩, _, hs⟩ := hs
          cases p <;> simp only [reduceCtorEq] at hs <;>
            first
            | (simp only [Option.some.injEq] at hs; subst hs; exact hI)
            | (split at hs <;> (simp only [Option.some.injEq] at hs; subst hs; exact hI))
        | client =>
          simp only [step, clientStep] at hs
          split at hs <;>
            first
            | (simp only [Option.some.injEq] at hs; subst hs; exact hI)
            | (split at hs <;> first | (simp only [Option.some.injEq] at hs; subst hs; exact hI) | simp at hs)
            | simp at hs) rfl h
      rw [this] at he; simp at he
    · rcases hi.afterExpiry he with e | e
      · rw [hr] at e; simp at e
      · rw [hres, e]

/-- **C09**: no schedule makes `Join` wait forever: in every reachable state where it has not returned, some thread can take a
step (without any timeout), the `CHECK` has not failed, and the length of all schedules is bounded.  Hence all schedules which
cannot be extended end with the return of `Join`. -/
theorem C09_no_deadlock (timed : Bool) (tasks : List Nat) (schedule : List Label) (s : State)
    (h : run (step timed) (init tasks) schedule = some s) :
    ((∃ r, s.client = .returned r) ∨ ∃ l s', l ≠ .timeout ∧ step timed s l = some s') ∧
    s.client ≠ .crashed ∧ schedule.length ≤ 11 * tasks.length + 6 := by
  have hi := run_invariant (step := step timed) (Inv tasks) inv_step (inv_init tasks) h
  refine ⟨?_, hi.noCrash.1, ?_⟩
  · have client : (∃ s', clientStep s = some s') → ∃ l s', l ≠ Label.timeout ∧ step timed s l = some s' :=
      fun ⟨s', hs⟩ => ⟨.client, s', by simp, hs⟩
    have worker : (∃ w ∈ s.workers, w.2 ≠ .done) → ∃ l s', l ≠ Label.timeout ∧ step timed s l = some s' := by
      rintro ⟨w, hw, hd⟩
      obtain ⟨i, s', hs⟩ := worker_enabled hw hd
      exact ⟨.worker i, s', by simp, hs⟩
    cases hc : s.client with
    | adding ts =>
      right; apply client; unfold clientStep; rw [hc]
      cases ts with
      | nil => exact ⟨_, rfl⟩
      | cons t ts => simp only; split <;> exact ⟨_, rfl⟩
    | emplacing t ts => right; apply client; unfold clientStep; rw [hc]; exact ⟨_, rfl⟩
    | counting => right; apply client; unfold clientStep; rw [hc]; exact ⟨_, rfl⟩
    | waiting =>
      right
      by_cases hn : 0 < s.notifications
      · apply client; unfold clientStep; rw [hc]; simp [hn]
      · apply worker
        obtain ⟨w, hw, hu⟩ := List.countP_pos_iff.1 (hi.waiting hc (by omega))
        refine ⟨w, hw, ?_⟩
        intro hd; rw [hd] at hu; simp [WorkerPc.isUrgent] at hu
    | expired => right; apply client; unfold clientStep; rw [hc]; exact ⟨_, rfl⟩
    | joining i =>
      right
      cases hg : s.workers[i]? with
      | none => apply client; unfold clientStep; rw [hc]; simp [hg]
      | some w =>
        by_cases hd : w.2 = .done
        · apply client; unfold clientStep; rw [hc]
          obtain ⟨t, p⟩ := w
          simp only at hd; subst hd
          simp [hg]
        · exact worker ⟨w, List.mem_of_getElem? hg, hd⟩
    | returning => right; apply client; unfold clientStep; rw [hc]; exact ⟨_, rfl⟩
    | returned r => left; exact ⟨r, rfl⟩
    | crashed => exact absurd hc hi.noCrash.1
  · have := run_length (step := step timed) (Inv tasks) inv_step Bundle.measure measure_step (inv_init tasks) h
    simp [Bundle.measure, init, clientWeight, ClientPc.pending] at this
    omega

/-- The workers that notify, or that will if they see `joining_`. -/
def WorkerPc.zeroed : WorkerPc → Bool
  | .check n => n = 0
  | .notify => true
  | _ => false

/-- The property that the code violates (see the counterexample below): the notification, which may only be notified once
according to its contract, is notified at most once.  It holds for all the schedules where, whenever a call to `Add` is made
after the first one, some worker is still active. -/
theorem C09_notify_once_partial (timed : Bool) (tasks : List Nat) (schedule : List Label) (s : State)
    (h : run (step timed) (init tasks) schedule = some s)
    (hbusy : ∀ p q s', schedule = p ++ q → run (step timed) (init tasks) p = some s' →
      ∀ t ts, s'.client = .adding (t :: ts) → s'.workers = [] ∨ 0 < s'.active) : s.notifications ≤ 1 := by
  -- The invariant.
  suffices H : ∀ (q p : List Label) (s₁ s₂ : State), schedule = p ++ q → run (step timed) (init tasks) p = some s₁ →
      run (step timed) s₁ q = some s₂ → Inv tasks s₁ →
      (s₁.workers = [] → s₁.notifications = 0) ∧
      (0 < s₁.active → s₁.notifications + s₁.workers.countP (·.2.zeroed) = 0) ∧
      s₁.notifications + s₁.workers.countP (·.2.zeroed) ≤ 1 → s₂.notifications ≤ 1 by
    refine H schedule [] (init tasks) s rfl rfl h (inv_init tasks) ?_
    simp [init]
  clear h s
  intro q
  induction q with
  | nil =>
    intro p s₁ s₂ _ _ hr _ ⟨_, _, h⟩
    simp only [run, Option.some.injEq] at hr
    subst hr; omega
  | cons l q ih =>
    intro p s₁ s₂ hsched hp hr hi ⟨k0, k1, k2⟩
    simp only [run, Option.bind_eq_some_iff] at hr
    obtain ⟨s', hl, hr⟩ := hr
    refine ih (p ++ [l]) s' s₂ (by rw [hsched]; simp) (by rw [run_append, hp]; simp [run, hl]) hr
      (inv_step s₁ l s' hi hl) ?_
    cases l with
    | timeout =>
      simp only [step] at hl
      split at hl
      · simp only [Option.some.injEq] at hl; subst hl; exact ⟨k0, k1, k2⟩
      · simp at hl
    | worker i =>
      simp only [step, workerStep, Option.bind_eq_bind, Option.bind_eq_some_iff] at hl
      obtain ⟨⟨t, pc⟩, hg, hl⟩ := hl
      have key := fun q : WorkerPc => countP_set' (fun w => w.2.zeroed) (b := (t, q)) hg
      have hne : s₁.workers ≠ [] := List.ne_nil_of_mem (List.mem_of_getElem? hg)
      have hne' : ∀ x, s₁.workers.set i x ≠ [] := by intro x; simpa using hne
      have z1 : WorkerPc.zeroed .running = false := rfl
      have z2 : WorkerPc.zeroed .returned = false := rfl
      have z3 : WorkerPc.zeroed .decrement = false := rfl
      have z4 : WorkerPc.zeroed .notify = true := rfl
      have z5 : WorkerPc.zeroed .done = false := rfl
      have z6 : ∀ n, WorkerPc.zeroed (.check n) = decide (n = 0) := fun _ => rfl
      cases pc with
      | running =>
        simp only [Option.some.injEq] at hl; subst hl
        have := key .returned
        simp only [z1, z2, Bool.false_eq_true, if_false, Nat.add_zero] at this
        refine ⟨fun e => absurd e (hne' _), ?_, ?_⟩ <;> simp only [this]
        · exact k1
        · exact k2
      | returned =>
        have := key .decrement
        simp only [z3, z2, Bool.false_eq_true, if_false, Nat.add_zero] at this
        simp only at hl
        split at hl <;>
        · simp only [Option.some.injEq] at hl; subst hl
          refine ⟨fun e => absurd e (hne' _), ?_, ?_⟩ <;> simp only [this]
          · exact k1
          · exact k2
      | decrement =>
        simp only [Option.some.injEq] at hl; subst hl
        have hact : 0 < s₁.active := by
          have h1 := hi.active
          have : 0 < s₁.workers.countP (·.2.isActive) :=
            List.countP_pos_iff.2 ⟨_, List.mem_of_getElem? hg, rfl⟩
          revert h1
          cases s₁.client <;> simp <;> omega
        have h0 := k1 hact
        have := key (.check (s₁.active - 1))
        simp only [z3, z6, Bool.false_eq_true, if_false, Nat.add_zero, decide_eq_true_eq] at this
        refine ⟨fun e => absurd e (hne' _), ?_, ?_⟩
        · intro hpos
          simp only at hpos ⊢
          rw [if_neg (by omega)] at this
          omega
        · simp only
          split at this <;> omega
      | check n =>
        simp only at hl
        split at hl
        · rename_i e
          simp only [Option.some.injEq] at hl; subst hl
          have := key .notify
          simp only [z4, z6, e.2, decide_true, if_true] at this
          refine ⟨fun e => absurd e (hne' _), ?_, ?_⟩ <;> simp only
          · intro hpos; have := k1 hpos; omega
          · omega
        · simp only [Option.some.injEq] at hl; subst hl
          have := key .done
          simp only [z5, z6, Bool.false_eq_true, if_false, Nat.add_zero] at this
          refine ⟨fun e => absurd e (hne' _), ?_, ?_⟩ <;> simp only
          · intro hpos; have := k1 hpos; omega
          · omega
      | notify =>
        simp only [Option.some.injEq] at hl; subst hl
        have := key .done
        simp only [z4, z5, Bool.false_eq_true, if_false, if_true, Nat.add_zero] at this
        refine ⟨fun e => absurd e (hne' _), ?_, ?_⟩ <;> simp only
        · intro hpos; have := k1 hpos; omega
        · omega
      | done => simp at hl
    | client =>
      simp only [step, clientStep] at hl
      split at hl
      · rename_i t ts hc
        split at hl
        · simp only [Option.some.injEq] at hl; subst hl; exact ⟨k0, k1, k2⟩
        · simp only [Option.some.injEq] at hl; subst hl
          have hb := hbusy p (.client :: q) s₁ hsched hp t ts hc
          have hz : s₁.notifications + s₁.workers.countP (·.2.zeroed) = 0 := by
            rcases hb with hb | hb
            · have := k0 hb; rw [hb]; simp [this]
            · exact k1 hb
          exact ⟨k0, fun _ => hz, k2⟩
      · simp only [Option.some.injEq] at hl; subst hl
        have z1 : WorkerPc.zeroed .running = false := rfl
        refine ⟨by simp, ?_, ?_⟩ <;>
          simp only [List.countP_append, List.countP_cons, List.countP_nil, z1, Bool.false_eq_true, if_false, Nat.add_zero]
        · exact k1
        · exact k2
      · simp only [Option.some.injEq] at hl; subst hl; exact ⟨k0, k1, k2⟩
      · simp only [Option.some.injEq] at hl; subst hl; exact ⟨k0, k1, k2⟩
      · split at hl
        · simp only [Option.some.injEq] at hl; subst hl; exact ⟨k0, k1, k2⟩
        · simp at hl
      · simp only [Option.some.injEq] at hl; subst hl; exact ⟨k0, k1, k2⟩
      · split at hl
        · simp only [Option.some.injEq] at hl; subst hl; exact ⟨k0, k1, k2⟩
        · simp at hl
        · simp only [Option.some.injEq] at hl; subst hl; exact ⟨k0, k1, k2⟩
      · simp only [Option.some.injEq] at hl; subst hl; exact ⟨k0, k1, k2⟩
      · simp at hl
      · simp at hl

/-- The code violates the contract of `absl::Notification`: with two tasks, there is a schedule where `Notify` is called twice.
The first worker decrements the counter to 0 and is preempted before line 74; the second task is added and `Join` is called; both
workers then see `joining_` true and a local value of 0. -/
theorem C09_notify_once_counterexample :
    ∃ schedule s, run (step false) (init [0, 0]) schedule = some s ∧ s.client = .returned 0 ∧ s.notifications = 2 := by
  refine ⟨[.client, .client, .worker 0, .worker 0, .worker 0, .client, .client, .client, .client,
    .worker 0, .worker 0, .worker 1, .worker 1, .worker 1, .worker 1, .worker 1,
    .client, .client, .client, .client, .client], ?_⟩
  refine ⟨_, rfl, rfl, rfl⟩

/-- Non-vacuity: an execution with a failing task where `Join` returns its status. -/
example : ∃ schedule s, run (step false) (init [0, 13, 0]) schedule = some s ∧ s.client = .returned 13 ∧
    s.notifications = 1 := by
  refine ⟨[.client, .client, .client, .client, .client, .client, .client, .client,
    .worker 1, .worker 1, .worker 1, .worker 1, .worker 0, .worker 2, .worker 2, .worker 0, .worker 0, .worker 2,
    .worker 2, .worker 0, .worker 2,
    .client, .client, .client, .client, .client, .client], ?_⟩
  refine ⟨_, rfl, rfl, rfl⟩

/-- Non-vacuity: an execution that times out. -/
example : ∃ schedule s, run (step true) (init [13]) schedule = some s ∧ s.client = .returned deadlineExceeded := by
  refine ⟨[.client, .client, .client, .client, .worker 0, .worker 0, .timeout, .client, .worker 0, .worker 0, .worker 0,
    .client, .client, .client], ?_⟩
  refine ⟨_, rfl, rfl⟩

end Principia.Bundle
