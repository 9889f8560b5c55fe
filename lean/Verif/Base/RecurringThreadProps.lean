import Verif.Base.RecurringThreadModel
import Mathlib.Tactic.ByContra

/-!
# C14: recurring threads
-/

set_option linter.unusedSimpArgs false
set_option linter.unusedVariables false

namespace Principia.RecurringThread

open Principia.Lts

variable {O : Type}

/-- The input that was extracted from the channel and for which the action was not run. -/
def Pc.holds : Pc O → Option Nat
  | .taken i | .act i => some i
  | _ => none

/-- The output computed by the action and not published. -/
def Pc.holdsOutput : Pc O → Option O
  | .acted _ o | .publish _ o => o
  | _ => none

structure Inv (action : Nat → Option O) (s : State O) : Prop where
  sorted : (s.processed ++ s.pc.holds.toList ++ s.input.toList).Pairwise (· < ·)
  last : ∀ i, s.input = some i → i + 1 = s.puts
  bound : ∀ i ∈ s.processed ++ s.pc.holds.toList, i < s.puts
  produced : (s.produced ++ s.pc.holdsOutput.toList).Sublist (s.processed.filterMap action)
  got : (s.got ++ s.output.toList).Sublist s.produced
  newest : ∀ o, s.output = some o → s.produced.getLast? = some o

theorem inv_init (action : Nat → Option O) : Inv action (init : State O) := by
  constructor <;> simp [init, Pc.holds, Pc.holdsOutput]

theorem sublist_append_nil {α : Type} {l m r : List α} (h : (l ++ m).Sublist r) : (l ++ []).Sublist r :=
  (List.Sublist.append_left (List.nil_sublist _) _).trans h

theorem inv_step (action : Nat → Option O) (s : State O) (l : Label) (s' : State O) (h : Inv action s)
    (hs : step action s l = some s') : Inv action s' := by
  have hso := h.sorted
  have hbo := h.bound
  have hpr := h.produced
  cases l with
  | put =>
    simp only [step, Option.some.injEq] at hs; subst hs
    refine ⟨?_, by simp, ?_, hpr, h.got, h.newest⟩
    · rw [List.pairwise_append] at hso ⊢
      refine ⟨hso.1, by simp, ?_⟩
      intro a ha b hb
      simp only [Option.toList_some, List.mem_singleton] at hb
      subst hb
      exact hbo a ha
    · intro i hi
      have := hbo i hi
      simp only; omega
  | get =>
    simp only [step, Option.some.injEq] at hs; subst hs
    refine ⟨hso, h.last, hbo, hpr, ?_, by simp⟩
    simp only [Option.toList_none, List.append_nil]
    exact h.got
  | start =>
    simp only [step] at hs
    split at hs
    · rename_i hpc
      simp only [Option.some.injEq] at hs; subst hs
      simp only [hpc, Pc.holds, Pc.holdsOutput] at hso hbo hpr
      exact ⟨hso, h.last, hbo, hpr, h.got, h.newest⟩
    · split at hs
      · simp at hs
      · simp only [Option.some.injEq] at hs; subst hs; exact h
  | stop =>
    simp only [step, Option.some.injEq] at hs; subst hs
    exact ⟨hso, h.last, hbo, hpr, h.got, h.newest⟩
  | thread =>
    simp only [step] at hs
    unfold threadStep at hs
    have hdrop : ∀ i, s.pc.holds = some i → (s.processed ++ (none : Option Nat).toList ++ s.input.toList).Pairwise (· < ·) := by
      intro i hi
      rw [hi] at hso
      refine hso.sublist ?_
      simp
    split at hs
    · simp at hs
    · rename_i hpc
      simp only [hpc, Pc.holds, Pc.holdsOutput] at hso hbo hpr
      split at hs <;> (simp only [Option.some.injEq] at hs; subst hs; exact ⟨hso, h.last, hbo, hpr, h.got, h.newest⟩)
    · rename_i hpc
      simp only [hpc, Pc.holds, Pc.holdsOutput] at hso hbo hpr
      split at hs
      · simp only [Option.some.injEq] at hs; subst hs
        exact ⟨hso, h.last, hbo, hpr, h.got, h.newest⟩
      · rename_i i hi
        simp only [Option.some.injEq] at hs; subst hs
        refine ⟨?_, by simp, ?_, hpr, h.got, h.newest⟩
        · simpa [Pc.holds, hi] using hso
        · intro j hj
          simp only [Pc.holds, Option.toList_some, List.mem_append, List.mem_singleton] at hj
          rcases hj with hj | rfl
          · exact hbo j (by simpa using hj)
          · have := h.last _ hi; simp only; omega
    · rename_i i hpc
      split at hs
      · simp only [Option.some.injEq] at hs; subst hs
        refine ⟨hdrop i (by rw [hpc]; rfl), h.last, ?_, ?_, h.got, h.newest⟩
        · intro j hj
          exact hbo j (by simp only [Pc.holds, Option.toList_none, List.append_nil] at hj; simp [hj])
        · simp only [hpc, Pc.holdsOutput] at hpr; exact hpr
      · simp only [Option.some.injEq] at hs; subst hs
        simp only [hpc, Pc.holds, Pc.holdsOutput] at hso hbo hpr
        exact ⟨hso, h.last, hbo, hpr, h.got, h.newest⟩
    · rename_i i hpc
      simp only [Option.some.injEq] at hs; subst hs
      simp only [hpc, Pc.holds, Pc.holdsOutput] at hso hbo hpr
      refine ⟨by simpa [Pc.holds] using hso, h.last, by simpa [Pc.holds] using hbo, ?_, h.got, h.newest⟩
      simp only [Pc.holdsOutput, List.filterMap_append]
      have : [i].filterMap action = (action i).toList := by
        cases hh : action i <;> simp [List.filterMap_cons, hh]
      rw [this]
      exact List.Sublist.append_right (by simpa using hpr) _
    · rename_i i o hpc
      simp only [hpc, Pc.holds, Pc.holdsOutput] at hso hbo hpr
      split at hs
      · simp only [Option.some.injEq] at hs; subst hs
        exact ⟨hso, h.last, hbo, sublist_append_nil hpr, h.got, h.newest⟩
      · simp only [Option.some.injEq] at hs; subst hs
        exact ⟨hso, h.last, hbo, hpr, h.got, h.newest⟩
    · rename_i i o hpc
      simp only [hpc, Pc.holds, Pc.holdsOutput] at hso hbo hpr
      split at hs
      · simp only [Option.some.injEq] at hs; subst hs
        exact ⟨hso, h.last, hbo, hpr, h.got, h.newest⟩
      · rename_i o'
        simp only [Option.some.injEq] at hs; subst hs
        refine ⟨hso, h.last, hbo, ?_, ?_, ?_⟩
        · simpa [Pc.holdsOutput] using hpr
        · simp only [Option.toList_some]
          refine List.Sublist.append_right ?_ _
          exact (List.sublist_append_left _ _).trans h.got
        · intro o ho; simp only [Option.some.injEq] at ho; subst ho; simp
    · rename_i hpc
      simp only [hpc, Pc.holds, Pc.holdsOutput] at hso hbo hpr
      split at hs <;> (simp only [Option.some.injEq] at hs; subst hs; exact ⟨hso, h.last, hbo, hpr, h.got, h.newest⟩)

theorem inv_run {action : Nat → Option O} {ls : List Label} {s : State O} (hr : run (step action) init ls = some s) :
    Inv action s :=
  run_invariant _ (inv_step action) (inv_init action) hr

/-- For every interleaving of `Put`, `Get`, `Start`, `Stop` and of the steps of the thread: the inputs for which the action is run are
inputs that were given, each of them is processed at most once, and in the order in which they were given; the values that the client
gets are results of the action for processed inputs, without errors, each result is obtained at most once and in the order of the
inputs; and a result that is available is the newest one that was produced. -/
theorem C14_order (action : Nat → Option O) (ls : List Label) (s : State O) (hr : run (step action) init ls = some s) :
    s.processed.Pairwise (· < ·) ∧ (∀ i ∈ s.processed, i < s.puts) ∧
    s.produced.Sublist (s.processed.filterMap action) ∧ (s.got ++ s.output.toList).Sublist s.produced ∧
    ∀ o, s.output = some o → s.produced.getLast? = some o := by
  have h := inv_run hr
  refine ⟨?_, ?_, ?_, h.got, h.newest⟩
  · refine h.sorted.sublist ?_
    rw [List.append_assoc]
    exact List.sublist_append_left _ _
  · intro i hi; exact h.bound i (by simp [hi])
  · exact (List.sublist_append_left _ _).trans h.produced

/-- The history has no call to `Stop`. -/
def NeverStopped (ls : List Label) : Prop := Label.stop ∉ ls

/-- Where the last input given to the thread is. -/
structure Live (action : Nat → Option O) (s : State O) : Prop where
  flag : s.stopRequested = false
  last : ∀ i, i + 1 = s.puts → s.input = some i ∨ s.pc.holds = some i ∨ i ∈ s.processed
  exact : s.produced ++ s.pc.holdsOutput.toList = s.processed.filterMap action

theorem live_step (action : Nat → Option O) (s : State O) (l : Label) (hl : l ≠ .stop) (s' : State O) (h : Live action s)
    (hs : step action s l = some s') : Live action s' := by
  have hfl := h.flag
  have hla := h.last
  have hex := h.exact
  cases l with
  | put =>
    simp only [step, Option.some.injEq] at hs; subst hs
    refine ⟨hfl, ?_, hex⟩
    intro i hi
    left; simp only at hi ⊢; congr 1; omega
  | get => simp only [step, Option.some.injEq] at hs; subst hs; exact ⟨hfl, hla, hex⟩
  | start =>
    simp only [step] at hs
    split at hs
    · rename_i hpc
      simp only [Option.some.injEq] at hs; subst hs
      simp only [hpc, Pc.holds, Pc.holdsOutput] at hla hex
      exact ⟨rfl, hla, hex⟩
    · split at hs
      · simp at hs
      · simp only [Option.some.injEq] at hs; subst hs; exact h
  | stop => exact absurd rfl hl
  | thread =>
    simp only [step] at hs
    unfold threadStep at hs
    split at hs
    · simp at hs
    · rename_i hpc
      simp only [hpc, Pc.holds, Pc.holdsOutput] at hla hex
      rw [hfl] at hs
      simp only [Bool.false_eq_true, if_false, Option.some.injEq] at hs; subst hs
      exact ⟨rfl, hla, hex⟩
    · rename_i hpc
      simp only [hpc, Pc.holds, Pc.holdsOutput] at hla hex
      split at hs
      · simp only [Option.some.injEq] at hs; subst hs; exact ⟨hfl, hla, hex⟩
      · rename_i i hi
        simp only [Option.some.injEq] at hs; subst hs
        refine ⟨hfl, ?_, hex⟩
        intro j hj
        rcases hla j hj with h1 | h1 | h1
        · right; left; rw [hi] at h1; exact h1
        · simp at h1
        · right; right; exact h1
    · rename_i i hpc
      simp only [hpc, Pc.holds, Pc.holdsOutput] at hla hex
      rw [hfl] at hs
      simp only [Bool.false_eq_true, if_false, Option.some.injEq] at hs; subst hs
      exact ⟨rfl, hla, hex⟩
    · rename_i i hpc
      simp only [hpc, Pc.holds, Pc.holdsOutput] at hla hex
      simp only [Option.some.injEq] at hs; subst hs
      refine ⟨hfl, ?_, ?_⟩
      · intro j hj
        rcases hla j hj with h1 | h1 | h1
        · left; exact h1
        · right; right; simp only [Option.some.injEq] at h1; subst h1; simp
        · right; right; simp [h1]
      · simp only [Pc.holdsOutput, List.filterMap_append, ← hex]
        cases hh : action i <;> simp [List.filterMap_cons, hh]
    · rename_i i o hpc
      simp only [hpc, Pc.holds, Pc.holdsOutput] at hla hex
      rw [hfl] at hs
      simp only [Bool.false_eq_true, if_false, Option.some.injEq] at hs; subst hs
      exact ⟨rfl, hla, hex⟩
    · rename_i i o hpc
      simp only [hpc, Pc.holds, Pc.holdsOutput] at hla hex
      split at hs
      · simp only [Option.some.injEq] at hs; subst hs; exact ⟨hfl, hla, hex⟩
      · simp only [Option.some.injEq] at hs; subst hs
        refine ⟨hfl, hla, ?_⟩
        simpa [Pc.holdsOutput] using hex
    · rename_i hpc
      simp only [hpc, Pc.holds, Pc.holdsOutput] at hla hex
      rw [hfl] at hs
      simp only [Bool.false_eq_true, if_false, Option.some.injEq] at hs; subst hs
      exact ⟨rfl, hla, hex⟩

theorem live_run {action : Nat → Option O} {ls : List Label} (hn : NeverStopped ls) {s s' : State O} (h : Live action s)
    (hr : run (step action) s ls = some s') : Live action s' := by
  induction ls generalizing s with
  | nil => simp only [run, Option.some.injEq] at hr; rw [← hr]; exact h
  | cons l ls ih =>
    simp only [run, Option.bind_eq_some_iff] at hr
    obtain ⟨s1, h1, h2⟩ := hr
    refine ih (fun hh => hn (List.mem_cons_of_mem _ hh)) (live_step action s l ?_ s1 h h1) h2
    rintro rfl
    exact hn List.mem_cons_self

theorem live_init (action : Nat → Option O) : Live action (init : State O) :=
  ⟨rfl, by simp [init], by simp [init, Pc.holdsOutput]⟩

/-- If the thread is not stopped, every result of the action which is not an error is published, in order. -/
theorem C14_published (action : Nat → Option O) (ls : List Label) (hn : NeverStopped ls) (s : State O)
    (hr : run (step action) init ls = some s) : s.produced ++ s.pc.holdsOutput.toList = s.processed.filterMap action :=
  (live_run hn (live_init action) hr).exact

/-- How many steps the thread needs before it runs the action for the input which is in the channel. -/
def Pc.distance : Pc O → Nat
  | .act _ => 9
  | .acted _ _ => 8
  | .publish _ _ => 7
  | .loopEnd => 6
  | .loop => 5
  | .take => 4
  | .taken _ => 10
  | .stopped => 0

/-- How many steps the thread needs before it runs the action for the input `i`. -/
def waiting (i : Nat) (s : State O) : Nat :=
  if i ∈ s.processed then 0 else
  match s.pc with
  | .taken j => if j = i then 2 else 10
  | .act j => if j = i then 1 else 9
  | pc => pc.distance

def threadSteps (ls : List Label) : Nat := ls.countP fun l => match l with | .thread => true | _ => false

/-- If the thread is never stopped, the last input given is processed, at the latest after 10 steps of the thread. -/
theorem C14_last_input_processed (action : Nat → Option O) (ls : List Label) (hn : NeverStopped ls) (s : State O)
    (hr : run (step action) init ls = some s) (hstarted : Label.start ∈ ls) (hput : 0 < s.puts)
    (ls' : List Label) (hn' : NeverStopped ls') (hnp : Label.put ∉ ls') (s' : State O)
    (hr' : run (step action) s ls' = some s') (hsteps : 10 ≤ threadSteps ls') : s.puts - 1 ∈ s'.processed := by
  have hlive := live_run hn (live_init action) hr
  have hrun : ∀ pc', s.pc = pc' → pc' ≠ .stopped := by
    have hstep : ∀ (s s1 : State O) l, s.stopRequested = false → l ≠ .stop → step action s l = some s1 →
        (s.pc ≠ .stopped ∨ l = .start) → s1.pc ≠ .stopped := by
      intro s s1 l hf hl hs hpc
      cases l with
      | put => simp only [step, Option.some.injEq] at hs; subst hs; simpa using hpc
      | get => simp only [step, Option.some.injEq] at hs; subst hs; simpa using hpc
      | stop => exact absurd rfl hl
      | start =>
        simp only [step] at hs
        split at hs
        · simp only [Option.some.injEq] at hs; subst hs; simp
        · rename_i hne
          rw [hf] at hs
          simp only [Bool.false_eq_true, if_false, Option.some.injEq] at hs; subst hs; exact hne
      | thread =>
        simp only [step] at hs
        unfold threadStep at hs
        rw [hf] at hs
        simp only [Bool.false_eq_true, if_false] at hs
        split at hs
        · simp at hs
        · simp only [Option.some.injEq] at hs; subst hs; simp
        · split at hs <;> (simp only [Option.some.injEq] at hs; subst hs; simp)
        · simp only [Option.some.injEq] at hs; subst hs; simp
        · simp only [Option.some.injEq] at hs; subst hs; simp
        · simp only [Option.some.injEq] at hs; subst hs; simp
        · split at hs <;> (simp only [Option.some.injEq] at hs; subst hs; simp)
        · simp only [Option.some.injEq] at hs; subst hs; simp
    have key : ∀ (ls : List Label) (s0 : State O), Live action s0 → NeverStopped ls → run (step action) s0 ls = some s →
        (s0.pc ≠ .stopped ∨ Label.start ∈ ls) → s.pc ≠ .stopped := by
      intro ls
      induction ls with
      | nil =>
        intro s0 _ _ hr h
        simp only [run, Option.some.injEq] at hr; subst hr
        simpa using h
      | cons l ls ih =>
        intro s0 hl0 hn hr h
        simp only [run, Option.bind_eq_some_iff] at hr
        obtain ⟨s1, h1, h2⟩ := hr
        have hls : l ≠ .stop := by rintro rfl; exact hn List.mem_cons_self
        refine ih s1 (live_step action s0 l hls s1 hl0 h1) (fun hh => hn (List.mem_cons_of_mem _ hh)) h2 ?_
        rcases h with h | h
        · left; exact hstep s0 s1 l hl0.flag hls h1 (Or.inl h)
        · rcases List.mem_cons.1 h with h | h
          · left; exact hstep s0 s1 l hl0.flag hls h1 (Or.inr h.symm)
          · right; exact h
    intro pc' hpc
    rw [← hpc]
    exact key ls _ (live_init action) hn hr (Or.inr hstarted)
  -- A decreasing quantity.
  obtain ⟨i, hi⟩ : ∃ i, i + 1 = s.puts := ⟨s.puts - 1, by omega⟩
  have hi' : s.puts - 1 = i := by omega
  rw [hi']
  have key : ∀ (ls' : List Label) (s : State O), Live action s → s.pc ≠ .stopped → i + 1 = s.puts → NeverStopped ls' →
      Label.put ∉ ls' → run (step action) s ls' = some s' → waiting i s' + threadSteps ls' ≤ waiting i s ∨ i ∈ s'.processed := by
    intro ls'
    induction ls' with
    | nil =>
      intro s _ _ _ _ _ hr
      simp only [run, Option.some.injEq] at hr; subst hr; left; simp [threadSteps]
    | cons l ls' ih =>
      intro s hl hpc hput hn hnp hr
      simp only [run, Option.bind_eq_some_iff] at hr
      obtain ⟨s1, h1, h2⟩ := hr
      have hls : l ≠ .stop := by rintro rfl; exact hn List.mem_cons_self
      have hl1 := live_step action s l hls s1 hl h1
      have hn1 : NeverStopped ls' := fun hh => hn (List.mem_cons_of_mem _ hh)
      have hnp1 : Label.put ∉ ls' := fun hh => hnp (List.mem_cons_of_mem _ hh)
      have mono : ∀ (ls : List Label) (a b : State O), run (step action) a ls = some b → i ∈ a.processed → i ∈ b.processed := by
        intro ls a b hr ha
        refine run_invariant (fun s : State O => i ∈ s.processed) ?_ ha hr
        intro s l s' h hs
        cases l with
        | put => simp only [step, Option.some.injEq] at hs; subst hs; exact h
        | get => simp only [step, Option.some.injEq] at hs; subst hs; exact h
        | stop => simp only [step, Option.some.injEq] at hs; subst hs; exact h
        | start =>
          simp only [step] at hs
          split at hs
          · simp only [Option.some.injEq] at hs; subst hs; exact h
          · split at hs
            · simp at hs
            · simp only [Option.some.injEq] at hs; subst hs; exact h
        | thread =>
          simp only [step] at hs
          unfold threadStep at hs
          split at hs
          · simp at hs
          · split at hs <;> (simp only [Option.some.injEq] at hs; subst hs; exact h)
          · split at hs <;> (simp only [Option.some.injEq] at hs; subst hs; exact h)
          · split at hs <;> (simp only [Option.some.injEq] at hs; subst hs; exact h)
          · simp only [Option.some.injEq] at hs; subst hs; simp [h]
          · split at hs <;> (simp only [Option.some.injEq] at hs; subst hs; exact h)
          · split at hs <;> (simp only [Option.some.injEq] at hs; subst hs; exact h)
          · split at hs <;> (simp only [Option.some.injEq] at hs; subst hs; exact h)
      by_cases hproc : i ∈ s.processed
      · right; exact mono (l :: ls') s s' (by simp only [run]; rw [h1]; exact h2) hproc
      by_cases hproc1 : i ∈ s1.processed
      · right; exact mono _ _ _ h2 hproc1
      have hfl := hl.flag
      have hstep : s1.puts = s.puts ∧ s1.pc ≠ .stopped ∧
          waiting i s1 + threadSteps [l] ≤ waiting i s := by
        cases l with
        | put => exact absurd List.mem_cons_self hnp
        | get => simp only [step, Option.some.injEq] at h1; subst h1; exact ⟨rfl, hpc, Nat.le_refl _⟩
        | stop => exact absurd rfl hls
        | start =>
          simp only [step] at h1
          rw [hfl] at h1
          simp only [Bool.false_eq_true, if_false, Option.some.injEq] at h1; subst h1; exact ⟨rfl, hpc, Nat.le_refl _⟩
        | thread =>
          have hla := hl.last i hput
          have hone : threadSteps [Label.thread] = 1 := rfl
          rw [hone]
          simp only [step] at h1
          unfold threadStep at h1
          rw [hfl] at h1
          simp only [Bool.false_eq_true, if_false] at h1
          split at h1
          · simp at h1
          · rename_i e
            simp only [Option.some.injEq] at h1; subst h1
            exact ⟨rfl, by simp, by simp [waiting, e, hproc, Pc.distance]⟩
          · rename_i e
            rw [e] at hla
            simp only [Pc.holds, hproc, or_false] at hla
            simp only [reduceCtorEq, or_false] at hla
            rw [hla] at h1
            simp only [Option.some.injEq] at h1; subst h1
            exact ⟨rfl, by simp, by simp [waiting, e, hproc, Pc.distance]⟩
          · rename_i j e
            simp only [Option.some.injEq] at h1; subst h1
            refine ⟨rfl, by simp, ?_⟩
            simp only [waiting, e, hproc, if_false]
            split <;> omega
          · rename_i j e
            simp only [Option.some.injEq] at h1; subst h1
            have hne : j ≠ i := by rintro rfl; exact hproc1 (by simp)
            refine ⟨rfl, by simp, ?_⟩
            simp only [waiting, e, hproc, if_false, hne, Pc.distance, hproc1]; omega
          · rename_i j o e
            simp only [Option.some.injEq] at h1; subst h1
            exact ⟨rfl, by simp, by simp [waiting, e, hproc, Pc.distance]⟩
          · rename_i j o e
            split at h1 <;>
              (simp only [Option.some.injEq] at h1; subst h1; exact ⟨rfl, by simp, by simp [waiting, e, hproc, Pc.distance]⟩)
          · rename_i e
            simp only [Option.some.injEq] at h1; subst h1
            exact ⟨rfl, by simp, by simp [waiting, e, hproc, Pc.distance]⟩
      obtain ⟨h3, h4, h5⟩ := hstep
      rcases ih s1 hl1 h4 (by rw [h3]; exact hput) hn1 hnp1 h2 with h6 | h6
      · left
        have : threadSteps (l :: ls') = threadSteps ls' + threadSteps [l] := by
          simp only [threadSteps, List.countP_cons, List.countP_nil]
          omega
        omega
      · right; exact h6
  rcases key ls' s hlive (hrun _ rfl) hi hn' hnp hr' with h | h
  · have hw : waiting i s ≤ 10 := by
      unfold waiting
      split
      · omega
      · cases s.pc <;> simp only [Pc.distance] <;> (try split) <;> omega
    have hlive' := live_run hn' hlive hr'
    have h0 : waiting i s' = 0 := by omega
    by_contra hne
    unfold waiting at h0
    rw [if_neg hne] at h0
    have hpcs : s'.pc = .stopped := by
      revert h0
      cases s'.pc <;> simp only [Pc.distance] <;> (try split) <;> simp
    have hnot : s'.pc ≠ .stopped := by
      have : ∀ (ls' : List Label) (s : State O), Live action s → s.pc ≠ .stopped → NeverStopped ls' →
          run (step action) s ls' = some s' → s'.pc ≠ .stopped := by
        intro ls'
        induction ls' with
        | nil => intro s _ hp _ hr; simp only [run, Option.some.injEq] at hr; subst hr; exact hp
        | cons l ls' ih =>
          intro s hl hp hn hr
          simp only [run, Option.bind_eq_some_iff] at hr
          obtain ⟨s1, h1, h2⟩ := hr
          have hls : l ≠ .stop := by rintro rfl; exact hn List.mem_cons_self
          refine ih s1 (live_step action s l hls s1 hl h1) ?_ (fun hh => hn (List.mem_cons_of_mem _ hh)) h2
          have hfl := hl.flag
          cases l with
          | put => simp only [step, Option.some.injEq] at h1; subst h1; exact hp
          | get => simp only [step, Option.some.injEq] at h1; subst h1; exact hp
          | stop => exact absurd rfl hls
          | start =>
            simp only [step] at h1
            rw [hfl] at h1
            simp only [Bool.false_eq_true, if_false, Option.some.injEq] at h1; subst h1; exact hp
          | thread =>
            simp only [step] at h1
            unfold threadStep at h1
            rw [hfl] at h1
            simp only [Bool.false_eq_true, if_false] at h1
            split at h1
            · simp at h1
            · simp only [Option.some.injEq] at h1; subst h1; simp
            · split at h1 <;> (simp only [Option.some.injEq] at h1; subst h1; simp)
            · simp only [Option.some.injEq] at h1; subst h1; simp
            · simp only [Option.some.injEq] at h1; subst h1; simp
            · simp only [Option.some.injEq] at h1; subst h1; simp
            · split at h1 <;> (simp only [Option.some.injEq] at h1; subst h1; simp)
            · simp only [Option.some.injEq] at h1; subst h1; simp
      exact this ls' s hlive (hrun _ rfl) hn' hr'
    exact hnot hpcs
  · exact h

/-- If the thread is stopped after it has extracted an input from the channel, that input is lost: it was neither overwritten nor given
to the action, even though the thread is restarted.  This contradicts the comment of `Put` (base/recurring_thread.hpp:68-70), "The
`input` data will be either picked by the next execution of `action`, or overwritten by the next call to `Put`". -/
theorem C14_stop_loses_input_counterexample :
    ∃ (ls : List Label) (s : State Nat), run (step fun i => some i) init ls = some s ∧ s.puts = 1 ∧ s.pc ≠ .stopped ∧
      s.stopRequested = false ∧ s.input = none ∧ s.pc.holds = none ∧ s.processed = [] :=
  ⟨[.start, .put, .thread, .thread, .stop, .thread, .start], _, rfl, rfl, by simp, rfl, rfl, rfl, rfl⟩

/-- An execution where an input is overwritten, an action fails, and a result is obtained. -/
example : ∃ (ls : List Label) (s : State Nat), NeverStopped ls ∧
    run (step fun i => if i = 1 then none else some (10 * i)) init ls = some s ∧ s.puts = 4 ∧ s.processed = [1, 3] ∧
    s.got = [30] :=
  ⟨[.start, .put, .put, .thread, .thread, .put, .thread, .thread, .put, .thread, .thread, .thread, .get, .thread, .thread, .thread,
    .thread, .thread, .thread, .get, .get], _, by simp [NeverStopped], rfl, rfl, rfl, rfl⟩

end Principia.RecurringThread
