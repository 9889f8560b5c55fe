import Verif.Base.PushPullModel

/-!
# C13: the push-pull executor
-/

set_option linter.unusedSimpArgs false
set_option linter.unusedVariables false

namespace Principia.PushPull

open Principia.Lts

variable {A R T : Type}

/-! ## Specification -/

/-- The execution of the task with a direct call to the callback: the arguments of all the calls (after those of `h`), and the value
returned. -/
def direct (reply : List A → R) : List A → Task A R T → List A × T
  | h, .ret v => (h, v)
  | h, .call a k => direct reply (h ++ [a]) (k (reply (h ++ [a])))

/-! ## Invariant -/

inductive Inv (reply : List A → R) (d : List A × T) : State A R T → Prop
  | running (t seen) (h : direct reply seen t = d) : Inv reply d ⟨none, none, false, none, .running t, .pulling, seen⟩
  | called (a k seen) (h : direct reply seen (.call a k) = d) : Inv reply d ⟨some a, none, false, none, .waiting k, .pulling, seen⟩
  | pulled (k seen) (h : direct reply seen (k (reply seen)) = d) :
      Inv reply d ⟨none, none, false, none, .waiting k, .pushing, seen⟩
  | pushed (k seen) (h : direct reply seen (k (reply seen)) = d) :
      Inv reply d ⟨none, some (reply seen), false, none, .waiting k, .pulling, seen⟩
  | stopping : Inv reply d ⟨none, none, false, some d.2, .stopping, .pulling, d.1⟩
  | done : Inv reply d ⟨none, none, true, some d.2, .done, .pulling, d.1⟩
  | finished : Inv reply d ⟨none, none, true, some d.2, .done, .finished, d.1⟩

theorem inv_step (reply : List A → R) (d : List A × T) (s : State A R T) (l : Label) (s' : State A R T) (h : Inv reply d s)
    (hs : step reply s l = some s') : Inv reply d s' := by
  cases h with
  | running t seen h =>
    cases l with
    | task =>
      cases t with
      | ret v =>
        simp only [step, taskStep, Option.some.injEq] at hs; subst hs
        simp only [direct] at h; subst h
        exact .stopping
      | call a k => simp only [step, taskStep, Option.some.injEq] at hs; subst hs; exact .called a k seen h
    | driver => simp [step, driverStep] at hs
  | called a k seen h =>
    cases l with
    | task => simp [step, taskStep] at hs
    | driver =>
      simp only [step, driverStep, Bool.false_eq_true, if_false, Option.some.injEq] at hs; subst hs
      exact .pulled k _ (by rw [← h]; rfl)
  | pulled k seen h =>
    cases l with
    | task => simp [step, taskStep] at hs
    | driver => simp only [step, driverStep, Option.some.injEq] at hs; subst hs; exact .pushed k _ h
  | pushed k seen h =>
    cases l with
    | task => simp only [step, taskStep, Option.some.injEq] at hs; subst hs; exact .running _ _ h
    | driver => simp [step, driverStep] at hs
  | stopping =>
    cases l with
    | task => simp only [step, taskStep, Option.some.injEq] at hs; subst hs; exact .done
    | driver => simp [step, driverStep] at hs
  | done =>
    cases l with
    | task => simp [step, taskStep] at hs
    | driver => simp only [step, driverStep, if_true, Option.some.injEq] at hs; subst hs; exact .finished
  | finished =>
    cases l with
    | task => simp [step, taskStep] at hs
    | driver => simp [step, driverStep] at hs

theorem inv_run {reply : List A → R} {task : Task A R T} {ls : List Label} {s : State A R T}
    (hr : run (step reply) (init task) ls = some s) : Inv reply (direct reply [] task) s :=
  run_invariant _ (inv_step reply _) (.running task [] rfl) hr

theorem direct_prefix (reply : List A → R) (t : Task A R T) (h : List A) : h <+: (direct reply h t).1 := by
  induction t generalizing h with
  | ret v => exact List.prefix_refl _
  | call a k ih => exact (List.prefix_append _ _).trans (ih _ _)

/-! ## Theorems -/

/-- For every task, every driver and every interleaving, the driver sees the arguments of the calls that the task would make to the
callback if it called it directly, each exactly once and in order. -/
theorem C13_calls (reply : List A → R) (task : Task A R T) (ls : List Label) (s : State A R T)
    (hr : run (step reply) (init task) ls = some s) : s.seen <+: (direct reply [] task).1 := by
  have h := inv_run hr
  generalize hd : direct reply [] task = d at h
  cases h with
  | running t seen h => rw [← h]; exact direct_prefix _ _ _
  | called a k seen h => rw [← h]; exact direct_prefix _ _ _
  | pulled k seen h => rw [← h]; exact direct_prefix _ _ _
  | pushed k seen h => rw [← h]; exact direct_prefix _ _ _
  | stopping => exact List.prefix_refl _
  | done => exact List.prefix_refl _
  | finished => exact List.prefix_refl _

/-- Once `Pull` returns false, the driver has seen all the calls and `get` returns the value that the task would return if it called
the callback directly; in particular the check in `get` succeeds. -/
theorem C13_result (reply : List A → R) (task : Task A R T) (ls : List Label) (s : State A R T)
    (hr : run (step reply) (init task) ls = some s) (hf : s.driver = .finished) :
    s.seen = (direct reply [] task).1 ∧ s.value = some (direct reply [] task).2 := by
  have h := inv_run hr
  generalize hd : direct reply [] task = d at h
  cases h with
  | running t seen h => simp at hf
  | called a k seen h => simp at hf
  | pulled k seen h => simp at hf
  | pushed k seen h => simp at hf
  | stopping => simp at hf
  | done => simp at hf
  | finished => exact ⟨rfl, rfl⟩

/-- There is no deadlock. -/
theorem C13_no_deadlock (reply : List A → R) (task : Task A R T) (ls : List Label) (s : State A R T)
    (hr : run (step reply) (init task) ls = some s) (hf : s.driver ≠ .finished) : ∃ l, (step reply s l).isSome := by
  have h := inv_run hr
  generalize hd : direct reply [] task = d at h
  cases h with
  | running t seen h => exact ⟨.task, by cases t <;> rfl⟩
  | called a k seen h => exact ⟨.driver, rfl⟩
  | pulled k seen h => exact ⟨.driver, rfl⟩
  | pushed k seen h => exact ⟨.task, rfl⟩
  | stopping => exact ⟨.task, rfl⟩
  | done => exact ⟨.driver, rfl⟩
  | finished => exact absurd rfl hf

/-- The number of steps. -/
def cost (reply : List A → R) : List A → Task A R T → Nat
  | _, .ret _ => 3
  | h, .call a k => 4 + cost reply (h ++ [a]) (k (reply (h ++ [a])))

theorem cost_eq (reply : List A → R) (t : Task A R T) (h : List A) :
    cost reply h t + 4 * h.length = 3 + 4 * (direct reply h t).1.length := by
  induction t generalizing h with
  | ret v => simp [cost, direct]
  | call a k ih =>
    have := ih (reply (h ++ [a])) (h ++ [a])
    simp only [List.length_append, List.length_singleton] at this
    simp only [cost, direct]
    omega

def measure (reply : List A → R) (s : State A R T) : Nat :=
  match s.task, s.driver with
  | .running t, _ => cost reply s.seen t
  | .waiting k, .pushing => 2 + cost reply s.seen (k (reply s.seen))
  | .waiting k, _ =>
    match s.arguments with
    | some a => 3 + cost reply (s.seen ++ [a]) (k (reply (s.seen ++ [a])))
    | none => 1 + cost reply s.seen (k (reply s.seen))
  | .stopping, _ => 2
  | .done, .finished => 0
  | .done, _ => 1

/-- Every execution is finite: it takes at most 4 steps for each call, and 3 at the end, so that the driver eventually finishes. -/
theorem C13_termination (reply : List A → R) (task : Task A R T) (ls : List Label) (s : State A R T)
    (hr : run (step reply) (init task) ls = some s) : ls.length ≤ 4 * (direct reply [] task).1.length + 3 := by
  have hm : ∀ s l s', Inv reply (direct reply [] task) s → step reply s l = some s' → measure reply s' < measure reply s := by
    intro s l s' h hs
    cases h with
    | running t seen h =>
      cases l with
      | task =>
        cases t with
        | ret v => simp only [step, taskStep, Option.some.injEq] at hs; subst hs; simp [measure, cost]
        | call a k => simp only [step, taskStep, Option.some.injEq] at hs; subst hs; simp [measure, cost]
      | driver => simp [step, driverStep] at hs
    | called a k seen h =>
      cases l with
      | task => simp [step, taskStep] at hs
      | driver =>
        simp only [step, driverStep, Bool.false_eq_true, if_false, Option.some.injEq] at hs; subst hs; simp [measure]
    | pulled k seen h =>
      cases l with
      | task => simp [step, taskStep] at hs
      | driver => simp only [step, driverStep, Option.some.injEq] at hs; subst hs; simp [measure]
    | pushed k seen h =>
      cases l with
      | task => simp only [step, taskStep, Option.some.injEq] at hs; subst hs; simp [measure]
      | driver => simp [step, driverStep] at hs
    | stopping =>
      cases l with
      | task => simp only [step, taskStep, Option.some.injEq] at hs; subst hs; simp [measure]
      | driver => simp [step, driverStep] at hs
    | done =>
      cases l with
      | task => simp [step, taskStep] at hs
      | driver => simp only [step, driverStep, if_true, Option.some.injEq] at hs; subst hs; simp [measure]
    | finished =>
      cases l with
      | task => simp [step, taskStep] at hs
      | driver => simp [step, driverStep] at hs
  have := run_length _ (inv_step reply (direct reply [] task)) (measure reply) hm (.running task [] rfl) hr
  simp only [measure, init] at this
  have hc := cost_eq reply task []
  simp only [List.length_nil] at hc
  omega

/-- A task that makes two calls, the second one with an argument that depends on the result of the first one. -/
example : ∃ (task : Task Nat Nat Nat) (ls : List Label) (s : State Nat Nat Nat),
    run (step fun l => 10 * l.length) (init task) ls = some s ∧ s.driver = .finished ∧ s.seen = [1, 11] ∧ s.value = some 31 :=
  ⟨.call 1 fun r => .call (r + 1) fun q => .ret (r + q + 1),
   [.task, .driver, .driver, .task, .task, .driver, .driver, .task, .task, .task, .driver], _, rfl, rfl, rfl, rfl⟩

end Principia.PushPull
