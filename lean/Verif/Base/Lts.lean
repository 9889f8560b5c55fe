/-!
# Schedules

A concurrent class is modelled by a deterministic function `step : S → L → Option S`, where the label designates the
thread which takes the next atomic step; `none` means that this thread cannot take a step in that state (it is blocked, or has
terminated).  A schedule is a list of labels.
-/

namespace Principia.Lts

variable {S L : Type}

/-- The execution of a schedule. -/
def run (step : S → L → Option S) : S → List L → Option S
  | s, [] => some s
  | s, l :: ls => (step s l).bind fun s => run step s ls

theorem run_append (step : S → L → Option S) (s : S) (l l' : List L) :
    run step s (l ++ l') = (run step s l).bind fun s => run step s l' := by
  induction l generalizing s with
  | nil => rfl
  | cons a l ih =>
    simp only [List.cons_append, run]
    cases step s a with
    | none => rfl
    | some x => exact ih x

/-- An invariant holds in every state reached by a schedule. -/
theorem run_invariant {step : S → L → Option S} (I : S → Prop) (hstep : ∀ s l s', I s → step s l = some s' → I s')
    {s s' : S} {ls : List L} (h : I s) (hr : run step s ls = some s') : I s' := by
  induction ls generalizing s with
  | nil => simp only [run, Option.some.injEq] at hr; rw [← hr]; exact h
  | cons l ls ih =>
    simp only [run, Option.bind_eq_some_iff] at hr
    obtain ⟨s1, h1, h2⟩ := hr
    exact ih (hstep s l s1 h h1) h2

/-- If a measure decreases at each step, it bounds the length of the schedules. -/
theorem run_length {step : S → L → Option S} (I : S → Prop) (hI : ∀ s l s', I s → step s l = some s' → I s')
    (m : S → Nat) (hm : ∀ s l s', I s → step s l = some s' → m s' < m s)
    {s s' : S} {ls : List L} (h : I s) (hr : run step s ls = some s') : ls.length + m s' ≤ m s := by
  induction ls generalizing s with
  | nil => simp only [run, Option.some.injEq] at hr; rw [← hr]; simp
  | cons l ls ih =>
    simp only [run, Option.bind_eq_some_iff] at hr
    obtain ⟨s1, h1, h2⟩ := hr
    have := ih (hI s l s1 h h1) h2
    have := hm s l s1 h h1
    simp only [List.length_cons]; omega

end Principia.Lts
