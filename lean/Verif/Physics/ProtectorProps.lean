import Verif.Physics.ProtectorModel
import Mathlib.Data.List.Induction

/-!
# C16: protector
-/

set_option linter.unusedSimpArgs false
set_option linter.unusedVariables false
set_option linter.unusedSectionVars false

namespace Principia.Protector

open Principia.SortedMultiset Principia.Lts

variable {T : Type} [LinearOrder T]

/-! ## Specification -/

/-- The number of protections from `t` that are in force after a sequence of calls. -/
def inForce (ls : List (Label T)) (t : T) : Int := (ls.count (.protect t) : Int) - ls.count (.unprotect t)

/-- The interval `]-∞, t[` is unprotected if no protection in force covers a time in it. -/
def Unprotected (ls : List (Label T)) (t : T) : Prop := ∀ u, u < t → inForce ls u ≤ 0

/-- Where the callbacks are. -/
def everywhere (s : State T) : List (T × Nat) := s.callbacks ++ s.threads.flatten ++ s.ran

/-- The callbacks, numbered in order of registration. -/
def registrations (s : State T) : List (T × Nat) := s.registered.zipIdx

/-! ## Invariants -/

structure Inv (ls : List (Label T)) (s : State T) : Prop where
  sorted : s.starts.Pairwise (· ≤ ·)
  count : ∀ t, (s.starts.count t : Int) = inForce ls t
  order : s.callbacks.Pairwise fun a b => a.1 < b.1 ∨ (a.1 = b.1 ∧ a.2 < b.2)
  fresh : ∀ c ∈ s.callbacks, c.2 < s.registered.length
  waiting : ∀ c ∈ s.callbacks, isProtected s c.1 = true
  perm : (everywhere s).Perm (registrations s)

theorem isProtected_iff {s : State T} (h : s.starts.Pairwise (· ≤ ·)) {t : T} : isProtected s t = true ↔ ∃ u ∈ s.starts, u < t := by
  unfold isProtected
  cases hh : s.starts.head? with
  | none =>
    have : s.starts = [] := by simpa using hh
    simp [this]
  | some x =>
    obtain ⟨h1, h2⟩ := head_le h hh
    simp only [decide_eq_true_eq]
    constructor
    · intro hx; exact ⟨x, h1, hx⟩
    · rintro ⟨u, hu, hlt⟩; exact (h2 u hu).trans_lt hlt

theorem unprotected_iff {ls : List (Label T)} {s : State T} (h : Inv ls s) (t : T) : Unprotected ls t ↔ isProtected s t = false := by
  rw [← Bool.not_eq_true, isProtected_iff h.sorted]
  unfold Unprotected
  constructor
  · rintro hu ⟨u, hm, hlt⟩
    have h1 := hu u hlt
    rw [← h.count u] at h1
    have := List.count_pos_iff.2 hm
    omega
  · intro hn u hlt
    rw [← h.count u]
    by_contra hc
    exact hn ⟨u, List.count_pos_iff.1 (by omega), hlt⟩

theorem inForce_snoc (ls : List (Label T)) (l : Label T) (t : T) :
    inForce (ls ++ [l]) t = inForce ls t + (if l = .protect t then 1 else 0) - (if l = .unprotect t then 1 else 0) := by
  unfold inForce
  rw [List.count_append, List.count_append, List.count_singleton, List.count_singleton]
  simp only [beq_iff_eq]
  split <;> split <;> omega

theorem order_le {l : List (T × Nat)} (h : l.Pairwise fun a b => a.1 < b.1 ∨ (a.1 = b.1 ∧ a.2 < b.2)) :
    l.Pairwise fun a b => a.1 ≤ b.1 := by
  refine h.imp ?_
  rintro a b (h | ⟨h, -⟩)
  · exact h.le
  · exact h.le

theorem flatten_set {α : Type} (l : List (List α)) (k : Nat) (c : α) (cs : List α) (h : l[k]? = some (c :: cs)) :
    l.flatten.Perm (c :: (l.set k cs).flatten) := by
  induction l generalizing k with
  | nil => simp at h
  | cons x l ih =>
    cases k with
    | zero =>
      simp only [List.getElem?_cons_zero, Option.some.injEq] at h
      subst h
      simp
    | succ k =>
      simp only [List.getElem?_cons_succ] at h
      simp only [List.set_cons_succ, List.flatten_cons]
      refine ((ih k h).append_left x).trans ?_
      exact List.perm_middle

theorem filter_split {α : Type} (p : α → Bool) (l : List α) : (l.filter p ++ l.filter fun a => !p a).Perm l :=
  List.filter_append_perm p l

theorem inv_step {ls : List (Label T)} {s s' : State T} (h : Inv ls s) {l : Label T} (hs : step s l = some s') :
    Inv (ls ++ [l]) s' := by
  cases l with
  | runWhenUnprotected t =>
    simp only [step, Option.some.injEq] at hs
    have hcount : ∀ u, inForce (ls ++ [Label.runWhenUnprotected t]) u = inForce ls u := by
      intro u; rw [inForce_snoc]; simp
    have hreg : (s.registered ++ [t]).zipIdx = s.registered.zipIdx ++ [(t, s.registered.length)] := by
      rw [List.zipIdx_append]; simp
    unfold runWhenUnprotected at hs
    simp only at hs
    cases hp : isProtected s t with
    | true =>
      rw [hp] at hs
      simp only [if_true] at hs
      subst hs
      refine ⟨h.sorted, fun u => by rw [hcount]; exact h.count u, ?_, ?_, ?_, ?_⟩
      · exact pairwise_insertAfter (fun a : T × Nat => a.1) _ (fun _ _ h => Or.inl h) s.callbacks (order_le h.order) h.order
          (t, s.registered.length) (fun a ha he => Or.inr ⟨he, h.fresh a ha⟩)
      · intro c hc
        simp only [List.length_append, List.length_singleton]
        rcases List.mem_cons.1 ((emplace_perm s.callbacks t s.registered.length).mem_iff.1 hc) with rfl | hc
        · simp
        · have := h.fresh c hc; omega
      · intro c hc
        rcases List.mem_cons.1 ((emplace_perm s.callbacks t s.registered.length).mem_iff.1 hc) with rfl | hc
        · exact hp
        · exact h.waiting c hc
      · simp only [everywhere, registrations, hreg, List.flatten_append, List.flatten_cons, List.flatten_nil, List.append_nil]
        have h1 := ((emplace_perm s.callbacks t s.registered.length).append_right s.threads.flatten).append_right s.ran
        refine h1.trans ?_
        simp only [List.cons_append]
        refine (List.Perm.cons _ h.perm).trans ?_
        exact (List.perm_append_singleton _ _).symm
    | false =>
      rw [hp] at hs
      simp only [Bool.false_eq_true, if_false] at hs
      subst hs
      refine ⟨h.sorted, fun u => by rw [hcount]; exact h.count u, h.order, ?_, h.waiting, ?_⟩
      · intro c hc
        have := h.fresh c hc
        simp only [List.length_append, List.length_singleton]; omega
      · simp only [everywhere, registrations, hreg, List.flatten_append, List.flatten_cons, List.flatten_nil, List.append_nil]
        have h1 : (s.callbacks ++ (s.threads.flatten ++ [(t, s.registered.length)]) ++ s.ran).Perm
            ((t, s.registered.length) :: (s.callbacks ++ s.threads.flatten ++ s.ran)) := by
          rw [← List.append_assoc, List.append_assoc _ [_]]
          exact List.perm_middle
        refine h1.trans ((List.Perm.cons _ h.perm).trans ?_)
        exact (List.perm_append_singleton _ _).symm
  | protect t =>
    simp only [step, Option.some.injEq] at hs
    subst hs
    refine ⟨sorted_insert h.sorted t, ?_, h.order, h.fresh, ?_, h.perm⟩
    · intro u
      show (((insert s.starts t).count u : Nat) : Int) = _
      rw [count_insert, inForce_snoc, ← h.count u]
      simp only [Label.protect.injEq, reduceCtorEq, if_false]
      split <;> simp
    · intro c hc
      have h1 := (isProtected_iff h.sorted).1 (h.waiting c hc)
      obtain ⟨u, hu, hlt⟩ := h1
      refine (isProtected_iff (s := protect s t) (sorted_insert h.sorted t)).2 ⟨u, ?_, hlt⟩
      exact (insert_perm s.starts t).mem_iff.2 (List.mem_cons_of_mem _ hu)
  | unprotect t =>
    simp only [step, unprotect, Option.bind_eq_bind, Option.bind_eq_some_iff, Option.some.injEq] at hs
    obtain ⟨starts, he, rfl⟩ := hs
    have hsort := sorted_erase h.sorted he
    refine ⟨hsort, ?_, h.order.filter _, ?_, ?_, ?_⟩
    · intro u
      show ((starts.count u : Nat) : Int) = _
      rw [inForce_snoc, ← h.count u]
      have := count_erase he u
      simp only [Label.unprotect.injEq, reduceCtorEq, if_false]
      split at this <;> simp_all <;> omega
    · intro c hc
      exact h.fresh c (List.mem_filter.1 hc).1
    · intro c hc
      have h1 := (List.mem_filter.1 hc).2
      show (match starts.head? with | none => false | some start => decide (start < c.1)) = true
      revert h1
      cases starts.head? with
      | none => simp
      | some x => simp
    · simp only [everywhere, registrations, List.flatten_append, List.flatten_cons, List.flatten_nil, List.append_nil]
      refine List.Perm.trans ?_ h.perm
      unfold everywhere
      refine List.Perm.append_right s.ran ?_
      refine List.perm_append_comm.trans ?_
      rw [List.append_assoc]
      refine (List.Perm.append_left s.threads.flatten (filter_split _ s.callbacks)).trans List.perm_append_comm
  | run k =>
    have hcount : ∀ u, inForce (ls ++ [Label.run k]) u = inForce ls u := by
      intro u; rw [inForce_snoc]; simp
    simp only [step, runCallback] at hs
    split at hs
    · rename_i c cs hk
      simp only [Option.some.injEq] at hs
      subst hs
      refine ⟨h.sorted, fun u => by rw [hcount]; exact h.count u, h.order, h.fresh, h.waiting, ?_⟩
      refine List.Perm.trans ?_ h.perm
      simp only [everywhere]
      have h1 := flatten_set s.threads k c cs hk
      rw [← List.append_assoc]
      refine (List.perm_append_singleton c _).trans ?_
      have h2 : (s.callbacks ++ s.threads.flatten ++ s.ran).Perm (s.callbacks ++ (c :: (s.threads.set k cs).flatten) ++ s.ran) :=
        (h1.append_left _).append_right _
      refine List.Perm.trans ?_ h2.symm
      rw [List.append_assoc, List.append_assoc, List.cons_append]
      exact List.perm_middle.symm
    · simp at hs

theorem inv_run {ls : List (Label T)} {s : State T} (hr : run step init ls = some s) : Inv ls s := by
  induction ls using List.reverseRecOn generalizing s with
  | nil =>
    simp only [run, Option.some.injEq] at hr
    subst hr
    exact ⟨List.Pairwise.nil, by simp [init, inForce], List.Pairwise.nil, by simp [init], by simp [init], List.Perm.refl _⟩
  | append_singleton ls l ih =>
    rw [run_append, Option.bind_eq_some_iff] at hr
    obtain ⟨s1, h1, h2⟩ := hr
    simp only [run, Option.bind_eq_some_iff, Option.some.injEq] at h2
    obtain ⟨s2, h3, rfl⟩ := h2
    exact inv_step (ih h1) h3

/-! ## Theorems -/

/-- In every interleaving, each callback is in exactly one place, once: waiting, about to be run by some call, or already run. -/
theorem C16_exactly_once (ls : List (Label T)) (s : State T) (hr : run step init ls = some s) :
    (s.callbacks ++ s.threads.flatten ++ s.ran).Perm s.registered.zipIdx := (inv_run hr).perm

/-- A callback that is waiting is really protected: as soon as a callback becomes unprotected, it is given to a thread to be run. -/
theorem C16_as_soon_as_unprotected (ls : List (Label T)) (s : State T) (hr : run step init ls = some s) (t : T) (id : Nat)
    (hu : Unprotected ls t) : (t, id) ∉ s.callbacks := by
  intro hc
  have h := inv_run hr
  rw [unprotected_iff h] at hu
  rw [h.waiting _ hc] at hu
  simp at hu

/-- `RunWhenUnprotected` returns true and runs the callback if and only if it is unprotected at the time of the call. -/
theorem C16_result (ls : List (Label T)) (s : State T) (hr : run step init ls = some s) (t : T) :
    ((runWhenUnprotected s t).2 = true ↔ Unprotected ls t) ∧
    (Unprotected ls t → (runWhenUnprotected s t).1.threads = s.threads ++ [[(t, s.registered.length)]]) := by
  have h := inv_run hr
  rw [unprotected_iff h]
  unfold runWhenUnprotected
  cases hp : isProtected s t <;> simp

/-- A callback is only given to a thread to be run if it is unprotected at that time; `Unprotect` fails its check if and only if the
protection is not in force; and the callbacks given to a thread are run in time order, and in order of registration if they have the same
time. -/
theorem C16_unprotect (ls : List (Label T)) (s : State T) (hr : run step init ls = some s) (t : T) :
    (unprotect s t = none ↔ inForce ls t = 0) ∧
    ∀ s', unprotect s t = some s' → ∃ cs, s'.threads = s.threads ++ [cs] ∧
      (∀ c, c ∈ cs ↔ c ∈ s.callbacks ∧ Unprotected (ls ++ [.unprotect t]) c.1) ∧
      cs.Pairwise fun a b => a.1 < b.1 ∨ (a.1 = b.1 ∧ a.2 < b.2) := by
  have h := inv_run hr
  constructor
  · rw [← h.count t]
    have h1 : unprotect s t = none ↔ ¬ ∃ l, erase s.starts t = some l := by
      unfold unprotect
      cases erase s.starts t <;> simp
    rw [h1, erase_isSome_iff]
    omega
  · intro s' hs
    have h' : Inv (ls ++ [.unprotect t]) s' := inv_step h (l := .unprotect t) hs
    simp only [unprotect, Option.bind_eq_bind, Option.bind_eq_some_iff, Option.some.injEq] at hs
    obtain ⟨starts, he, rfl⟩ := hs
    refine ⟨_, rfl, ?_, h.order.filter _⟩
    intro c
    rw [List.mem_filter, unprotected_iff h']
    refine and_congr_right fun _ => ?_
    show _ ↔ (match starts.head? with | none => false | some start => decide (start < c.1)) = false
    cases starts.head? with
    | none => simp
    | some x => simp

/-- A callback that a thread is about to run remains unprotected as long as no conflicting call to `Protect` is made after it was given to
the thread: therefore, if no call to `Protect` occurs while there are callbacks about to be run, a callback is never run while it is
protected. -/
theorem C16_never_run_protected_partial (ls : List (Label T)) (s : State T) (hr : run step init ls = some s)
    (hq : ∀ ls' t, ls' ++ [.protect t] <+: ls → ∀ s', run step init ls' = some s' → ∀ c ∈ s'.threads.flatten, c.1 ≤ t)
    (c : T × Nat) (hc : c ∈ s.threads.flatten) : Unprotected ls c.1 := by
  induction ls using List.reverseRecOn generalizing s with
  | nil =>
    simp only [run, Option.some.injEq] at hr
    subst hr
    simp [init] at hc
  | append_singleton ls l ih =>
    rw [run_append, Option.bind_eq_some_iff] at hr
    obtain ⟨s1, h1, h2⟩ := hr
    simp only [run, Option.bind_eq_some_iff, Option.some.injEq] at h2
    obtain ⟨s2, h3, rfl⟩ := h2
    have h := inv_run h1
    have ih' := ih s1 h1 (fun ls' t hp => hq ls' t (hp.trans (List.prefix_append _ _)))
    cases l with
    | runWhenUnprotected t =>
      have hsame : ∀ u, Unprotected (ls ++ [Label.runWhenUnprotected t]) u ↔ Unprotected ls u := by
        intro u; unfold Unprotected
        simp only [inForce_snoc, reduceCtorEq, if_false, Int.add_zero, Int.sub_zero]
      rw [hsame]
      simp only [step, Option.some.injEq] at h3
      subst h3
      unfold runWhenUnprotected at hc
      simp only at hc
      split at hc
      · simp only [List.flatten_append, List.flatten_cons, List.flatten_nil, List.append_nil] at hc
        exact ih' hc
      · rename_i hp
        simp only [List.flatten_append, List.flatten_cons, List.flatten_nil, List.append_nil, List.mem_append,
          List.mem_singleton] at hc
        rcases hc with hc | rfl
        · exact ih' hc
        · rw [unprotected_iff h]; simpa using hp
    | protect t =>
      simp only [step, Option.some.injEq] at h3
      subst h3
      intro u hu
      rw [inForce_snoc]
      have h4 := ih' hc u hu
      have h5 := hq ls t (List.prefix_refl _) s1 h1 c hc
      have h6 : t ≠ u := fun e => absurd (e ▸ h5) (not_le.2 hu)
      simp [h6]
      exact h4
    | unprotect t =>
      simp only [step] at h3
      obtain ⟨cs, e1, e2, -⟩ := (C16_unprotect ls s1 h1 t).2 s2 h3
      rw [e1] at hc
      simp only [List.flatten_append, List.flatten_cons, List.flatten_nil, List.append_nil, List.mem_append] at hc
      rcases hc with hc | hc
      · intro u hu
        rw [inForce_snoc]
        have := ih' hc u hu
        simp only [reduceCtorEq, if_false]
        split <;> omega
      · exact ((e2 c).1 hc).2
    | run k =>
      have hsame : ∀ u, Unprotected (ls ++ [Label.run k]) u ↔ Unprotected ls u := by
        intro u; unfold Unprotected
        simp only [inForce_snoc, reduceCtorEq, if_false, Int.add_zero, Int.sub_zero]
      rw [hsame]
      simp only [step, runCallback] at h3
      split at h3
      · rename_i d ds hk
        simp only [Option.some.injEq] at h3
        subst h3
        exact ih' ((flatten_set s1.threads k d ds hk).mem_iff.2 (List.mem_cons_of_mem _ hc))
      · simp at h3

/-- The condition of the preceding theorem is necessary: since the callbacks are run without the lock, a protection may come into force
between the time when a callback is found to be unprotected and the time when it runs. -/
theorem C16_race_counterexample : ∃ (ls : List (Label Int)) (s s' : State Int) (c : Int × Nat),
    run step init ls = some s ∧ step s (.run 0) = some s' ∧ s'.ran = s.ran ++ [c] ∧ ¬ Unprotected ls c.1 := by
  refine ⟨[.runWhenUnprotected 10, .protect 5], _, _, (10, 0), rfl, rfl, rfl, ?_⟩
  intro h
  have := h 5 (by decide)
  revert this
  decide

/-- The hypotheses are satisfiable: two callbacks are delayed by nested protections, one is run immediately. -/
example : ∃ (ls : List (Label Int)) (s : State Int), run step init ls = some s ∧
    ls = [.protect 3, .protect 5, .runWhenUnprotected 9, .runWhenUnprotected 4, .runWhenUnprotected 2, .run 2, .unprotect 3, .run 3,
          .unprotect 5, .run 4] ∧ s.ran = [(2, 2), (4, 1), (9, 0)] := ⟨_, _, rfl, rfl, rfl⟩

/-- The hypothesis of `C16_never_run_protected_partial` is satisfiable with a callback that was delayed and is about to be run. -/
example : ∃ (ls : List (Label Int)) (s : State Int) (c : Int × Nat), run step init ls = some s ∧ c ∈ s.threads.flatten ∧
    ∀ ls' t, ls' ++ [.protect t] <+: ls → ∀ s', run step init ls' = some s' → ∀ c ∈ s'.threads.flatten, c.1 ≤ t := by
  refine ⟨[.protect 3, .runWhenUnprotected 9, .unprotect 3], _, (9, 0), rfl, by decide, ?_⟩
  intro ls' t hp s' hs'
  have : ls' = [] := by
    obtain ⟨r, hr⟩ := hp
    match ls', hr with
    | [], _ => rfl
    | [_], hr => simp at hr
    | [_, _], hr => simp at hr
    | _ :: _ :: _ :: _, hr => simp at hr
  subst this
  simp only [run, Option.some.injEq] at hs'
  subst hs'
  simp [init]

end Principia.Protector
