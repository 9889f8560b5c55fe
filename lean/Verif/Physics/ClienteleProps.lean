import Verif.Physics.ClienteleModel
import Mathlib.Data.List.Induction

/-!
# C17: clientele and monostable
-/

set_option linter.unusedSimpArgs false
set_option linter.unusedVariables false
set_option linter.unusedSectionVars false

namespace Principia.Clientele

open Principia.SortedMultiset

variable {K : Type} [LinearOrder K]

/-! ## Specification -/

/-- The number of clients with the given key after a sequence of calls: those that joined less those that left. -/
def present (ops : List (Op K)) (k : K) : Int := (ops.count (.join k) : Int) - ops.count (.leave k)

/-- No client leaves that did not join before. -/
def Balanced (ops : List (Op K)) : Prop := ∀ l, l <+: ops → ∀ k, 0 ≤ present l k

/-! ## Theorems -/

theorem present_append (l l' : List (Op K)) (k : K) : present (l ++ l') k = present l k + present l' k := by
  unfold present
  rw [List.count_append, List.count_append]
  omega

theorem run_spec (d : K) (ops : List (Op K)) :
    (Balanced ops → ∃ s, ops.foldlM step (init d) = some s) ∧
    ∀ s, ops.foldlM step (init d) = some s →
      Balanced ops ∧ s.defaultKey = d ∧ s.clients.Pairwise (· ≤ ·) ∧ ∀ k, (s.clients.count k : Int) = present ops k := by
  induction ops using List.reverseRecOn with
  | nil =>
    refine ⟨fun _ => ⟨_, rfl⟩, ?_⟩
    intro s hs
    simp only [List.foldlM_nil, Option.pure_def, Option.some.injEq] at hs
    subst hs
    refine ⟨?_, rfl, List.Pairwise.nil, by simp [init, present]⟩
    intro l hl k
    rw [List.prefix_nil] at hl
    simp [hl, present]
  | append_singleton ops op ih =>
    have hbal : Balanced (ops ++ [op]) ↔ Balanced ops ∧ ∀ k, 0 ≤ present (ops ++ [op]) k := by
      constructor
      · intro h
        exact ⟨fun l hl => h l (hl.trans (List.prefix_append _ _)), h _ (List.prefix_refl _)⟩
      · rintro ⟨h1, h2⟩ l hl
        rcases List.prefix_concat_iff.1 (by simpa using hl) with rfl | hl
        · simpa using h2
        · exact h1 l hl
    have key : ∀ s1 : State K, ops.foldlM step (init d) = some s1 →
        ((∀ k, 0 ≤ present (ops ++ [op]) k) → ∃ s, step s1 op = some s) ∧
        ∀ s, step s1 op = some s → (∀ k, (s.clients.count k : Int) = present (ops ++ [op]) k) ∧ s.defaultKey = d ∧
          s.clients.Pairwise (· ≤ ·) := by
      intro s1 h1
      obtain ⟨_, hd, hsort, hcount⟩ := ih.2 s1 h1
      cases op with
      | join key =>
        refine ⟨fun _ => ⟨_, rfl⟩, ?_⟩
        intro s hs
        simp only [step, Option.some.injEq] at hs
        subst hs
        refine ⟨?_, hd, sorted_insert hsort key⟩
        intro k
        show (((insert s1.clients key).count k : Nat) : Int) = _
        rw [count_insert, present_append]
        have := hcount k
        by_cases hk : key = k
        · subst hk; simp [present] at this ⊢; omega
        · simp [present, hk, List.count_cons] at this ⊢; omega
      | leave key =>
        have hpk : ∀ k, present (ops ++ [.leave key]) k = (s1.clients.count k : Int) - if key = k then 1 else 0 := by
          intro k
          rw [present_append, ← hcount k]
          by_cases hk : key = k
          · subst hk; simp [present]; omega
          · simp [present, hk, List.count_cons]
        constructor
        · intro hpos
          have := hpos key
          rw [hpk] at this
          simp only [if_true] at this
          obtain ⟨l', hl'⟩ := erase_isSome_iff.2 (show 0 < s1.clients.count key by omega)
          exact ⟨{ s1 with clients := l' }, by simp [step, leave, hl']⟩
        · intro s hs
          simp only [step, leave, Option.bind_eq_bind, Option.bind_eq_some_iff, Option.some.injEq] at hs
          obtain ⟨l', hl', rfl⟩ := hs
          refine ⟨?_, hd, sorted_erase hsort hl'⟩
          intro k
          rw [hpk]
          have := count_erase hl' k
          by_cases hk : key = k
          · simp only [hk, if_true] at this ⊢; omega
          · simp only [hk, if_false] at this ⊢; omega
    constructor
    · intro hb
      obtain ⟨h1, h2⟩ := hbal.1 hb
      obtain ⟨s1, hs1⟩ := ih.1 h1
      obtain ⟨s, hs⟩ := (key s1 hs1).1 h2
      exact ⟨s, by simp [List.foldlM_append, hs1, hs]⟩
    · intro s hs
      simp only [List.foldlM_append, List.foldlM_cons, List.foldlM_nil, Option.bind_eq_bind, Option.bind_eq_some_iff,
        Option.pure_def, Option.some.injEq] at hs
      obtain ⟨s1, h1, s2, h2, rfl⟩ := hs
      obtain ⟨hc, hd, hp⟩ := (key s1 h1).2 s2 h2
      refine ⟨hbal.2 ⟨(ih.2 s1 h1).1, fun k => ?_⟩, hd, hp, hc⟩
      rw [← hc k]; omega

/-- After any sequence of calls, `first` is the smallest key of the clients present, or the default key if there is none. -/
theorem C17_first (d : K) (ops : List (Op K)) (s : State K) (h : ops.foldlM step (init d) = some s) :
    ((∀ k, present ops k = 0) ∧ first s = d) ∨
    (0 < present ops (first s) ∧ ∀ k, 0 < present ops k → first s ≤ k) := by
  obtain ⟨_, hd, hsort, hcount⟩ := (run_spec d ops).2 s h
  unfold first
  cases hc : s.clients with
  | nil =>
    left
    refine ⟨fun k => ?_, hd⟩
    rw [← hcount k, hc]; simp
  | cons x l =>
    right
    have hx : s.clients.head? = some x := by rw [hc]; rfl
    obtain ⟨h1, h2⟩ := head_le hsort hx
    simp only
    constructor
    · rw [← hcount x]
      have := List.count_pos_iff.2 h1
      omega
    · intro k hk
      rw [← hcount k] at hk
      exact h2 k (List.count_pos_iff.1 (by omega))

/-- The check fails if and only if a client leaves that is not present. -/
theorem C17_check (d : K) (ops : List (Op K)) : (∃ s, ops.foldlM step (init d) = some s) ↔ Balanced ops :=
  ⟨fun ⟨s, hs⟩ => ((run_spec d ops).2 s hs).1, (run_spec d ops).1⟩

theorem prefix_append_iff {α : Type} {p l l' : List α} : p <+: l ++ l' ↔ p <+: l ∨ ∃ r, p = l ++ r ∧ r <+: l' := by
  constructor
  · rintro ⟨t, ht⟩
    rcases List.append_eq_append_iff.1 ht with ⟨a, h1, h2⟩ | ⟨a, h1, h2⟩
    · exact Or.inl ⟨a, h1.symm⟩
    · exact Or.inr ⟨a, h1, ⟨t, h2.symm⟩⟩
  · rintro (h | ⟨r, rfl, hr⟩)
    · exact h.trans (List.prefix_append _ _)
    · exact (List.prefix_append_right_inj l).2 hr

theorem present_balanced_append {l l' : List (Op K)} (h : Balanced l) (h' : Balanced l') : Balanced (l ++ l') := by
  intro p hp k
  rcases prefix_append_iff.1 hp with hp | ⟨r, rfl, hr⟩
  · exact h p hp k
  · rw [present_append]
    have := h l (List.prefix_refl _) k
    have := h' r hr k
    omega

/-- Sequences of calls made through `Client` objects, with properly nested lifetimes. -/
inductive Raii : List (Op K) → Prop
  | nil : Raii []
  | client (key : K) {ops : List (Op K)} : Raii ops → Raii (withClient key ops)
  | append {ops ops' : List (Op K)} : Raii ops → Raii ops' → Raii (ops ++ ops')

theorem raii_present {ops : List (Op K)} (h : Raii ops) : Balanced ops ∧ ∀ k, present ops k = 0 := by
  induction h with
  | nil =>
    refine ⟨?_, by simp [present]⟩
    intro l hl k
    rw [List.prefix_nil] at hl
    simp [hl, present]
  | client key h ih =>
    rename_i ops
    obtain ⟨h1, h2⟩ := ih
    have hj : ∀ k, present [Op.join key] k = if key = k then 1 else 0 := by
      intro k
      by_cases hk : key = k
      · subst hk; simp [present]
      · simp [present, hk, List.count_cons]
    have hl : ∀ k, present [Op.leave key] k = - if key = k then 1 else 0 := by
      intro k
      by_cases hk : key = k
      · subst hk; simp [present]
      · simp [present, hk, List.count_cons]
    have hw : withClient key ops = [.join key] ++ ops ++ [.leave key] := rfl
    have h0 : ∀ k, present (withClient key ops) k = 0 := by
      intro k
      rw [hw, present_append, present_append, hj, hl, h2 k]; omega
    refine ⟨?_, h0⟩
    intro p hp k
    rw [hw] at hp
    rcases List.prefix_concat_iff.1 hp with rfl | hp
    · have := h0 k
      rw [hw] at this
      exact this.ge
    · rcases prefix_append_iff.1 (show p <+: [Op.join key] ++ ops from by simpa using hp) with hp | ⟨r, rfl, hr⟩
      · rcases List.prefix_concat_iff.1 (show p <+: [] ++ [Op.join key] from hp) with rfl | hp
        · rw [List.nil_append, hj]; split <;> omega
        · rw [List.prefix_nil] at hp; simp [hp, present]
      · rw [present_append, hj]
        have := h1 r hr k
        split <;> omega
  | append h h' ih ih' =>
    refine ⟨present_balanced_append ih.1 ih'.1, fun k => ?_⟩
    rw [present_append, ih.2 k, ih'.2 k]; omega

/-- `Client` objects never fail the check, and once they are all destroyed `first` is the default key. -/
theorem C17_raii (d : K) (ops : List (Op K)) (h : Raii ops) : ∃ s, ops.foldlM step (init d) = some s ∧ first s = d := by
  obtain ⟨hb, h0⟩ := raii_present h
  obtain ⟨s, hs⟩ := (C17_check d ops).2 hb
  refine ⟨s, hs, ?_⟩
  rcases C17_first d ops s hs with ⟨_, h1⟩ | ⟨h1, _⟩
  · exact h1
  · rw [h0] at h1; omega

example : ∃ s, [Op.join 5, .join 3, .join 3, .leave 3, .join 4].foldlM step (init (100 : Nat)) = some s ∧ first s = 3 := ⟨_, rfl, rfl⟩

example : Raii (withClient 3 (withClient 5 []) ++ withClient (2 : Nat) []) := .append (.client _ (.client _ .nil)) (.client _ .nil)

end Principia.Clientele

namespace Principia.Monostable

/-- A monostable is true until the first call to `Flop` and false from then on. -/
theorem C17_monostable (n : Nat) : toBool (flop^[n] init) = decide (n = 0) := by
  cases n with
  | zero => rfl
  | succ n => rw [Function.iterate_succ_apply']; simp [flop, toBool]

end Principia.Monostable
