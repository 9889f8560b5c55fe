import Mathlib.Order.Basic
import Mathlib.Data.List.Sort

/-!
# Ordered multisets and multimaps

`std::multiset` and `absl::btree_multiset` are modelled by the sorted list of their elements, `std::multimap` by the list of its elements
sorted by key, where the elements with the same key are in order of insertion.
-/

set_option linter.unusedSimpArgs false
set_option linter.unusedVariables false
set_option linter.unusedSectionVars false

namespace Principia.SortedMultiset

variable {K V : Type} [LinearOrder K]

/-- `multiset::insert`. -/
def insert (l : List K) (k : K) : List K := (l.takeWhile fun a => a ≤ k) ++ k :: l.dropWhile fun a => a ≤ k

/-- `multimap::emplace`. -/
def emplace (l : List (K × V)) (k : K) (v : V) : List (K × V) :=
  (l.takeWhile fun a => a.1 ≤ k) ++ (k, v) :: l.dropWhile fun a => a.1 ≤ k

/-- `find` and `erase` through an iterator: `none` if the key is not present. -/
def erase (l : List K) (k : K) : Option (List K) := if k ∈ l then some (l.erase k) else none

theorem insert_perm (l : List K) (k : K) : (insert l k).Perm (k :: l) := by
  unfold insert
  refine List.perm_middle.trans ?_
  rw [List.takeWhile_append_dropWhile]

theorem emplace_perm (l : List (K × V)) (k : K) (v : V) : (emplace l k v).Perm ((k, v) :: l) := by
  unfold emplace
  refine List.perm_middle.trans ?_
  rw [List.takeWhile_append_dropWhile]

theorem dropWhile_head {α : Type} (p : α → Bool) (l : List α) (x : α) (t : List α) (h : l.dropWhile p = x :: t) : p x = false := by
  induction l with
  | nil => simp at h
  | cons a l ih =>
    cases ha : p a with
    | true => rw [List.dropWhile_cons_of_pos ha] at h; exact ih h
    | false => rw [List.dropWhile_cons_of_neg (by simp [ha])] at h; rw [List.cons.injEq] at h; rw [← h.1]; exact ha

theorem mem_takeWhile {α : Type} (p : α → Bool) (l : List α) (x : α) (h : x ∈ l.takeWhile p) : p x = true := by
  induction l with
  | nil => simp at h
  | cons a l ih =>
    cases ha : p a with
    | true =>
      rw [List.takeWhile_cons_of_pos ha] at h
      rcases List.mem_cons.1 h with rfl | h
      · exact ha
      · exact ih h
    | false => rw [List.takeWhile_cons_of_neg (by simp [ha])] at h; simp at h

/-- Inserting after the elements that are not greater preserves any relation that is implied by `<` on the keys and that holds from the
elements with the same key to the new element. -/
theorem pairwise_insertAfter {α : Type} (key : α → K) (R : α → α → Prop) (hR : ∀ a b, key a < key b → R a b)
    (l : List α) (hs : l.Pairwise fun a b => key a ≤ key b) (h : l.Pairwise R) (x : α) (hx : ∀ a ∈ l, key a = key x → R a x) :
    ((l.takeWhile fun a => decide (key a ≤ key x)) ++ x :: l.dropWhile fun a => decide (key a ≤ key x)).Pairwise R := by
  have hsplit := List.takeWhile_append_dropWhile (p := fun a => decide (key a ≤ key x)) (l := l)
  have hs' := hs
  rw [← hsplit] at h hs'
  have hp := List.pairwise_append.1 h
  have hps := List.pairwise_append.1 hs'
  have hgt : ∀ b ∈ l.dropWhile (fun a => decide (key a ≤ key x)), key x < key b := by
    intro b hb
    cases hd : l.dropWhile (fun a => decide (key a ≤ key x)) with
    | nil => rw [hd] at hb; simp at hb
    | cons y t =>
      have hy := dropWhile_head _ _ _ _ hd
      simp only [decide_eq_false_iff_not, not_le] at hy
      rw [hd] at hb
      rcases List.mem_cons.1 hb with rfl | hb
      · exact hy
      · have h2 := hps.2.1
        rw [hd] at h2
        exact hy.trans_le ((List.pairwise_cons.1 h2).1 b hb)
  refine List.pairwise_append.2 ⟨hp.1, List.pairwise_cons.2 ⟨fun b hb => hR _ _ (hgt b hb), hp.2.1⟩, ?_⟩
  intro a ha b hb
  rcases List.mem_cons.1 hb with rfl | hb
  · have hle := mem_takeWhile _ _ _ ha
    simp only [decide_eq_true_eq] at hle
    rcases hle.lt_or_eq with hlt | heq
    · exact hR _ _ hlt
    · exact hx a (by rw [← hsplit]; exact List.mem_append_left _ ha) heq
  · exact hp.2.2 a ha b hb

theorem sorted_insert {l : List K} (h : l.Pairwise (· ≤ ·)) (k : K) : (insert l k).Pairwise (· ≤ ·) :=
  pairwise_insertAfter (fun a => a) (· ≤ ·) (fun _ _ h => h.le) l h h k (fun _ _ h => h.le)

theorem sorted_erase {l l' : List K} (h : l.Pairwise (· ≤ ·)) {k : K} (he : erase l k = some l') : l'.Pairwise (· ≤ ·) := by
  unfold erase at he
  split at he
  · simp only [Option.some.injEq] at he; rw [← he]; exact h.sublist List.erase_sublist
  · simp at he

theorem head_le {l : List K} (h : l.Pairwise (· ≤ ·)) {k : K} (hk : l.head? = some k) : k ∈ l ∧ ∀ a ∈ l, k ≤ a := by
  cases l with
  | nil => simp at hk
  | cons x l =>
    simp only [List.head?_cons, Option.some.injEq] at hk
    subst hk
    refine ⟨by simp, ?_⟩
    intro a ha
    rcases List.mem_cons.1 ha with rfl | ha
    · exact le_rfl
    · exact (List.pairwise_cons.1 h).1 a ha

theorem count_insert (l : List K) (k a : K) : (insert l k).count a = l.count a + if k = a then 1 else 0 := by
  rw [(insert_perm l k).count_eq, List.count_cons]
  simp [beq_iff_eq]

theorem count_erase {l l' : List K} {k : K} (he : erase l k = some l') (a : K) : l'.count a + (if k = a then 1 else 0) = l.count a := by
  unfold erase at he
  split at he
  · rename_i hm
    simp only [Option.some.injEq] at he
    rw [← he, (List.perm_cons_erase hm).count_eq, List.count_cons]
    simp [beq_iff_eq]
  · simp at he

theorem erase_isSome_iff {l : List K} {k : K} : (∃ l', erase l k = some l') ↔ 0 < l.count k := by
  unfold erase
  rw [List.count_pos_iff]
  by_cases h : k ∈ l <;> simp [h]

end Principia.SortedMultiset
