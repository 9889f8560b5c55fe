import Mathlib.Order.Basic
import Mathlib.Order.Lattice
import Mathlib.Data.List.Sort
import Mathlib.Tactic.ByContra

/-!
# Ordered containers

`std::map`, `absl::btree_map`, etc. are modelled by the list of their elements in the order of iteration.  An iterator is an index in that
list, the past-the-end iterator is the length of the list.
-/

set_option linter.unusedSimpArgs false
set_option linter.unusedVariables false
set_option linter.unusedSectionVars false

namespace Principia.SortedMap

variable {K V : Type} [LinearOrder K]

/-- The elements are in strictly increasing order of the keys. -/
def Sorted (l : List (K × V)) : Prop := l.Pairwise fun a b => a.1 < b.1

/-- The iterator to the first element whose key is not less than `t`. -/
def lowerBound (l : List (K × V)) (t : K) : Nat := (l.takeWhile fun a => a.1 < t).length

/-- The iterator to the first element whose key is greater than `t`. -/
def upperBound (l : List (K × V)) (t : K) : Nat := (l.takeWhile fun a => a.1 ≤ t).length

/-- The element with the given key. -/
def find (l : List (K × V)) (t : K) : Option (K × V) := l.find? fun a => a.1 = t

/-- Whether there is an element with the given key. -/
def contains (l : List (K × V)) (t : K) : Bool := l.any fun a => a.1 = t

/-- `emplace`, `insert`: no effect if the key is present. -/
def emplace (l : List (K × V)) (t : K) (v : V) : List (K × V) :=
  if contains l t then l
  else (l.takeWhile fun a => a.1 < t) ++ (t, v) :: l.dropWhile fun a => a.1 < t

/-- `insert_or_assign`. -/
def insertOrAssign (l : List (K × V)) (t : K) (v : V) : List (K × V) :=
  (l.takeWhile fun a => a.1 < t) ++ (t, v) :: l.dropWhile fun a => a.1 ≤ t

/-- `erase` by key. -/
def eraseKey (l : List (K × V)) (t : K) : List (K × V) := l.filter fun a => a.1 ≠ t

/-- `merge`: the elements of `l'` whose keys are not in `l` are moved to `l`. -/
def mergeInto (l l' : List (K × V)) : List (K × V) := l'.foldl (fun l a => emplace l a.1 a.2) l

theorem takeWhile_eq_filter {l : List (K × V)} (h : Sorted l) (p : K → Bool) (hp : ∀ a b, a < b → p b = true → p a = true) :
    l.takeWhile (fun a => p a.1) = l.filter (fun a => p a.1) := by
  induction l with
  | nil => rfl
  | cons x l ih =>
    have hc := List.pairwise_cons.1 h
    cases hx : p x.1 with
    | true => rw [List.takeWhile_cons_of_pos (by simpa using hx), List.filter_cons_of_pos (by simpa using hx), ih hc.2]
    | false =>
      rw [List.takeWhile_cons_of_neg (by simp [hx]), List.filter_cons_of_neg (by simp [hx])]
      symm
      rw [List.filter_eq_nil_iff]
      intro a ha hpa
      have := hp x.1 a.1 (hc.1 a ha) hpa
      rw [hx] at this; simp at this

theorem dropWhile_eq_filter {l : List (K × V)} (h : Sorted l) (p : K → Bool) (hp : ∀ a b, a < b → p b = true → p a = true) :
    l.dropWhile (fun a => p a.1) = l.filter (fun a => !p a.1) := by
  induction l with
  | nil => rfl
  | cons x l ih =>
    have hc := List.pairwise_cons.1 h
    cases hx : p x.1 with
    | true => rw [List.dropWhile_cons_of_pos (by simpa using hx), List.filter_cons_of_neg (by simp [hx]), ih hc.2]
    | false =>
      rw [List.dropWhile_cons_of_neg (by simp [hx]), List.filter_cons_of_pos (by simp [hx])]
      congr 1
      symm
      rw [List.filter_eq_self]
      intro a ha
      cases hpa : p a.1 with
      | false => rfl
      | true =>
        have := hp x.1 a.1 (hc.1 a ha) hpa
        rw [hx] at this; simp at this

theorem take_takeWhile {α : Type} (p : α → Bool) (l : List α) : l.take (l.takeWhile p).length = l.takeWhile p := by
  induction l with
  | nil => rfl
  | cons x l ih =>
    cases hx : p x with
    | true => simp [List.takeWhile_cons_of_pos hx, ih]
    | false => simp [hx]

theorem drop_takeWhile {α : Type} (p : α → Bool) (l : List α) : l.drop (l.takeWhile p).length = l.dropWhile p := by
  induction l with
  | nil => rfl
  | cons x l ih =>
    cases hx : p x with
    | true => simp [List.takeWhile_cons_of_pos hx, List.dropWhile_cons_of_pos hx, ih]
    | false => simp [hx]

theorem lt_down (t : K) : ∀ a b : K, a < b → decide (b < t) = true → decide (a < t) = true := by
  intro a b hab h
  simp only [decide_eq_true_eq] at h ⊢
  exact hab.trans h

theorem le_down (t : K) : ∀ a b : K, a < b → decide (b ≤ t) = true → decide (a ≤ t) = true := by
  intro a b hab h
  simp only [decide_eq_true_eq] at h ⊢
  exact hab.le.trans h

theorem take_lowerBound {l : List (K × V)} (h : Sorted l) (t : K) :
    l.take (lowerBound l t) = l.filter fun a => a.1 < t := by
  rw [← takeWhile_eq_filter h (fun k => decide (k < t)) (lt_down t)]
  unfold lowerBound
  exact take_takeWhile _ l

theorem drop_lowerBound {l : List (K × V)} (h : Sorted l) (t : K) :
    l.drop (lowerBound l t) = l.filter fun a => t ≤ a.1 := by
  have h1 := dropWhile_eq_filter h (fun k => decide (k < t)) (lt_down t)
  have h2 : (l.filter fun a => !decide (a.1 < t)) = l.filter fun a => t ≤ a.1 := by
    apply List.filter_congr
    intro a _
    rw [← decide_not]
    simp
  rw [← h2, ← h1]
  unfold lowerBound
  exact drop_takeWhile _ l

theorem take_upperBound {l : List (K × V)} (h : Sorted l) (t : K) :
    l.take (upperBound l t) = l.filter fun a => a.1 ≤ t := by
  rw [← takeWhile_eq_filter h (fun k => decide (k ≤ t)) (le_down t)]
  unfold upperBound
  exact take_takeWhile _ l

theorem drop_upperBound {l : List (K × V)} (h : Sorted l) (t : K) :
    l.drop (upperBound l t) = l.filter fun a => t < a.1 := by
  have h1 := dropWhile_eq_filter h (fun k => decide (k ≤ t)) (le_down t)
  have h2 : (l.filter fun a => !decide (a.1 ≤ t)) = l.filter fun a => t < a.1 := by
    apply List.filter_congr
    intro a _
    rw [← decide_not]
    simp
  rw [← h2, ← h1]
  unfold upperBound
  exact drop_takeWhile _ l

theorem lowerBound_le (l : List (K × V)) (t : K) : lowerBound l t ≤ l.length :=
  (List.takeWhile_sublist _).length_le

theorem upperBound_le (l : List (K × V)) (t : K) : upperBound l t ≤ l.length :=
  (List.takeWhile_sublist _).length_le

theorem lowerBound_le_upperBound {l : List (K × V)} (h : Sorted l) {t t' : K} (ht : t ≤ t') :
    lowerBound l t ≤ upperBound l t' := by
  have h1 := congrArg List.length (take_lowerBound h t)
  have h2 := congrArg List.length (take_upperBound h t')
  rw [List.length_take, Nat.min_eq_left (lowerBound_le _ _)] at h1
  rw [List.length_take, Nat.min_eq_left (upperBound_le _ _)] at h2
  rw [h1, h2]
  rw [← List.countP_eq_length_filter, ← List.countP_eq_length_filter]
  apply List.countP_mono_left
  intro a _ ha
  simp only [decide_eq_true_eq] at ha ⊢
  exact ha.le.trans ht

/-- The element at the lower bound is the first one with a key not less than `t`. -/
theorem getElem?_lowerBound {l : List (K × V)} (h : Sorted l) (t : K) :
    l[lowerBound l t]? = (l.filter fun a => t ≤ a.1).head? := by
  rw [← drop_lowerBound h t, List.head?_drop]

theorem getElem?_upperBound {l : List (K × V)} (h : Sorted l) (t : K) :
    l[upperBound l t]? = (l.filter fun a => t < a.1).head? := by
  rw [← drop_upperBound h t, List.head?_drop]

/-- The element before the upper bound is the last one with a key not greater than `t`. -/
theorem getElem?_upperBound_pred {l : List (K × V)} (h : Sorted l) (t : K) (hb : upperBound l t ≠ 0) :
    l[upperBound l t - 1]? = (l.filter fun a => a.1 ≤ t).getLast? := by
  rw [← take_upperBound h t, List.getLast?_eq_getElem?, List.length_take, Nat.min_eq_left (upperBound_le _ _),
    List.getElem?_take, if_pos (by omega)]

theorem contains_iff {l : List (K × V)} {t : K} : contains l t = true ↔ ∃ a ∈ l, a.1 = t := by
  simp [contains, List.any_eq_true]

theorem not_contains_iff {l : List (K × V)} {t : K} : contains l t = false ↔ ∀ a ∈ l, a.1 ≠ t := by
  rw [← Bool.not_eq_true, contains_iff]
  constructor
  · intro h a ha e; exact h ⟨a, ha, e⟩
  · rintro h ⟨a, ha, e⟩; exact h a ha e

theorem emplace_perm {l : List (K × V)} {t : K} {v : V} (hc : contains l t = false) :
    (emplace l t v).Perm ((t, v) :: l) := by
  unfold emplace
  rw [hc]
  simp only [Bool.false_eq_true, if_false]
  refine List.perm_middle.trans ?_
  rw [List.takeWhile_append_dropWhile]

theorem sorted_emplace {l : List (K × V)} (h : Sorted l) (t : K) (v : V) : Sorted (emplace l t v) := by
  unfold emplace
  split
  · exact h
  · rename_i hc
    have hc' : contains l t = false := by simpa using hc
    have hne := not_contains_iff.1 hc'
    rw [takeWhile_eq_filter h (fun k => decide (k < t)) (lt_down t), dropWhile_eq_filter h (fun k => decide (k < t)) (lt_down t)]
    unfold Sorted
    rw [List.pairwise_append]
    refine ⟨h.filter _, ?_, ?_⟩
    · rw [List.pairwise_cons]
      refine ⟨?_, h.filter _⟩
      intro a ha
      have := List.mem_filter.1 ha
      have h2 : ¬ a.1 < t := by simpa using this.2
      exact lt_of_le_of_ne (not_lt.1 h2) (hne a this.1).symm
    · intro a ha b hb
      have h1 : a.1 < t := by simpa using (List.mem_filter.1 ha).2
      rcases List.mem_cons.1 hb with rfl | hb
      · exact h1
      · have h2 : ¬ b.1 < t := by simpa using (List.mem_filter.1 hb).2
        exact h1.trans_le (not_lt.1 h2)

/-- Two sorted lists with the same elements are equal. -/
theorem eq_of_perm {l l' : List (K × V)} (h : Sorted l) (h' : Sorted l') (hp : l.Perm l') : l = l' := by
  refine hp.eq_of_pairwise ?_ h h'
  intro a b _ _ h1 h2
  exact absurd (h1.trans h2) (lt_irrefl _)

theorem emplace_last {l : List (K × V)} (h : Sorted l) {t : K} {v : V} (ht : ∀ a ∈ l, a.1 < t) :
    emplace l t v = l ++ [(t, v)] := by
  have hc : contains l t = false := not_contains_iff.2 fun a ha => (ht a ha).ne
  unfold emplace
  rw [hc]
  simp only [Bool.false_eq_true, if_false]
  have h1 : (l.takeWhile fun a => decide (a.1 < t)) = l := by
    rw [takeWhile_eq_filter h (fun k => decide (k < t)) (lt_down t), List.filter_eq_self]; simpa using ht
  have h2 : (l.dropWhile fun a => decide (a.1 < t)) = [] := by
    rw [dropWhile_eq_filter h (fun k => decide (k < t)) (lt_down t), List.filter_eq_nil_iff]; simpa using ht
  rw [h1, h2]

theorem sorted_nil : Sorted ([] : List (K × V)) := List.Pairwise.nil

theorem eq_of_key {l : List (K × V)} (h : Sorted l) {a b : K × V} (ha : a ∈ l) (hb : b ∈ l) (hab : a.1 = b.1) : a = b := by
  induction l with
  | nil => simp at ha
  | cons x l ih =>
    have hc := List.pairwise_cons.1 h
    rcases List.mem_cons.1 ha with ha' | ha' <;> rcases List.mem_cons.1 hb with hb' | hb'
    · rw [ha', hb']
    · rw [ha'] at hab; exact absurd hab (hc.1 b hb').ne
    · rw [hb'] at hab; exact absurd hab (hc.1 a ha').ne'
    · exact ih hc.2 ha' hb'

theorem find_eq_some_iff {l : List (K × V)} (h : Sorted l) {t : K} {a : K × V} : find l t = some a ↔ a ∈ l ∧ a.1 = t := by
  constructor
  · intro hf
    exact ⟨List.mem_of_find?_eq_some hf, by simpa using List.find?_some hf⟩
  · rintro ⟨ha, rfl⟩
    cases hf : find l a.1 with
    | none =>
      have := List.find?_eq_none.1 hf a ha
      simp at this
    | some b =>
      have h1 := List.mem_of_find?_eq_some hf
      have h2 : b.1 = a.1 := by simpa using List.find?_some hf
      rw [eq_of_key h h1 ha h2]

theorem mem_insertOrAssign {l : List (K × V)} (h : Sorted l) {t : K} {v : V} {a : K × V} :
    a ∈ insertOrAssign l t v ↔ a = (t, v) ∨ (a ∈ l ∧ a.1 ≠ t) := by
  unfold insertOrAssign
  rw [takeWhile_eq_filter h (fun k => decide (k < t)) (lt_down t), dropWhile_eq_filter h (fun k => decide (k ≤ t)) (le_down t)]
  simp only [List.mem_append, List.mem_cons, List.mem_filter, decide_eq_true_eq, Bool.not_eq_true', decide_eq_false_iff_not, not_le]
  constructor
  · rintro (⟨h1, h2⟩ | h1 | ⟨h1, h2⟩)
    · exact Or.inr ⟨h1, h2.ne⟩
    · exact Or.inl h1
    · exact Or.inr ⟨h1, h2.ne'⟩
  · rintro (h1 | ⟨h1, h2⟩)
    · exact Or.inr (Or.inl h1)
    · rcases lt_or_gt_of_ne h2 with h3 | h3
      · exact Or.inl ⟨h1, h3⟩
      · exact Or.inr (Or.inr ⟨h1, h3⟩)

theorem sorted_insertOrAssign {l : List (K × V)} (h : Sorted l) (t : K) (v : V) : Sorted (insertOrAssign l t v) := by
  unfold insertOrAssign
  rw [takeWhile_eq_filter h (fun k => decide (k < t)) (lt_down t), dropWhile_eq_filter h (fun k => decide (k ≤ t)) (le_down t)]
  unfold Sorted
  rw [List.pairwise_append, List.pairwise_cons]
  simp only [List.mem_cons, List.mem_filter, decide_eq_true_eq, Bool.not_eq_true', decide_eq_false_iff_not, not_le]
  refine ⟨h.filter _, ⟨fun a ha => ha.2, h.filter _⟩, ?_⟩
  rintro a ⟨_, ha⟩ b (rfl | ⟨_, hb⟩)
  · exact ha
  · exact ha.trans hb

/-- Two maps with the same elements are equal. -/
theorem ext_mem {l l' : List (K × V)} (h : Sorted l) (h' : Sorted l') (he : ∀ a, a ∈ l ↔ a ∈ l') : l = l' := by
  apply eq_of_perm h h'
  have hn : ∀ {l : List (K × V)}, Sorted l → l.Nodup := by
    intro l h
    exact h.imp fun {a b} hab e => absurd (congrArg Prod.fst e) hab.ne
  exact (List.perm_ext_iff_of_nodup (hn h) (hn h')).2 he

theorem mem_emplace {l : List (K × V)} {t : K} {v : V} {a : K × V} :
    a ∈ emplace l t v ↔ a ∈ l ∨ (a = (t, v) ∧ ∀ b ∈ l, b.1 ≠ t) := by
  cases hc : contains l t with
  | true =>
    have : emplace l t v = l := by unfold emplace; rw [hc]; rfl
    rw [this]
    obtain ⟨b, hb, e⟩ := contains_iff.1 hc
    constructor
    · exact Or.inl
    · rintro (h | ⟨_, h⟩)
      · exact h
      · exact absurd e (h b hb)
  | false =>
    rw [(emplace_perm hc).mem_iff, List.mem_cons]
    have := not_contains_iff.1 hc
    constructor
    · rintro (h | h)
      · exact Or.inr ⟨h, this⟩
      · exact Or.inl h
    · rintro (h | ⟨h, _⟩)
      · exact Or.inr h
      · exact Or.inl h

theorem sorted_mergeInto {l : List (K × V)} (h : Sorted l) (l' : List (K × V)) : Sorted (mergeInto l l') := by
  unfold mergeInto
  induction l' generalizing l with
  | nil => exact h
  | cons a l' ih => exact ih (sorted_emplace h _ _)

theorem mem_mergeInto {l l' : List (K × V)} (h' : Sorted l') {a : K × V} :
    a ∈ mergeInto l l' ↔ a ∈ l ∨ (a ∈ l' ∧ ∀ b ∈ l, b.1 ≠ a.1) := by
  unfold mergeInto
  induction l' generalizing l with
  | nil => simp
  | cons x l' ih =>
    have hc := List.pairwise_cons.1 h'
    simp only [List.foldl_cons]
    rw [ih hc.2, mem_emplace]
    simp only [mem_emplace, List.mem_cons]
    constructor
    · rintro ((h | ⟨h, h1⟩) | ⟨h, h1⟩)
      · exact Or.inl h
      · refine Or.inr ⟨Or.inl h, ?_⟩
        rw [h]; exact h1
      · exact Or.inr ⟨Or.inr h, fun b hb => h1 b (Or.inl hb)⟩
    · rintro (h | ⟨h | h, h1⟩)
      · exact Or.inl (Or.inl h)
      · refine Or.inl (Or.inr ⟨h, ?_⟩)
        rw [h] at h1; exact h1
      · refine Or.inr ⟨h, ?_⟩
        rintro b (hb | ⟨rfl, hb⟩)
        · exact h1 b hb
        · exact (hc.1 a h).ne

theorem mem_eraseKey {l : List (K × V)} {t : K} {a : K × V} : a ∈ eraseKey l t ↔ a ∈ l ∧ a.1 ≠ t := by
  simp [eraseKey]

theorem sorted_eraseKey {l : List (K × V)} (h : Sorted l) (t : K) : Sorted (eraseKey l t) := h.filter _

theorem mem_take_upperBound {l : List (K × V)} (h : Sorted l) {t : K} {a : K × V} : a ∈ l.take (upperBound l t) ↔ a ∈ l ∧ a.1 ≤ t := by
  rw [take_upperBound h]; simp

theorem mem_drop_upperBound {l : List (K × V)} (h : Sorted l) {t : K} {a : K × V} : a ∈ l.drop (upperBound l t) ↔ a ∈ l ∧ t < a.1 := by
  rw [drop_upperBound h]; simp

theorem mem_take_lowerBound {l : List (K × V)} (h : Sorted l) {t : K} {a : K × V} : a ∈ l.take (lowerBound l t) ↔ a ∈ l ∧ a.1 < t := by
  rw [take_lowerBound h]; simp

theorem mem_drop_lowerBound {l : List (K × V)} (h : Sorted l) {t : K} {a : K × V} : a ∈ l.drop (lowerBound l t) ↔ a ∈ l ∧ t ≤ a.1 := by
  rw [drop_lowerBound h]; simp

/-- The iterator before the upper bound, if any. -/
theorem upperBound_pred {l : List (K × V)} (h : Sorted l) {t : K} (hb : upperBound l t ≠ 0) :
    ∃ a, l[upperBound l t - 1]? = some a ∧ a ∈ l ∧ a.1 ≤ t ∧ (∀ b ∈ l, b.1 ≤ t → b.1 ≤ a.1) ∧
      upperBound l t - 1 = lowerBound l a.1 := by
  have hle := upperBound_le l t
  have hlt : upperBound l t - 1 < l.length := by omega
  refine ⟨l[upperBound l t - 1], List.getElem?_eq_getElem hlt, List.getElem_mem hlt, ?_, ?_, ?_⟩
  · have hm : l[upperBound l t - 1] ∈ l.take (upperBound l t) := by
      rw [List.mem_take_iff_getElem]
      exact ⟨upperBound l t - 1, by omega, rfl⟩
    exact ((mem_take_upperBound h).1 hm).2
  · intro b hb1 hb2
    have hm := (mem_take_upperBound h).2 ⟨hb1, hb2⟩
    rw [List.mem_take_iff_getElem] at hm
    obtain ⟨i, hi, rfl⟩ := hm
    rcases Nat.lt_or_ge i (upperBound l t - 1) with h1 | h1
    · exact (List.pairwise_iff_getElem.1 h i (upperBound l t - 1) (by omega) hlt h1).le
    · have : i = upperBound l t - 1 := by omega
      simp only [this, le_refl]
  · have e := congrArg List.length (take_lowerBound h (l[upperBound l t - 1]).1)
    rw [List.length_take, Nat.min_eq_left (lowerBound_le _ _)] at e
    rw [e]
    have h1 : l.filter (fun a => decide (a.1 < (l[upperBound l t - 1]).1)) = l.take (upperBound l t - 1) := by
      have hs1 : Sorted (l.filter fun a => decide (a.1 < (l[upperBound l t - 1]).1)) := h.filter _
      have hs2 : Sorted (l.take (upperBound l t - 1)) := h.sublist (List.take_sublist _ _)
      apply ext_mem hs1 hs2
      intro a
      simp only [List.mem_filter, decide_eq_true_eq, List.mem_take_iff_getElem]
      constructor
      · rintro ⟨ha, hlt1⟩
        obtain ⟨i, hi, rfl⟩ := List.mem_iff_getElem.1 ha
        refine ⟨i, ?_, rfl⟩
        rcases Nat.lt_or_ge i (upperBound l t - 1) with h1 | h1
        · omega
        · rcases Nat.eq_or_lt_of_le h1 with h1 | h1
          · simp only [h1, lt_irrefl] at hlt1
          · exact absurd hlt1 (not_lt.2 (List.pairwise_iff_getElem.1 h _ i hlt hi h1).le)
      · rintro ⟨i, hi, rfl⟩
        exact ⟨List.getElem_mem _, List.pairwise_iff_getElem.1 h i _ (by omega) hlt (by omega)⟩
    rw [h1, List.length_take]
    omega

theorem upperBound_eq_zero {l : List (K × V)} (h : Sorted l) {t : K} : upperBound l t = 0 ↔ ∀ a ∈ l, t < a.1 := by
  constructor
  · intro h0 a ha
    by_contra hc
    have := (mem_take_upperBound h).2 ⟨ha, not_lt.1 hc⟩
    rw [h0] at this
    simp at this
  · intro h1
    have e := congrArg List.length (take_upperBound h t)
    rw [List.length_take, Nat.min_eq_left (upperBound_le _ _)] at e
    rw [e, List.length_eq_zero_iff, List.filter_eq_nil_iff]
    intro a ha
    simpa using h1 a ha

end Principia.SortedMap
