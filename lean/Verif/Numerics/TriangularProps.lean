import Verif.Numerics.TriangularModel
import Mathlib.Tactic.Linarith
import Mathlib.Tactic.Ring
import Mathlib.Tactic.NormNum
import Mathlib.Algebra.Order.Floor.Ring

/-!
C91: the triangular matrices.
-/

set_option linter.unusedSimpArgs false
set_option linter.unusedVariables false

namespace Principia.Numerics.Triangular

variable {α : Type}

/-- The elements that a triangular matrix of size n has. -/
def Inside : Kind → ℕ → ℕ → ℕ → Prop
  | .lower, n, row, column => row < n ∧ column < n ∧ column ≤ row
  | .upper, n, row, column => row < n ∧ column < n ∧ row ≤ column
  | .strictlyUpper, n, row, column => row < n ∧ column < n ∧ row < column

/-- The data has the expected size. -/
def Matrix.Sized (k : Kind) (m : Matrix α) : Prop := m.data.length = size k m.n

def major : Kind → ℕ → ℕ → ℕ
  | .lower, row, _ => row
  | _, _, column => column

def minor : Kind → ℕ → ℕ → ℕ
  | .lower, _, column => column
  | _, row, _ => row

def width : Kind → ℕ → ℕ
  | .strictlyUpper, n => n
  | _, n => n + 1

theorem half (n : ℕ) : (n + 1) * (n + 2) / 2 = n * (n + 1) / 2 + (n + 1) := by
  rw [show (n + 1) * (n + 2) = n * (n + 1) + (n + 1) * 2 by ring, Nat.add_mul_div_right _ _ (by norm_num)]

theorem size_succ (k : Kind) (n : ℕ) : size k (n + 1) = size k n + width k n := by
  cases k
  · exact half n
  · exact half n
  · cases n with
    | zero => rfl
    | succ n =>
      show (n + 2) * (n + 1) / 2 = (n + 1) * n / 2 + (n + 1)
      rw [mul_comm, half, mul_comm n]

theorem size_mono (k : Kind) {a b : ℕ} (h : a ≤ b) : size k a ≤ size k b := by
  induction h with
  | refl => exact le_rfl
  | step _ ih => rw [Nat.succ_eq_add_one, size_succ]; omega

theorem index_eq (k : Kind) (n row column : ℕ) (h : Inside k n row column) : index k n row column = some (size k (major k row column) + minor k row column) ∧ minor k row column < width k (major k row column) ∧ major k row column < n := by
  cases k
  · exact ⟨by rw [index, if_pos ⟨h.2.2, h.1⟩]; rfl, Nat.lt_succ_of_le h.2.2, h.1⟩
  · exact ⟨by rw [index, if_pos ⟨h.2.2, h.2.1⟩]; rfl, Nat.lt_succ_of_le h.2.2, h.2.1⟩
  · exact ⟨by rw [index, if_pos ⟨h.2.2, h.2.1⟩]; rfl, h.2.2, h.2.1⟩

theorem index_none (k : Kind) (n row column : ℕ) (h : ¬ Inside k n row column) : index k n row column = none := by
  cases k
  · rw [index, if_neg fun hh => h ⟨hh.2, by omega, hh.1⟩]
  · rw [index, if_neg fun hh => h ⟨by omega, hh.2, hh.1⟩]
  · rw [index, if_neg fun hh => h ⟨by omega, hh.2, hh.1⟩]

theorem slot_lt (k : Kind) (n a b : ℕ) (hb : b < width k a) (ha : a < n) : size k a + b < size k n := by
  have := size_mono k (show a + 1 ≤ n from ha)
  rw [size_succ] at this
  omega

theorem slot_injective (k : Kind) (a b a' b' : ℕ) (hb : b < width k a) (hb' : b' < width k a') (e : size k a + b = size k a' + b') : a = a' ∧ b = b' := by
  rcases lt_trichotomy a a' with h | h | h
  · have := slot_lt k a' a b hb h; omega
  · subst h; exact ⟨rfl, by omega⟩
  · have := slot_lt k a a' b' hb' h; omega

theorem slot_surjective (k : Kind) (n i : ℕ) (hi : i < size k n) : ∃ a b, b < width k a ∧ a < n ∧ i = size k a + b := by
  induction n with
  | zero => cases k <;> simp [size] at hi
  | succ n ih =>
    by_cases h : i < size k n
    · obtain ⟨a, b, h1, h2, h3⟩ := ih h
      exact ⟨a, b, h1, by omega, h3⟩
    · rw [size_succ] at hi
      exact ⟨n, i - size k n, by omega, by omega, by omega⟩

/-- C91.  The elements of a triangular matrix are stored without gap nor overlap in an array of the appropriate size; an access outside of the triangle fails a check. -/
theorem C91_layout (k : Kind) (n : ℕ) :
    (∀ row column, Inside k n row column ↔ ∃ i, index k n row column = some i ∧ i < size k n) ∧
    (∀ row column row' column' i, index k n row column = some i → index k n row' column' = some i → row = row' ∧ column = column') ∧
    ∀ i < size k n, ∃ row column, index k n row column = some i := by
  have inside : ∀ row column i, index k n row column = some i → Inside k n row column := by
    intro row column i h
    by_contra hh
    rw [index_none k n row column hh] at h
    exact absurd h (by simp)
  refine ⟨?_, ?_, ?_⟩
  · intro row column
    constructor
    · intro h
      obtain ⟨e, h1, h2⟩ := index_eq k n row column h
      exact ⟨_, e, slot_lt k n _ _ h1 h2⟩
    · rintro ⟨i, h, _⟩
      exact inside row column i h
  · intro row column row' column' i h h'
    obtain ⟨e, h1, h2⟩ := index_eq k n row column (inside _ _ _ h)
    obtain ⟨e', h1', h2'⟩ := index_eq k n row' column' (inside _ _ _ h')
    rw [e] at h
    rw [e', ← h] at h'
    obtain ⟨ha, hb⟩ := slot_injective k _ _ _ _ h1' h1 (Option.some.inj h')
    cases k
    · exact ⟨ha.symm, hb.symm⟩
    · exact ⟨hb.symm, ha.symm⟩
    · exact ⟨hb.symm, ha.symm⟩
  · intro i hi
    obtain ⟨a, b, h1, h2, rfl⟩ := slot_surjective k n i hi
    cases k
    · exact ⟨a, b, (index_eq .lower n a b ⟨h2, by have : b < a + 1 := h1; omega, Nat.le_of_lt_succ h1⟩).1⟩
    · exact ⟨b, a, (index_eq .upper n b a ⟨by have : b < a + 1 := h1; omega, h2, Nat.le_of_lt_succ h1⟩).1⟩
    · exact ⟨b, a, (index_eq .strictlyUpper n b a ⟨by have : b < a := h1; omega, h2, h1⟩).1⟩

/-- C91.  Every element of a matrix may be read; assigning to it changes it and no other element. -/
theorem C91_assignment (k : Kind) (m : Matrix α) (hm : m.Sized k) (row column : ℕ) (h : Inside k m.n row column) (x : α) :
    (∃ y, m.get k row column = some y) ∧
    ∃ m', m.set k row column x = some m' ∧ m'.Sized k ∧ m'.n = m.n ∧ m'.get k row column = some x ∧
      ∀ row' column', (row', column') ≠ (row, column) → m'.get k row' column' = m.get k row' column' := by
  obtain ⟨L1, L2, _⟩ := C91_layout k m.n
  obtain ⟨i, hi, hlt⟩ := (L1 row column).1 h
  have hlt' : i < m.data.length := by rw [hm]; exact hlt
  refine ⟨⟨m.data[i], by simp [Matrix.get, hi, hlt']⟩, ⟨m.n, m.data.set i x⟩, by simp [Matrix.set, hi, hlt'], by simpa [Matrix.Sized] using hm, rfl, by simp [Matrix.get, hi, hlt'], ?_⟩
  intro row' column' hne
  simp only [Matrix.get]
  cases hj : index k m.n row' column' with
  | none => rfl
  | some j =>
    have : i ≠ j := by
      rintro rfl
      obtain ⟨a, b⟩ := L2 _ _ _ _ _ hj hi
      exact hne (by rw [a, b])
    simp [this]

theorem index_stable (k : Kind) (n n' row column : ℕ) (h : Inside k n row column) (hn : n ≤ n') : Inside k n' row column ∧ index k n' row column = index k n row column := by
  have h' : Inside k n' row column := by cases k <;> exact ⟨by have := h.1; omega, by have := h.2.1; omega, h.2.2⟩
  exact ⟨h', by rw [(index_eq k n row column h).1, (index_eq k n' row column h').1]⟩

/-- C91.  A new matrix is zero; extending a matrix keeps its elements, and the new ones are zero. -/
theorem C91_extend (k : Kind) (zero : α) (m : Matrix α) (hm : m.Sized k) (extra n : ℕ) :
    ((Matrix.construct k zero n).Sized k ∧ (Matrix.construct k zero n).n = n ∧ ∀ row column, Inside k n row column → (Matrix.construct k zero n).get k row column = some zero) ∧
    (m.extend k zero extra).Sized k ∧ (m.extend k zero extra).n = m.n + extra ∧
    ∀ row column, Inside k (m.n + extra) row column →
      (Inside k m.n row column → (m.extend k zero extra).get k row column = m.get k row column) ∧ (¬ Inside k m.n row column → (m.extend k zero extra).get k row column = some zero) := by
  have hle := size_mono k (show m.n ≤ m.n + extra by omega)
  have hdata : (m.extend k zero extra).data = m.data ++ List.replicate (size k (m.n + extra) - m.data.length) zero := by
    rw [Matrix.extend, resize]
    simp only
    rw [List.take_of_length_le (by rw [hm]; exact hle)]
  refine ⟨⟨by simp [Matrix.Sized, Matrix.construct], rfl, ?_⟩, ?_, rfl, ?_⟩
  · intro row column h
    obtain ⟨i, hi, hlt⟩ := ((C91_layout k n).1 row column).1 h
    simp [Matrix.get, Matrix.construct, hi, hlt]
  · rw [Matrix.Sized, hdata, List.length_append, List.length_replicate, hm]
    show _ = size k (m.n + extra)
    omega
  · intro row column h
    obtain ⟨i, hi, hlt⟩ := ((C91_layout k (m.n + extra)).1 row column).1 h
    have hget : (m.extend k zero extra).get k row column = (m.data ++ List.replicate (size k (m.n + extra) - m.data.length) zero)[i]? := by
      rw [Matrix.get, hdata]
      show (index k (m.n + extra) row column).bind _ = _
      rw [hi]; rfl
    constructor
    · intro h'
      have e := (index_stable k m.n (m.n + extra) row column h' (by omega)).2
      obtain ⟨j, hj, hjlt⟩ := ((C91_layout k m.n).1 row column).1 h'
      rw [hi, hj] at e
      obtain rfl := Option.some.inj e
      rw [hget, Matrix.get, hj, List.getElem?_append_left (by rw [hm]; exact hjlt)]; rfl
    · intro h'
      have : size k m.n ≤ i := by
        by_contra hh
        obtain ⟨r, c, hrc⟩ := (C91_layout k m.n).2.2 i (by omega)
        have hin := ((C91_layout k m.n).1 r c).2 ⟨i, hrc, by omega⟩
        have e := (index_stable k m.n (m.n + extra) r c hin (by omega)).2
        obtain ⟨a, b⟩ := (C91_layout k (m.n + extra)).2.1 r c row column i (by rw [e, hrc]) hi
        rw [a, b] at hin
        exact h' hin
      rw [hget, List.getElem?_append_right (by rw [hm]; exact this), List.getElem?_replicate, if_pos (by rw [hm]; omega)]

/-- C91.  Erasing the end of a matrix keeps the elements of the smaller triangle. -/
theorem C91_erase (k : Kind) (m : Matrix α) (hm : m.Sized k) (begin : ℕ) (hb : begin ≤ m.n) :
    (m.eraseToEnd k begin).Sized k ∧ (m.eraseToEnd k begin).n = begin ∧ ∀ row column, Inside k begin row column → (m.eraseToEnd k begin).get k row column = m.get k row column := by
  have hle := size_mono k hb
  refine ⟨?_, rfl, ?_⟩
  · rw [Matrix.Sized, Matrix.eraseToEnd]
    simp only [List.length_take]
    rw [hm]; omega
  · intro row column h
    obtain ⟨i, hi, hlt⟩ := ((C91_layout k begin).1 row column).1 h
    have e := (index_stable k begin m.n row column h hb).2
    rw [hi] at e
    simp only [Matrix.get, Matrix.eraseToEnd, hi, e, Option.bind_some]
    rw [List.getElem?_take_of_lt hlt]

theorem llround_of (x : ℝ) (n : ℕ) (h1 : (n : ℝ) - 1 / 2 ≤ x) (h2 : x < n + 1 / 2) (h0 : 0 ≤ x) : llround x = n := by
  rw [llround, if_pos h0, Int.floor_eq_iff]
  push_cast
  constructor <;> linarith

theorem two_size (n : ℕ) : 8 * (((n + 1) * (n + 2) / 2 : ℕ) : ℝ) = 4 * ((n : ℝ) + 1) * (n + 2) := by
  obtain ⟨c, hc⟩ := (Nat.even_mul_succ_self (n + 1)).two_dvd
  have hc' : (n + 1) * (n + 2) = 2 * c := hc
  have hr : ((n : ℝ) + 1) * (n + 2) = 2 * c := by exact_mod_cast hc'
  rw [hc', Nat.mul_div_cancel_left _ (by norm_num)]
  linarith

/-- C91.  The number of rows or columns of a nonempty matrix is deduced from the number of its elements. -/
theorem C91_deduce (k : Kind) (n : ℕ) (h : 1 ≤ n) : deduce k (size k n) = n := by
  have full : ∀ n : ℕ, llround ((-1 + √(8 * (((n + 1) * (n + 2) / 2 : ℕ) : ℝ))) * 0.5) = ((n + 1 : ℕ) : ℤ) := by
    intro n
    rw [two_size]
    have hn : (0 : ℝ) ≤ n := Nat.cast_nonneg n
    have a1 : 2 * ((n : ℝ) + 1) ≤ √(4 * ((n : ℝ) + 1) * (n + 2)) := Real.le_sqrt_of_sq_le (by nlinarith)
    have a2 : √(4 * ((n : ℝ) + 1) * (n + 2)) ≤ 2 * (n : ℝ) + 3 := Real.sqrt_le_iff.2 ⟨by linarith, by nlinarith⟩
    refine llround_of _ _ ?_ ?_ ?_
    · push_cast; linarith
    · push_cast; linarith
    · linarith
  obtain ⟨n, rfl⟩ := Nat.exists_eq_add_of_le' h
  cases k
  · exact full n
  · exact full n
  · show llround ((1 + √(8 * (((n + 1) * n / 2 : ℕ) : ℝ))) * 0.5) = _
    cases n with
    | zero =>
      apply llround_of <;> norm_num
    | succ n =>
      rw [mul_comm (n + 1 + 1), show n + 1 + 1 = n + 2 from rfl, two_size]
      have hn : (0 : ℝ) ≤ n := Nat.cast_nonneg n
      have a1 : 2 * ((n : ℝ) + 1) ≤ √(4 * ((n : ℝ) + 1) * (n + 2)) := Real.le_sqrt_of_sq_le (by nlinarith)
      have a2 : √(4 * ((n : ℝ) + 1) * (n + 2)) ≤ 2 * (n : ℝ) + 3 := Real.sqrt_le_iff.2 ⟨by linarith, by nlinarith⟩
      refine llround_of _ _ ?_ ?_ ?_
      · push_cast; linarith
      · push_cast; linarith
      · linarith

/-- C91.  For an empty list of elements, the number of rows or columns that is deduced is -1, as `llround` rounds -1/2 away from zero; the check on the size succeeds. -/
theorem C91_deduce_empty_counterexample : deduce .lower 0 = -1 ∧ deduce .upper 0 = -1 ∧ (-1 : ℤ) * (-1 + 1) / 2 = 0 := by
  have h : llround ((-1 + √(8 * ((0 : ℕ) : ℝ))) * 0.5) = -1 := by
    rw [Nat.cast_zero, mul_zero, Real.sqrt_zero, llround, if_neg (by norm_num), Int.ceil_eq_iff]
    norm_num
  exact ⟨h, h, by norm_num⟩

/-- A lower triangular matrix of size 2, extended to 3. -/
example : (⟨2, [1, 2, 3]⟩ : Matrix ℕ).Sized .lower ∧ Inside .lower 2 1 0 ∧ (⟨2, [1, 2, 3]⟩ : Matrix ℕ).get .lower 1 0 = some 2 ∧
    ((⟨2, [1, 2, 3]⟩ : Matrix ℕ).extend .lower 0 1).data = [1, 2, 3, 0, 0, 0] := by
  refine ⟨rfl, ⟨by norm_num, by norm_num, by norm_num⟩, rfl, rfl⟩

end Principia.Numerics.Triangular
