import Verif.Geometry.FormsModel
import Verif.Geometry.RotationSpec
import Mathlib.Tactic.FieldSimp
import Mathlib.Tactic.LinearCombination
import Mathlib.Tactic.FinCases
import Mathlib.Tactic.Linarith

/-!
C52: the resolution of 3×3 linear systems.
-/

set_option linter.unusedSimpArgs false
set_option linter.unusedVariables false
set_option linter.unusedSectionVars false

namespace Principia.Geometry.M3

variable {K : Type} [Field K] [LinearOrder K]

/-! ## The pivots -/

theorem pivot_zero (A : M3 K) : A.pivot 0 =
    [(0 : Fin 3), 1, 2].foldl (fun s i => if s.2 ≤ |A.at' i 0| then (some i, |A.at' i 0|) else s) (none, 0) := rfl

theorem pivot_one (A : M3 K) : A.pivot 1 =
    [(1 : Fin 3), 2].foldl (fun s i => if s.2 ≤ |A.at' i 1| then (some i, |A.at' i 1|) else s) (none, 0) := rfl

theorem pivot_two (A : M3 K) : A.pivot 2 =
    [(2 : Fin 3)].foldl (fun s i => if s.2 ≤ |A.at' i 2| then (some i, |A.at' i 2|) else s) (none, 0) := rfl

theorem pivot_one_cases (A : M3 K) : (A.pivot 1).1 = none ∨ (A.pivot 1).1 = some 1 ∨ (A.pivot 1).1 = some 2 := by
  rw [pivot_one]
  simp only [List.foldl]
  split <;> split <;> simp_all

theorem pivot_two_cases (A : M3 K) : (A.pivot 2).1 = none ∨ (A.pivot 2).1 = some 2 := by
  rw [pivot_two]
  simp only [List.foldl]
  split <;> simp_all

theorem pivot_zero_cases (A : M3 K) : (A.pivot 0).1 = none ∨ (A.pivot 0).1 = some 0 ∨ (A.pivot 0).1 = some 1 ∨ (A.pivot 0).1 = some 2 := by
  rw [pivot_zero]
  simp only [List.foldl]
  split <;> split <;> split <;> simp_all

/-! ## The factorization -/

/-- `L` and `U` are the factors of the matrix `A`. -/
structure Factors (A L U : M3 K) : Prop where
  u00 : U.rowX.x = A.rowX.x
  u01 : U.rowX.y = A.rowX.y
  u02 : U.rowX.z = A.rowX.z
  l10 : L.rowY.x = A.rowY.x / U.rowX.x
  l20 : L.rowZ.x = A.rowZ.x / U.rowX.x
  u11 : U.rowY.y = A.rowY.y - L.rowY.x * U.rowX.y
  u12 : U.rowY.z = A.rowY.z - L.rowY.x * U.rowX.z
  l21 : L.rowZ.y = (A.rowZ.y - L.rowZ.x * U.rowX.y) / U.rowY.y
  u22 : U.rowZ.z = A.rowZ.z - L.rowZ.x * U.rowX.z - L.rowZ.y * U.rowY.z

/-- A system with its equations in some order. -/
structure Reordered (A : M3 K) (b : R3 K) (A' : M3 K) (b' : R3 K) : Prop where
  solutions : ∀ x, A'.mulVec x = b' ↔ A.mulVec x = b
  det : A'.det = A.det ∨ A'.det = -A.det

theorem Reordered.refl (A : M3 K) (b : R3 K) : Reordered A b A b := ⟨fun _ => Iff.rfl, .inl rfl⟩

theorem Reordered.swap {A : M3 K} {b : R3 K} {A' : M3 K} {b' : R3 K} (h : Reordered A b A' b') (k r : Fin 3) :
    Reordered A b (A'.swapRows k r) (b'.swap k r) := by
  refine ⟨fun x => (Iff.trans ?_ (h.solutions x)), ?_⟩
  · fin_cases k <;> fin_cases r <;>
      simp [swapRows, R3.swap, setRow, row, R3.set, R3.get, mulVec, R3.ext_iff, and_comm, and_left_comm, and_assoc]
  · have : (A'.swapRows k r).det = A'.det ∨ (A'.swapRows k r).det = -A'.det := by
      fin_cases k <;> fin_cases r <;> simp [swapRows, setRow, row, M3.det] <;> first | (left; ring1) | (right; ring1)
    rcases this with h1 | h1 <;> rcases h.det with h2 | h2 <;> rw [h1, h2] <;> simp

/-- After the first iteration. -/
structure Inv₁ (s : LU K) : Prop where
  u00 : s.U.rowX = s.A.rowX
  l10 : s.L.rowY.x = s.A.rowY.x / s.U.rowX.x
  l20 : s.L.rowZ.x = s.A.rowZ.x / s.U.rowX.x
  ne : s.U.rowX.x ≠ 0

/-- After the second iteration. -/
structure Inv₂ (s : LU K) : Prop extends Inv₁ s where
  u11 : s.U.rowY.y = s.A.rowY.y - s.L.rowY.x * s.U.rowX.y
  u12 : s.U.rowY.z = s.A.rowY.z - s.L.rowY.x * s.U.rowX.z
  l21 : s.L.rowZ.y = (s.A.rowZ.y - s.L.rowZ.x * s.U.rowX.y) / s.U.rowY.y
  ne₁ : s.U.rowY.y ≠ 0

theorem luStep_ok {s s' : LU K} {k : Fin 3} (h : luStep s k = .ok s') :
    ∃ r, (s.A.pivot k).1 = some r ∧ s'.A = s.A.swapRows k r ∧ s'.b = s.b.swap k r ∧ (s.A.swapRows k r).at' k k ≠ 0 ∧
      s'.U = upper (s.A.swapRows k r) (s.L.swapRows k r) s.U k ∧ (k < 2 → s'.U.at' k k ≠ 0) ∧
      s'.L = (lower (s.A.swapRows k r) (s.L.swapRows k r) s'.U k).set k k 1 := by
  unfold luStep at h
  split at h
  · simp at h
  · rename_i r hr
    simp only at h
    split at h
    · simp at h
    · split at h
      · simp at h
      · rename_i h1 h2
        obtain rfl := (Except.ok.inj h).symm
        exact ⟨r, hr, rfl, rfl, h1, rfl, fun hk hz => h2 ⟨hk, hz⟩, rfl⟩

theorem upper_zero (A L U : M3 K) : upper A L U 0 = ⟨A.rowX, U.rowY, U.rowZ⟩ := by
  have : upper A L U 0 = [(0 : Fin 3), 1, 2].foldl (fun U j => U.set 0 j (A.at' 0 j)) U := rfl
  rw [this]
  simp [List.foldl, set, setRow, row, at', R3.set, R3.get]

theorem upper_one (A L U : M3 K) : upper A L U 1 =
    ⟨U.rowX, ⟨U.rowY.x, A.rowY.y - L.rowY.x * U.rowX.y, A.rowY.z - L.rowY.x * U.rowX.z⟩, U.rowZ⟩ := by
  have : upper A L U 1 = [(1 : Fin 3), 2].foldl (fun U j => U.set 1 j (A.at' 1 j - L.at' 1 0 * U.at' 0 j)) U := rfl
  rw [this]
  simp [List.foldl, set, setRow, row, at', R3.set, R3.get]

theorem upper_two (A L U : M3 K) : upper A L U 2 =
    ⟨U.rowX, U.rowY, ⟨U.rowZ.x, U.rowZ.y, A.rowZ.z - L.rowZ.x * U.rowX.z - L.rowZ.y * U.rowY.z⟩⟩ := by
  have : upper A L U 2 = [(2 : Fin 3)].foldl (fun U j => U.set 2 j (A.at' 2 j - L.at' 2 0 * U.at' 0 j - L.at' 2 1 * U.at' 1 j)) U := rfl
  rw [this]
  simp [List.foldl, set, setRow, row, at', R3.set, R3.get]

theorem lower_zero (A L U : M3 K) : lower A L U 0 =
    ⟨L.rowX, ⟨A.rowY.x / U.rowX.x, L.rowY.y, L.rowY.z⟩, ⟨A.rowZ.x / U.rowX.x, L.rowZ.y, L.rowZ.z⟩⟩ := by
  have : lower A L U 0 = [(1 : Fin 3), 2].foldl (fun L i => L.set i 0 (A.at' i 0 / U.at' 0 0)) L := rfl
  rw [this]
  simp [List.foldl, set, setRow, row, at', R3.set, R3.get]

theorem lower_one (A L U : M3 K) : lower A L U 1 =
    ⟨L.rowX, L.rowY, ⟨L.rowZ.x, (A.rowZ.y - L.rowZ.x * U.rowX.y) / U.rowY.y, L.rowZ.z⟩⟩ := by
  have : lower A L U 1 = [(2 : Fin 3)].foldl (fun L i => L.set i 1 ((A.at' i 1 - L.at' i 0 * U.at' 0 1) / U.at' 1 1)) L := rfl
  rw [this]
  simp [List.foldl, set, setRow, row, at', R3.set, R3.get]

theorem lower_two (A L U : M3 K) : lower A L U 2 = L := rfl

theorem luStep_zero {s s' : LU K} (h : luStep s 0 = .ok s') : Inv₁ s' := by
  obtain ⟨r, hr, hA, hb, hne, hU, hne', hL⟩ := luStep_ok h
  rw [upper_zero] at hU
  rw [lower_zero] at hL
  rw [← hA] at hU hL hne
  refine ⟨by rw [hU], ?_, ?_, ?_⟩
  · rw [hL]; simp [set, setRow, row, R3.set]
  · rw [hL]; simp [set, setRow, row, R3.set]
  · exact hne' (by decide)

theorem luStep_one {s s' : LU K} (hi : Inv₁ s) (h : luStep s 1 = .ok s') : Inv₂ s' := by
  obtain ⟨r, hr, hA, hb, hne, hU, hne', hL⟩ := luStep_ok h
  rw [upper_one] at hU
  rw [lower_one] at hL
  have hne1 := hne' (by decide)
  obtain ⟨h1, h2, h3, h4⟩ := hi
  have hr' : r = 1 ∨ r = 2 := by
    rcases pivot_one_cases s.A with h | h | h <;> simp_all
  rcases hr' with rfl | rfl <;>
    (refine ⟨⟨?_, ?_, ?_, ?_⟩, ?_, ?_, ?_, hne1⟩ <;> rw [hU] <;> (try rw [hL]) <;> (try rw [hA]) <;>
      simp_all [set, setRow, row, R3.set, swapRows])

theorem luStep_two {s s' : LU K} (hi : Inv₂ s) (h : luStep s 2 = .ok s') :
    Inv₂ s' ∧ s'.U.rowZ.z = s'.A.rowZ.z - s'.L.rowZ.x * s'.U.rowX.z - s'.L.rowZ.y * s'.U.rowY.z := by
  obtain ⟨r, hr, hA, hb, hne, hU, hne', hL⟩ := luStep_ok h
  rw [upper_two] at hU
  rw [lower_two] at hL
  obtain rfl : r = 2 := by
    rcases pivot_two_cases s.A with h | h <;> simp_all
  obtain ⟨⟨h1, h2, h3, h4⟩, h5, h6, h7, h8⟩ := hi
  refine ⟨⟨⟨?_, ?_, ?_, ?_⟩, ?_, ?_, ?_, ?_⟩, ?_⟩ <;> rw [hU] <;> (try rw [hL]) <;> (try rw [hA]) <;>
      simp_all [set, setRow, row, R3.set, swapRows]

theorem luStep_reordered {s s' : LU K} {k : Fin 3} {A : M3 K} {b : R3 K} (hi : Reordered A b s.A s.b) (h : luStep s k = .ok s') :
    Reordered A b s'.A s'.b := by
  obtain ⟨r, hr, hA, hb, hne, hU, hne', hL⟩ := luStep_ok h
  rw [hA, hb]
  exact hi.swap k r

theorem foldlM_ok {s s' : LU K} (h : indices.foldlM luStep s = .ok s') :
    ∃ s₀ s₁, luStep s 0 = .ok s₀ ∧ luStep s₀ 1 = .ok s₁ ∧ luStep s₁ 2 = .ok s' := by
  simp only [indices, List.foldlM] at h
  cases h0 : luStep s 0 with
  | error e => rw [h0] at h; cases h
  | ok s₀ =>
    rw [h0] at h
    cases h1 : luStep s₀ 1 with
    | error e => simp only [bind, Except.bind, h1] at h; cases h
    | ok s₁ =>
      cases h2 : luStep s₁ 2 with
      | error e => simp only [bind, Except.bind, h1, h2] at h; cases h
      | ok s₂ =>
        simp only [bind, Except.bind, h1, h2, pure, Except.pure] at h
        exact ⟨s₀, s₁, rfl, h1, h2.trans h⟩

theorem foldlM_of_ok {s s₀ s₁ s' : LU K} (h0 : luStep s 0 = .ok s₀) (h1 : luStep s₀ 1 = .ok s₁) (h2 : luStep s₁ 2 = .ok s') :
    indices.foldlM luStep s = .ok s' := by
  simp only [indices, List.foldlM, bind, Except.bind, h0, h1, h2, pure, Except.pure]

theorem Inv₂.det {s : LU K} (h : Inv₂ s) (hu : s.U.rowZ.z = s.A.rowZ.z - s.L.rowZ.x * s.U.rowX.z - s.L.rowZ.y * s.U.rowY.z) :
    s.A.det = s.U.rowX.x * s.U.rowY.y * s.U.rowZ.z := by
  obtain ⟨⟨h1, h2, h3, h4⟩, h5, h6, h7, h8⟩ := h
  have e1 : s.A.rowY.x = s.L.rowY.x * s.U.rowX.x := by rw [h2]; field_simp
  have e2 : s.A.rowZ.x = s.L.rowZ.x * s.U.rowX.x := by rw [h3]; field_simp
  have e3 : s.A.rowZ.y = s.L.rowZ.x * s.U.rowX.y + s.L.rowZ.y * s.U.rowY.y := by
    have : s.L.rowZ.y * s.U.rowY.y = s.A.rowZ.y - s.L.rowZ.x * s.U.rowX.y := by rw [h7]; field_simp
    rw [this]; ring
  have e4 : s.A.rowY.y = s.U.rowY.y + s.L.rowY.x * s.U.rowX.y := by rw [h5]; ring
  have e5 : s.A.rowY.z = s.U.rowY.z + s.L.rowY.x * s.U.rowX.z := by rw [h6]; ring
  have e6 : s.A.rowZ.z = s.U.rowZ.z + s.L.rowZ.x * s.U.rowX.z + s.L.rowZ.y * s.U.rowY.z := by rw [hu]; ring
  unfold M3.det
  rw [e1, e2, e3, e4, e5, e6, ← h1]
  ring

/-- The system is triangular. -/
theorem solve_triangular {A L U : M3 K} {b x : R3 K} (h1 : U.rowX = A.rowX) (h2 : A.rowY.x = L.rowY.x * U.rowX.x)
    (h3 : A.rowZ.x = L.rowZ.x * U.rowX.x) (h4 : A.rowY.y = U.rowY.y + L.rowY.x * U.rowX.y) (h5 : A.rowY.z = U.rowY.z + L.rowY.x * U.rowX.z)
    (h6 : A.rowZ.y = L.rowZ.x * U.rowX.y + L.rowZ.y * U.rowY.y) (h7 : A.rowZ.z = U.rowZ.z + L.rowZ.x * U.rowX.z + L.rowZ.y * U.rowY.z)
    (hz : U.rowZ.z * x.z = b.z - L.rowZ.x * b.x - L.rowZ.y * (b.y - L.rowY.x * b.x))
    (hy : U.rowY.y * x.y = b.y - L.rowY.x * b.x - U.rowY.z * x.z)
    (hx : U.rowX.x * x.x = b.x - U.rowX.y * x.y - U.rowX.z * x.z) : A.mulVec x = b := by
  ext
  · simp only [mulVec, R3.dot, ← h1]; linear_combination hx
  · simp only [mulVec, R3.dot, h2, h4, h5]; linear_combination L.rowY.x * hx + hy
  · simp only [mulVec, R3.dot, h3, h6, h7]; linear_combination L.rowZ.x * hx + L.rowZ.y * hy + hz

/-- C52: whatever the values of the uninitialized matrices, if the resolution of a linear system succeeds, the matrix is not singular and the
result is a solution of the system. -/
theorem C52_solution (L U A : M3 K) (b x : R3 K) (h : A.solve L U b = .ok x) : A.det ≠ 0 ∧ A.mulVec x = b := by
  unfold solve at h
  split at h
  · simp at h
  · rename_i s hs
    obtain ⟨s₀, s₁, h0, h1, h2⟩ := foldlM_ok hs
    have hr := luStep_reordered (luStep_reordered (luStep_reordered (Reordered.refl A b) h0) h1) h2
    obtain ⟨hi, hu⟩ := luStep_two (luStep_one (luStep_zero h0) h1) h2
    simp only at h
    split at h
    · simp at h
    · rename_i hne
      have hne2 : s.U.rowZ.z ≠ 0 := hne
      have hd := hi.det hu
      obtain ⟨⟨g1, g2, g3, g4⟩, g5, g6, g7, g8⟩ := hi
      refine ⟨fun h0 => ?_, ?_⟩
      · have : s.A.det = 0 := by rcases hr.det with h' | h' <;> rw [h', h0]; simp
        rw [this] at hd
        exact mul_ne_zero (mul_ne_zero g4 g8) hne2 hd.symm
      · refine (hr.solutions x).1 ?_
        have hx := Except.ok.inj h
        have hz : s.U.rowZ.z * x.z = s.b.z - s.L.rowZ.x * s.b.x - s.L.rowZ.y * (s.b.y - s.L.rowY.x * s.b.x) := by
          rw [← hx]; simp only [at', row, R3.get]; field_simp
        have hy : s.U.rowY.y * x.y = s.b.y - s.L.rowY.x * s.b.x - s.U.rowY.z * x.z := by
          rw [← hx]; simp only [at', row, R3.get]; field_simp
        have hx' : s.U.rowX.x * x.x = s.b.x - s.U.rowX.y * x.y - s.U.rowX.z * x.z := by
          rw [← hx]; simp only [at', row, R3.get]; field_simp
        refine solve_triangular g1 ?_ ?_ ?_ ?_ ?_ ?_ hz hy hx'
        · rw [g2]; field_simp
        · rw [g3]; field_simp
        · rw [g5]; ring
        · rw [g6]; ring
        · have : s.L.rowZ.y * s.U.rowY.y = s.A.rowZ.y - s.L.rowZ.x * s.U.rowX.y := by rw [g7]; field_simp
          rw [this]; ring
        · rw [hu]; ring

end Principia.Geometry.M3
