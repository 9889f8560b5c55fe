import Verif.Geometry.SolveProps
import Mathlib.Algebra.Order.Field.Rat

/-!
C52: the cases where the resolution of 3×3 linear systems succeeds.
-/

set_option linter.unusedSimpArgs false
set_option linter.unusedVariables false
set_option linter.unusedSectionVars false

namespace Principia.Geometry.M3

/-! ## The uninitialized matrices do not matter -/

section

variable {K : Type} [Field K] [LinearOrder K]

/-- The same equations. -/
def Agree₀ (s t : LU K) : Prop := s.A = t.A ∧ s.b = t.b

/-- The same factors after the first iteration. -/
def Agree₁ (s t : LU K) : Prop := Agree₀ s t ∧ s.U.rowX = t.U.rowX ∧ s.L.rowY.x = t.L.rowY.x ∧ s.L.rowZ.x = t.L.rowZ.x

/-- The same factors after the second iteration. -/
def Agree₂ (s t : LU K) : Prop := Agree₁ s t ∧ s.U.rowY.y = t.U.rowY.y ∧ s.U.rowY.z = t.U.rowY.z ∧ s.L.rowZ.y = t.L.rowZ.y

/-- The same factors after the third iteration. -/
def Agree₃ (s t : LU K) : Prop := Agree₂ s t ∧ s.U.rowZ.z = t.U.rowZ.z

/-- The same outcome, with results related by `P`. -/
def Both {α : Type} (P : α → α → Prop) : Except SolveError α → Except SolveError α → Prop
  | .ok s, .ok t => P s t
  | .error e, .error e' => e = e'
  | _, _ => False

theorem luStep_both {P : LU K → LU K → Prop} {s t : LU K} {k : Fin 3} (hA : s.A = t.A)
    (hu : ∀ r, (t.A.pivot k).1 = some r →
      (upper (t.A.swapRows k r) (s.L.swapRows k r) s.U k).at' k k = (upper (t.A.swapRows k r) (t.L.swapRows k r) t.U k).at' k k)
    (h : ∀ r, (t.A.pivot k).1 = some r →
      P ⟨t.A.swapRows k r, s.b.swap k r,
          (lower (t.A.swapRows k r) (s.L.swapRows k r) (upper (t.A.swapRows k r) (s.L.swapRows k r) s.U k) k).set k k 1,
          upper (t.A.swapRows k r) (s.L.swapRows k r) s.U k⟩
        ⟨t.A.swapRows k r, t.b.swap k r,
          (lower (t.A.swapRows k r) (t.L.swapRows k r) (upper (t.A.swapRows k r) (t.L.swapRows k r) t.U k) k).set k k 1,
          upper (t.A.swapRows k r) (t.L.swapRows k r) t.U k⟩) :
    Both P (luStep s k) (luStep t k) := by
  unfold luStep
  rw [hA]
  cases hp : (t.A.pivot k).1 with
  | none => simp [Both]
  | some r =>
    simp only [hu r hp]
    split
    · simp [Both]
    · split
      · simp [Both]
      · exact h r hp

theorem luStep_both₀ {s t : LU K} (h : Agree₀ s t) : Both Agree₁ (luStep s 0) (luStep t 0) := by
  refine luStep_both h.1 (fun r _ => ?_) (fun r _ => ?_)
  · simp [upper_zero, at', row]
  · rw [h.2, upper_zero, upper_zero, lower_zero, lower_zero]
    simp [Agree₁, Agree₀, set, setRow, row, R3.set]

theorem luStep_both₁ {s t : LU K} (h : Agree₁ s t) : Both Agree₂ (luStep s 1) (luStep t 1) := by
  obtain ⟨⟨h1, h2⟩, h3, h4, h5⟩ := h
  refine luStep_both h1 (fun r hr => ?_) (fun r hr => ?_)
  all_goals
    have hr' : r = 1 ∨ r = 2 := by rcases pivot_one_cases t.A with h | h | h <;> simp_all
    rcases hr' with rfl | rfl <;>
      simp [upper_one, lower_one, Agree₂, Agree₁, Agree₀, set, setRow, row, at', R3.set, R3.get, swapRows, h2, h3, h4, h5]

theorem luStep_both₂ {s t : LU K} (h : Agree₂ s t) : Both Agree₃ (luStep s 2) (luStep t 2) := by
  obtain ⟨⟨⟨h1, h2⟩, h3, h4, h5⟩, h6, h7, h8⟩ := h
  refine luStep_both h1 (fun r hr => ?_) (fun r hr => ?_)
  all_goals
    obtain rfl : r = 2 := by rcases pivot_two_cases t.A with h | h <;> simp_all
    simp [upper_two, lower_two, Agree₃, Agree₂, Agree₁, Agree₀, set, setRow, row, at', R3.set, R3.get, swapRows, h2, h3, h4, h5, h6, h7, h8]

/-- C52: the uninitialized matrices have no influence on the result. -/
theorem C52_uninitialized (A L U L' U' : M3 K) (b : R3 K) : A.solve L U b = A.solve L' U' b := by
  have h0 := luStep_both₀ (s := ⟨A, b, L, U⟩) (t := ⟨A, b, L', U'⟩) ⟨rfl, rfl⟩
  unfold solve
  simp only [indices, List.foldlM, bind, Except.bind]
  cases e : luStep ⟨A, b, L, U⟩ 0 <;> cases e' : luStep ⟨A, b, L', U'⟩ 0 <;> rw [e, e'] at h0
  · cases h0; rfl
  · exact h0.elim
  · exact h0.elim
  · rename_i s t
    simp only
    have h1 := luStep_both₁ h0
    cases e : luStep s 1 <;> cases e' : luStep t 1 <;> rw [e, e'] at h1
    · cases h1; rfl
    · exact h1.elim
    · exact h1.elim
    · rename_i s t
      simp only
      have h2 := luStep_both₂ h1
      cases e : luStep s 2 <;> cases e' : luStep t 2 <;> rw [e, e'] at h2
      · cases h2; rfl
      · exact h2.elim
      · exact h2.elim
      · rename_i s t
        obtain ⟨⟨⟨⟨h1, h2⟩, h3, h4, h5⟩, h6, h7, h8⟩, h9⟩ := h2
        by_cases hz : t.U.rowZ.z = 0 <;> simp [pure, Except.pure, at', row, R3.get, h2, h3, h4, h5, h6, h7, h8, h9, hz]

/-- The same matrices. -/
def AgreeM (s t : LU K) : Prop := s.A = t.A ∧ s.L = t.L ∧ s.U = t.U

theorem luStep_bothM {s t : LU K} {k : Fin 3} (h : AgreeM s t) : Both AgreeM (luStep s k) (luStep t k) := by
  obtain ⟨h1, h2, h3⟩ := h
  refine luStep_both h1 (fun r hr => by rw [h2, h3]) (fun r hr => ⟨rfl, by rw [h2, h3], by rw [h2, h3]⟩)

/-- Whether and how the resolution fails does not depend on the right-hand side. -/
theorem solve_error {A L U : M3 K} {b : R3 K} (b' : R3 K) {e : SolveError} (he : A.solve L U b = .error e) : A.solve L U b' = .error e := by
  have h0 := luStep_bothM (s := ⟨A, b, L, U⟩) (t := ⟨A, b', L, U⟩) (k := 0) ⟨rfl, rfl, rfl⟩
  unfold solve at he ⊢
  simp only [indices, List.foldlM, bind, Except.bind] at he ⊢
  cases e : luStep ⟨A, b, L, U⟩ 0 <;> cases e' : luStep ⟨A, b', L, U⟩ 0 <;> rw [e, e'] at h0 <;> rw [e] at he
  · cases h0; exact he
  · exact h0.elim
  · exact h0.elim
  · rename_i s t
    simp only at he ⊢
    have h1 := luStep_bothM (k := 1) h0
    cases e : luStep s 1 <;> cases e' : luStep t 1 <;> rw [e, e'] at h1 <;> rw [e] at he
    · cases h1; exact he
    · exact h1.elim
    · exact h1.elim
    · rename_i s t
      simp only at he ⊢
      have h2 := luStep_bothM (k := 2) h1
      cases e : luStep s 2 <;> cases e' : luStep t 2 <;> rw [e, e'] at h2 <;> rw [e] at he
      · cases h2; exact he
      · exact h2.elim
      · exact h2.elim
      · rename_i s t
        obtain ⟨h1, h2, h3⟩ := h2
        simp only [pure, Except.pure, h3] at he ⊢
        by_cases hz : t.U.at' 2 2 = 0
        · simpa only [if_pos hz] using he
        · simp [if_neg hz] at he

end

/-! ## Success -/

section

variable {K : Type} [Field K] [LinearOrder K] [IsStrictOrderedRing K]

theorem pivot_two_eq (A : M3 K) : (A.pivot 2).1 = some 2 := by
  rw [pivot_two]; simp [List.foldl]

theorem swapRows_self (A : M3 K) (k : Fin 3) : A.swapRows k k = A := by
  fin_cases k <;> rfl

theorem luStep_of {s : LU K} {k r : Fin 3} (h1 : (s.A.pivot k).1 = some r) (h2 : (s.A.swapRows k r).at' k k ≠ 0)
    (h3 : k < 2 → (upper (s.A.swapRows k r) (s.L.swapRows k r) s.U k).at' k k ≠ 0) :
    ∃ s', luStep s k = .ok s' := by
  unfold luStep
  rw [h1]
  simp only
  rw [if_neg h2, if_neg (fun h => h3 h.1 h.2)]
  exact ⟨_, rfl⟩

/-- The resolution succeeds if the pivots do not vanish. -/
theorem solve_of {A : M3 K} (hd : A.det ≠ 0) (r₀ r₁ : Fin 3) {A₁ A₂ : M3 K} (e₁ : A.swapRows 0 r₀ = A₁) (e₂ : A₁.swapRows 1 r₁ = A₂)
    (p₀ : (A.pivot 0).1 = some r₀) (p₁ : (A₁.pivot 1).1 = some r₁) (n₀ : A₁.rowX.x ≠ 0) (n₁ : A₂.rowY.y ≠ 0) (n₂ : A₂.rowZ.z ≠ 0)
    (u₁ : A₂.rowY.y * A₁.rowX.x ≠ A₂.rowY.x * A₁.rowX.y) (L U : M3 K) (b : R3 K) : ∃ x, A.solve L U b = .ok x := by
  have hr₁ : r₁ = 1 ∨ r₁ = 2 := by rcases pivot_one_cases A₁ with h | h | h <;> simp_all
  have hX : A₂.rowX = A₁.rowX := by
    rw [← e₂]; rcases hr₁ with rfl | rfl <;> rfl
  obtain ⟨s₀, h0⟩ := luStep_of (s := ⟨A, b, L, U⟩) p₀ (by rw [e₁]; exact n₀) (fun _ => by rw [upper_zero, e₁]; exact n₀)
  have i₀ := luStep_zero h0
  obtain ⟨r, hr, a₀, b₀, _⟩ := luStep_ok h0
  obtain rfl : r₀ = r := Option.some.inj (p₀.symm.trans hr)
  replace a₀ : s₀.A = A₁ := a₀.trans e₁
  have hU : (upper (s₀.A.swapRows 1 r₁) (s₀.L.swapRows 1 r₁) s₀.U 1).at' 1 1 ≠ 0 := by
    rw [upper_one, a₀, e₂]
    have hl : (s₀.L.swapRows 1 r₁).rowY.x = A₂.rowY.x / A₁.rowX.x := by
      have l1 := i₀.l10
      have l2 := i₀.l20
      rw [i₀.u00, a₀] at l1 l2
      rw [← e₂]
      rcases hr₁ with rfl | rfl <;> simp [swapRows, setRow, row, l1, l2]
    simp only [at', row, R3.get]
    rw [hl, i₀.u00, a₀]
    intro h
    apply u₁
    field_simp at h
    linear_combination h
  obtain ⟨s₁, h1⟩ := luStep_of (s := s₀) (k := 1) (r := r₁) (by rw [a₀]; exact p₁) (by rw [a₀, e₂]; exact n₁) (fun _ => hU)
  obtain ⟨r, hr, a₁, b₁, _⟩ := luStep_ok h1
  obtain rfl : r₁ = r := by rw [a₀] at hr; exact Option.some.inj (p₁.symm.trans hr)
  replace a₁ : s₁.A = A₂ := by rw [a₁, a₀, e₂]
  obtain ⟨s₂, h2⟩ := luStep_of (s := s₁) (k := 2) (r := 2) (pivot_two_eq _) (by rw [a₁, swapRows_self]; exact n₂) (fun h => absurd h (by decide))
  obtain ⟨hi, hu⟩ := luStep_two (luStep_one i₀ h1) h2
  have hr := luStep_reordered (luStep_reordered (luStep_reordered (Reordered.refl A b) h0) h1) h2
  have hne : s₂.U.rowZ.z ≠ 0 := by
    intro h
    have := hi.det hu
    rw [h, mul_zero] at this
    rcases hr.det with h' | h' <;> rw [h'] at this
    · exact hd this
    · exact hd (neg_eq_zero.1 this)
  unfold solve
  rw [foldlM_of_ok h0 h1 h2]
  simp only
  rw [if_neg (show s₂.U.at' 2 2 ≠ 0 from hne)]
  exact ⟨_, rfl⟩

/-- The inertia tensor is derived from the second moments of the masses: `tr S - S`. -/
def inertia (S : M3 K) : M3 K :=
  ⟨⟨S.rowY.y + S.rowZ.z, -S.rowX.y, -S.rowX.z⟩, ⟨-S.rowX.y, S.rowX.x + S.rowZ.z, -S.rowY.z⟩, ⟨-S.rowX.z, -S.rowY.z, S.rowX.x + S.rowY.y⟩⟩

/-- A positive semidefinite form. -/
def Nonnegative (S : M3 K) : Prop := ∀ v, 0 ≤ S.form v v

theorem minor_nonneg {x y z : K} (h : ∀ u v : K, 0 ≤ x * u * u + 2 * y * u * v + z * v * v) : 0 ≤ x ∧ 0 ≤ z ∧ y * y ≤ x * z := by
  have hx := h 1 0
  have hz := h 0 1
  simp at hx hz
  refine ⟨hx, hz, ?_⟩
  rcases hx.eq_or_lt with h0 | h0
  · subst h0
    have h1 := h (-(z + 1)) (2 * y)
    have h2 := h (z + 1) (-(2 * y))
    have : 4 * (y * y) * (z + 1) ≤ 4 * (y * y) * z := by nlinarith
    nlinarith [mul_self_nonneg y]
  · have h1 := h (-y) x
    have : 0 ≤ x * (x * z - y * y) := by nlinarith
    have := nonneg_of_mul_nonneg_right this h0
    linarith

theorem abs_le_half {d y z : K} (hy : 0 ≤ y) (hz : 0 ≤ z) (h : d * d ≤ y * z) : 2 * |d| ≤ y + z := by
  apply le_of_not_gt
  intro hlt
  have h1 : |d| * |d| = d * d := abs_mul_abs_self d
  have h2 : (y + z) * (y + z) < (2 * |d|) * (2 * |d|) := by
    apply mul_self_lt_mul_self (by linarith) hlt
  nlinarith [mul_self_nonneg (y - z)]

theorem last_pivot {sx sy sz d e f : K} (hx : 0 ≤ sx) (hy : 0 ≤ sy) (hz : 0 ≤ sz) (ha0 : 0 < sy + sz) (hb0 : 0 < sx + sz)
    (he : e * e ≤ sx * sz) (hf : f * f ≤ sx * sy) (hd : sx + sz ≤ |d|) (h : d * (sy + sz) = -(e * f)) : False := by
  have h1 : (d * d) * ((sy + sz) * (sy + sz)) = (e * e) * (f * f) := by
    linear_combination (d * (sy + sz) - e * f) * h
  have h2 : (e * e) * (f * f) ≤ (sx * sz) * (sx * sy) := mul_le_mul he hf (mul_self_nonneg _) (mul_nonneg hx hz)
  have h3 : (sx + sz) * (sx + sz) ≤ d * d := by
    rw [← abs_mul_abs_self d]
    exact mul_self_le_mul_self hb0.le hd
  have h4 : (sx + sz) * (sx + sz) * ((sy + sz) * (sy + sz)) ≤ d * d * ((sy + sz) * (sy + sz)) :=
    mul_le_mul_of_nonneg_right h3 (mul_self_nonneg _)
  have g1 : sx * sx ≤ (sx + sz) * (sx + sz) := mul_self_le_mul_self hx (by linarith)
  have g2 : 4 * (sy * sz) ≤ (sy + sz) * (sy + sz) := by linarith [mul_self_nonneg (sy - sz)]
  have h5 := mul_le_mul g1 g2 (mul_nonneg (by norm_num) (mul_nonneg hy hz)) (mul_self_nonneg _)
  have h6 : 0 < (sx + sz) * (sx + sz) * ((sy + sz) * (sy + sz)) := mul_pos (mul_pos hb0 hb0) (mul_pos ha0 ha0)
  have h7 : sx * sx * (4 * (sy * sz)) = 4 * ((sx * sz) * (sx * sy)) := by ring
  linarith

theorem solve_inertia {S : M3 K} (hs : S.Symmetric) (hS : S.Nonnegative) (hd : S.inertia.det ≠ 0) (L U : M3 K) (b : R3 K) :
    ∃ x, S.inertia.solve L U b = .ok x := by
  obtain ⟨⟨sx, f, e⟩, ⟨f', sy, d⟩, ⟨e', d', sz⟩⟩ := S
  simp [Symmetric, transpose] at hs
  obtain ⟨⟨rfl, rfl⟩, ⟨-, rfl⟩, -⟩ := hs
  simp only [Nonnegative, form, mulVec, R3.dot] at hS
  obtain ⟨hx, hy, hf⟩ := minor_nonneg (x := sx) (y := f') (z := sy) (fun u v => by have := hS ⟨u, v, 0⟩; simp at this; linarith)
  obtain ⟨-, hz, he⟩ := minor_nonneg (x := sx) (y := e') (z := sz) (fun u v => by have := hS ⟨u, 0, v⟩; simp at this; linarith)
  obtain ⟨-, -, hdd⟩ := minor_nonneg (x := sy) (y := d') (z := sz) (fun u v => by have := hS ⟨0, u, v⟩; simp at this; linarith)
  clear hS
  have hdet : (⟨⟨sx, f', e'⟩, ⟨f', sy, d'⟩, ⟨e', d', sz⟩⟩ : M3 K).inertia.det =
      (sy + sz) * ((sx + sz) * (sx + sy) - d' * d') - f' * (f' * (sx + sy) + d' * e') - e' * (f' * d' + (sx + sz) * e') := by
    simp [inertia, det]; ring
  have ha := abs_le_half hy hz hdd
  have hb := abs_le_half hx hz he
  have hc := abs_le_half hx hy hf
  have zero_of : ∀ {t y z : K}, t * t ≤ y * z → y * z = 0 → t = 0 := by
    intro t y z h h0
    exact mul_self_eq_zero.1 (le_antisymm (h0 ▸ h) (mul_self_nonneg t))
  have ha0 : 0 < sy + sz := by
    rcases (add_nonneg hy hz).eq_or_lt with h | h
    · exfalso
      have h1 : sy = 0 := by linarith
      have h2 : sz = 0 := by linarith
      subst h1 h2
      have := zero_of hf (by simp)
      have := zero_of he (by simp)
      have := zero_of hdd (by simp)
      subst_vars
      exact hd (hdet.trans (by ring))
    · exact h
  have hb0 : 0 < sx + sz := by
    rcases (add_nonneg hx hz).eq_or_lt with h | h
    · exfalso
      have h1 : sx = 0 := by linarith
      have h2 : sz = 0 := by linarith
      subst h1 h2
      have := zero_of hf (by simp)
      have := zero_of he (by simp)
      have := zero_of hdd (by simp)
      subst_vars
      exact hd (hdet.trans (by ring))
    · exact h
  have hc0 : 0 < sx + sy := by
    rcases (add_nonneg hx hy).eq_or_lt with h | h
    · exfalso
      have h1 : sx = 0 := by linarith
      have h2 : sy = 0 := by linarith
      subst h1 h2
      have := zero_of hf (by simp)
      have := zero_of he (by simp)
      have := zero_of hdd (by simp)
      subst_vars
      exact hd (hdet.trans (by ring))
    · exact h
  have hm : 0 < (sy + sz) * (sx + sz) - f' * f' := by
    have h0 : (sy + sz) * (sx + sz) - f' * f' = (sx * sy - f' * f') + sz * (sx + sy + sz) := by ring
    have h1 : 0 ≤ sz * (sx + sy + sz) := mul_nonneg hz (by linarith)
    rcases (show 0 ≤ (sy + sz) * (sx + sz) - f' * f' by rw [h0]; linarith).eq_or_lt with h | h
    · exfalso
      have h2 : sz * (sx + sy + sz) = 0 := by linarith
      have h3 : sx * sy - f' * f' = 0 := by linarith
      have h4 : sz = 0 := by
        rcases mul_eq_zero.1 h2 with h | h
        · exact h
        · linarith
      subst h4
      have := zero_of he (by simp)
      have := zero_of hdd (by simp)
      subst_vars
      refine hd (hdet.trans ?_)
      linear_combination (sx + sy) * h3
    · exact h
  have hpos : ∀ t : K, t ≠ 0 ↔ 0 < |t| := fun t => abs_pos.symm
  have hA : (⟨⟨sx, f', e'⟩, ⟨f', sy, d'⟩, ⟨e', d', sz⟩⟩ : M3 K).inertia =
    ⟨⟨sy + sz, -f', -e'⟩, ⟨-f', sx + sz, -d'⟩, ⟨-e', -d', sx + sy⟩⟩ := rfl
  have hp0 : (pivot (⟨⟨sy + sz, -f', -e'⟩, ⟨-f', sx + sz, -d'⟩, ⟨-e', -d', sx + sy⟩⟩ : M3 K) 0).1 =
      if sy + sz ≤ |f'| then (if |f'| ≤ |e'| then some 2 else some 1) else (if sy + sz ≤ |e'| then some 2 else some 0) := by
    rw [pivot_zero]
    simp only [List.foldl, at', row, R3.get, abs_nonneg, if_true, abs_neg, abs_of_pos ha0, ha0.le]
    by_cases c1 : sy + sz ≤ |f'| <;> by_cases c2 : |f'| ≤ |e'| <;> by_cases c3 : sy + sz ≤ |e'| <;> simp only [c1, c2, c3, if_true, if_false]
  have hp1 : ∀ A : M3 K, (A.pivot 1).1 = if |A.rowY.y| ≤ |A.rowZ.y| then some 2 else some 1 := by
    intro A
    rw [pivot_one]
    simp only [List.foldl, at', row, R3.get, abs_nonneg, if_true]
    by_cases c : |A.rowY.y| ≤ |A.rowZ.y| <;> simp only [c, if_true, if_false]
  rw [hA] at hd ⊢
  have two : sy + sz ≤ |e'| → |f'| ≤ |e'| →
      (pivot (⟨⟨sy + sz, -f', -e'⟩, ⟨-f', sx + sz, -d'⟩, ⟨-e', -d', sx + sy⟩⟩ : M3 K) 0).1 = some 2 →
      ∃ x, solve ⟨⟨sy + sz, -f', -e'⟩, ⟨-f', sx + sz, -d'⟩, ⟨-e', -d', sx + sy⟩⟩ L U b = .ok x := by
    intro c3 c2 hp
    have he0 : e' ≠ 0 := (hpos _).2 (by linarith)
    refine solve_of hd 2 1 rfl rfl hp ?_ ?_ ?_ ?_ ?_ L U b
    · rw [hp1, if_neg]
      simp [swapRows, setRow, row, abs_of_pos hb0]
      linarith [abs_nonneg e']
    all_goals simp [swapRows, setRow, row, he0, hb0.ne']
    intro h
    have h1 : |(sx + sz) * e'| = |f' * d'| := by
      rw [show f' * d' = -((sx + sz) * e') by linear_combination -h, abs_neg]
    rw [abs_mul, abs_mul, abs_of_pos hb0] at h1
    have h2 : |f'| * |d'| ≤ |e'| * |d'| := mul_le_mul_of_nonneg_right c2 (abs_nonneg _)
    have h3 : |d'| < sx + sz := by linarith [abs_nonneg e']
    have h4 : |e'| * |d'| < |e'| * (sx + sz) := mul_lt_mul_of_pos_left h3 (by linarith)
    nlinarith
  by_cases c1 : sy + sz ≤ |f'|
  · by_cases c2 : |f'| ≤ |e'|
    · exact two (c1.trans c2) c2 (by rw [hp0, if_pos c1, if_pos c2])
    · have hf0 : f' ≠ 0 := (hpos _).2 (by linarith)
      refine solve_of hd 1 1 rfl rfl (by rw [hp0, if_pos c1, if_neg c2]) ?_ ?_ ?_ ?_ ?_ L U b
      · rw [hp1, if_neg]
        simp [swapRows, setRow, row]
        linarith [abs_nonneg d']
      all_goals simp [swapRows, setRow, row, hf0, hc0.ne']
      intro h
      linarith
  · by_cases c3 : sy + sz ≤ |e'|
    · exact two c3 (by linarith) (by rw [hp0, if_neg c1, if_pos c3])
    · have hp : (pivot (⟨⟨sy + sz, -f', -e'⟩, ⟨-f', sx + sz, -d'⟩, ⟨-e', -d', sx + sy⟩⟩ : M3 K) 0).1 = some 0 := by
        rw [hp0, if_neg c1, if_neg c3]
      by_cases c4 : sx + sz ≤ |d'|
      · have hd0 : d' ≠ 0 := (hpos _).2 (by linarith)
        refine solve_of hd 0 2 rfl rfl hp ?_ ?_ ?_ ?_ ?_ L U b
        · rw [hp1, if_pos]
          simpa [swapRows, setRow, row, abs_of_pos hb0] using c4
        all_goals simp [swapRows, setRow, row, hd0, ha0.ne']
        intro h
        exact last_pivot hx hy hz ha0 hb0 he hf c4 (by linear_combination -h)
      · refine solve_of hd 0 1 rfl rfl hp ?_ ?_ ?_ ?_ ?_ L U b
        · rw [hp1, if_neg]
          simpa [swapRows, setRow, row, abs_of_pos hb0] using c4
        all_goals simp [swapRows, setRow, row, hb0.ne', ha0.ne', hc0.ne']
        intro h
        linarith

/-- The inertia tensor of point masses, each given by its mass and its position: the sum of `m (r² - r ⊗ r)`. -/
def inertiaOf (points : List (K × R3 K)) : M3 K :=
  let sum (f : K × R3 K → K) : K := (points.map f).sum
  ⟨⟨sum fun p => p.1 * (p.2.y * p.2.y + p.2.z * p.2.z), sum fun p => -(p.1 * p.2.x * p.2.y), sum fun p => -(p.1 * p.2.x * p.2.z)⟩,
    ⟨sum fun p => -(p.1 * p.2.y * p.2.x), sum fun p => p.1 * (p.2.x * p.2.x + p.2.z * p.2.z), sum fun p => -(p.1 * p.2.y * p.2.z)⟩,
    ⟨sum fun p => -(p.1 * p.2.z * p.2.x), sum fun p => -(p.1 * p.2.z * p.2.y), sum fun p => p.1 * (p.2.x * p.2.x + p.2.y * p.2.y)⟩⟩

/-- The second moments of point masses. -/
def moments (points : List (K × R3 K)) : M3 K :=
  let sum (f : K × R3 K → K) : K := (points.map f).sum
  ⟨⟨sum fun p => p.1 * p.2.x * p.2.x, sum fun p => p.1 * p.2.x * p.2.y, sum fun p => p.1 * p.2.x * p.2.z⟩,
    ⟨sum fun p => p.1 * p.2.x * p.2.y, sum fun p => p.1 * p.2.y * p.2.y, sum fun p => p.1 * p.2.y * p.2.z⟩,
    ⟨sum fun p => p.1 * p.2.x * p.2.z, sum fun p => p.1 * p.2.y * p.2.z, sum fun p => p.1 * p.2.z * p.2.z⟩⟩

theorem moments_nonnegative (points : List (K × R3 K)) (h : ∀ p ∈ points, 0 ≤ p.1) : (moments points).Nonnegative := by
  intro v
  induction points with
  | nil => simp [moments, form, mulVec, R3.dot]
  | cons p points ih =>
    have h1 := ih (fun p hp => h p (List.mem_cons_of_mem _ hp))
    have h2 := mul_nonneg (h p List.mem_cons_self) (mul_self_nonneg (p.2.x * v.x + p.2.y * v.y + p.2.z * v.z))
    simp only [moments, form, mulVec, R3.dot, List.map_cons, List.sum_cons] at h1 ⊢
    nlinarith

theorem inertia_moments (points : List (K × R3 K)) : (moments points).inertia = inertiaOf points := by
  induction points with
  | nil => simp [moments, inertia, inertiaOf]
  | cons p points ih =>
    simp only [moments, inertia, inertiaOf, List.map_cons, List.sum_cons, M3.mk.injEq, R3.mk.injEq] at ih ⊢
    obtain ⟨⟨h1, h2, h3⟩, ⟨h4, h5, h6⟩, h7, h8, h9⟩ := ih
    refine ⟨⟨?_, ?_, ?_⟩, ⟨?_, ?_, ?_⟩, ?_, ?_, ?_⟩
    · rw [← h1]; ring
    · rw [← h2]; ring
    · rw [← h3]; ring
    · rw [← h4]; ring
    · rw [← h5]; ring
    · rw [← h6]; ring
    · rw [← h7]; ring
    · rw [← h8]; ring
    · rw [← h9]; ring

/-- C52: the resolution succeeds for the inertia tensor of any set of masses that is not singular (i.e., the masses are not on a line through
the origin), and yields the solution of the system. -/
theorem C52_inertia (points : List (K × R3 K)) (h : ∀ p ∈ points, 0 ≤ p.1) (hd : (inertiaOf points).det ≠ 0) (L U : M3 K) (b : R3 K) :
    ∃ x, (inertiaOf points).solve L U b = .ok x ∧ (inertiaOf points).mulVec x = b := by
  obtain ⟨x, hx⟩ := solve_inertia (S := moments points) rfl (moments_nonnegative points h) (by rw [inertia_moments]; exact hd) L U b
  rw [inertia_moments] at hx
  exact ⟨x, hx, (C52_solution _ _ _ _ _ hx).2⟩

/-- A diagonal matrix without zeros on the diagonal is inverted element by element. -/
theorem C52_diagonal (d b : R3 K) (h1 : d.x ≠ 0) (h2 : d.y ≠ 0) (h3 : d.z ≠ 0) (L U : M3 K) :
    (diagonal d).solve L U b = .ok ⟨b.x / d.x, b.y / d.y, b.z / d.z⟩ := by
  have hd : (diagonal d).det ≠ 0 := by
    simp [diagonal, det, h1, h2, h3]
  have hp0 : ((diagonal d).pivot 0).1 = some 0 := by
    rw [pivot_zero]
    have : ¬ |d.x| ≤ 0 := not_le.2 (abs_pos.2 h1)
    simp [List.foldl, at', row, R3.get, diagonal, this, h1]
  have hp1 : ((diagonal d).pivot 1).1 = some 1 := by
    rw [pivot_one]
    simp [List.foldl, at', row, R3.get, diagonal, h2]
  obtain ⟨x, hx⟩ := solve_of hd 0 1 rfl rfl hp0 hp1 h1 h2 h3
    (by simp [swapRows, setRow, row, diagonal, h1, h2]) L U b
  rw [hx]
  have := (C52_solution _ _ _ _ _ hx).2
  simp only [mulVec, R3.dot, diagonal, R3.ext_iff, zero_mul, add_zero, zero_add] at this
  obtain ⟨e1, e2, e3⟩ := this
  congr 1
  ext
  · rw [← e1]; field_simp
  · rw [← e2]; field_simp
  · rw [← e3]; field_simp

end

/-! ## Failures -/

/-- C52: the pivots are chosen, and compared with zero, in the original matrix and not in the reduced one.  As a result the resolution fails on
matrices that are not singular: a check fails on the first one below, even though it is symmetric and positive definite (its leading principal
minors are positive), and there is a division by zero on the second one. -/
theorem C52_pivot_counterexample :
    (∀ L U b, (⟨⟨1, 1, 0⟩, ⟨1, 2, 1⟩, ⟨0, 1, 2⟩⟩ : M3 ℚ).solve L U b = .error .check) ∧
    (0 < (1 : ℚ) ∧ 0 < (1 * 2 - 1 * 1 : ℚ) ∧ 0 < (⟨⟨1, 1, 0⟩, ⟨1, 2, 1⟩, ⟨0, 1, 2⟩⟩ : M3 ℚ).det) ∧
    (∀ L U b, (⟨⟨4, 4, 0⟩, ⟨2, 2, 1⟩, ⟨0, 1, 1⟩⟩ : M3 ℚ).solve L U b = .error .division) ∧
    (⟨⟨4, 4, 0⟩, ⟨2, 2, 1⟩, ⟨0, 1, 1⟩⟩ : M3 ℚ).det ≠ 0 := by
  refine ⟨fun L U b => ?_, by decide +kernel, fun L U b => ?_, by decide +kernel⟩
  · rw [C52_uninitialized _ L U identity identity]
    exact solve_error (b := ⟨0, 0, 0⟩) _ (by decide +kernel)
  · rw [C52_uninitialized _ L U identity identity]
    exact solve_error (b := ⟨0, 0, 0⟩) _ (by decide +kernel)

/-- Three unit masses on the axes and a heavier one off the axes. -/
example : (inertiaOf [((1 : ℚ), ⟨1, 0, 0⟩), (1, ⟨0, 1, 0⟩), (1, ⟨0, 0, 1⟩), (5, ⟨1, 2, 3⟩)]).det ≠ 0 := by decide +kernel

end Principia.Geometry.M3
