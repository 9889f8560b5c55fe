import Verif.Geometry.FormsDiagonalize

/-!
C53: the iterations allowed for the diagonalization suffice.

After each rotation one of the three elements above the diagonal vanishes.  Let `u ≥ v` be the absolute values of the other two.  The next rotation
yields `c v` and `|s| v`.  As `|s|` is at most `u` divided by the difference of two diagonal elements, the convergence is fast except when these two
diagonal elements are close.  After six rotations only one pair of diagonal elements may be close, and it is involved in one rotation out of three.
-/

set_option linter.unusedSimpArgs false
set_option linter.unusedVariables false
set_option linter.unusedSectionVars false

namespace Principia.Geometry.Form

/-- The elements above the diagonal, indexed by the coordinate that they do not involve. -/
def ev (A : M3 ℝ) : Fin 3 → ℝ
  | 0 => A.rowY.z
  | 1 => A.rowX.z
  | 2 => A.rowX.y

/-- The differences between the diagonal elements, indexed in the same way. -/
def gap (A : M3 ℝ) : Fin 3 → ℝ
  | 0 => A.rowZ.z - A.rowY.y
  | 1 => A.rowZ.z - A.rowX.x
  | 2 => A.rowY.y - A.rowX.x

/-- The coordinate that is not in a pair. -/
def opposite (i : Fin 3 × Fin 3) : Fin 3 :=
  if i = (0, 1) then 2 else if i = (0, 2) then 1 else 0

/-- The effect of a rotation. -/
structure Rotated (A A' : M3 ℝ) (m : Fin 3) (t c : ℝ) : Prop where
  t_le : |t| ≤ 1
  c_nonneg : 0 ≤ c
  c_eq : c * c * (1 + t * t) = 1
  t_gap : t * gap A m = ev A m * (1 - t * t)
  zero : ev A' m = 0
  others : ∀ i j, i ≠ j → i ≠ m → j ≠ m → ev A i = 0 → |ev A' j| = c * |ev A j| ∧ |ev A' i| = |t| * c * |ev A j|
  gap_self : gap A' m = gap A m + 2 * (t * ev A m)
  gap_others : ∀ k, k ≠ m → gap A' k = gap A k + t * ev A m ∨ gap A' k = gap A k - t * ev A m

theorem schur_tangent (A : M3 ℝ) (p q : Fin 3) (h : A.at' p q ≠ 0) :
    ∃ t c, schur A p q = (c, t * c) ∧ |t| ≤ 1 ∧ 0 ≤ c ∧ c * c * (1 + t * t) = 1 ∧ t * (A.at' q q - A.at' p p) = A.at' p q * (1 - t * t) := by
  unfold schur
  rw [if_pos h]
  extract_lets τ t c
  refine ⟨t, c, rfl, ?_, ?_, ?_, ?_⟩
  · have hr : 1 ≤ √(1 + τ * τ) := Real.one_le_sqrt.2 (by nlinarith [mul_self_nonneg τ])
    by_cases h0 : 0 ≤ τ
    · have e : t = 1 / (τ + √(1 + τ * τ)) := if_pos h0
      rw [e, abs_of_nonneg (by positivity), div_le_one (by linarith)]
      linarith
    · have e : t = 1 / (τ - √(1 + τ * τ)) := if_neg h0
      push Not at h0
      rw [e, abs_div, abs_one, div_le_one (by rw [abs_pos]; apply ne_of_lt; linarith), abs_of_neg (by linarith)]
      linarith
  · show 0 ≤ 1 / √(1 + t * t)
    positivity
  · have hs : √(1 + t * t) * √(1 + t * t) = 1 + t * t := Real.mul_self_sqrt (by nlinarith [mul_self_nonneg t])
    have hs0 : √(1 + t * t) ≠ 0 := by
      intro h; rw [h] at hs; nlinarith [mul_self_nonneg t]
    exact schur_rotation hs hs0
  · have hr : √(1 + τ * τ) * √(1 + τ * τ) = 1 + τ * τ := Real.mul_self_sqrt (by nlinarith [mul_self_nonneg τ])
    have hlt : |τ| < √(1 + τ * τ) := by
      apply Real.lt_sqrt_of_sq_lt
      rw [sq_abs]; nlinarith
    have ht : t * t + 2 * τ * t - 1 = 0 := by
      by_cases h0 : 0 ≤ τ
      · have e : t = 1 / (τ + √(1 + τ * τ)) := if_pos h0
        have hn : τ + √(1 + τ * τ) ≠ 0 := by
          have := abs_nonneg τ; apply ne_of_gt; linarith
        rw [e]; exact tangent_root hr hn
      · have e : t = 1 / (τ - √(1 + τ * τ)) := if_neg h0
        have hn : τ - √(1 + τ * τ) ≠ 0 := by
          have := neg_abs_le τ; apply ne_of_lt; push Not at h0; linarith [abs_nonneg τ]
        rw [e, sub_eq_add_neg]; exact tangent_root (by rw [neg_mul_neg]; exact hr) (by rw [← sub_eq_add_neg]; exact hn)
    have hτ : τ * (2 * A.at' p q) = A.at' q q - A.at' p p := by
      show (A.at' q q - A.at' p p) / (2 * A.at' p q) * (2 * A.at' p q) = _
      field_simp
    rw [← hτ]
    generalize A.at' p q = a
    linear_combination a * ht

theorem diag_low {a x y c t : ℝ} (hc : c * c * (1 + t * t) = 1) (ht : t * (y - x) = a * (1 - t * t)) :
    (c * x + -(t * c * a)) * c + -((c * a + -(t * c * y)) * (t * c)) = x - t * a := by
  linear_combination (x - t * a) * hc + c * c * t * ht

theorem diag_high {a x y c t : ℝ} (hc : c * c * (1 + t * t) = 1) (ht : t * (y - x) = a * (1 - t * t)) :
    (t * c * x + c * a) * (t * c) + (t * c * a + c * y) * c = y + t * a := by
  linear_combination (y + t * a) * hc - c * c * t * ht

theorem rotated {A : M3 ℝ} (hA : A.Symmetric) {i : Fin 3 × Fin 3} (hi : IsPair i) (h : A.at' i.1 i.2 ≠ 0) (J : M3 ℝ)
    (hJ : J = jacobiRotation i.1 i.2 (schur A i.1 i.2).1 (schur A i.1 i.2).2) :
    ∃ t c, Rotated A ((J.transpose.mul A).mul J) (opposite i) t c := by
  obtain ⟨t, c, h1, h2, h3, h4, h5⟩ := schur_tangent A i.1 i.2 h
  obtain ⟨_, hz, _⟩ := step_off hA hi J hJ
  refine ⟨t, c, h2, h3, h4, ?_, ?_, ?_, ?_, ?_⟩
  · rcases hi with rfl | rfl | rfl <;> exact h5
  · rcases hi with rfl | rfl | rfl <;> exact hz
  all_goals
    clear hz h
    rw [h1] at hJ
    obtain ⟨⟨a, f, e⟩, ⟨f', b, d⟩, ⟨e', d', g⟩⟩ := A
    simp [M3.Symmetric, M3.transpose] at hA
    obtain ⟨⟨rfl, rfl⟩, ⟨-, rfl⟩, -⟩ := hA
    subst hJ
  · intro j k hjk hj hk hz
    rcases hi with rfl | rfl | rfl <;> fin_cases j <;> fin_cases k <;> simp [opposite] at hjk hj hk <;>
      simp [ev] at hz <;>
      simp [-mul_eq_mul_left_iff, -mul_eq_mul_right_iff, ev, jacobiRotation, M3.set, M3.setRow, M3.row, R3.set, R3.get, M3.at', M3.identity,
        M3.mul, M3.transpose, R3.dot, hz, abs_mul, abs_of_nonneg h3] <;>
      (try constructor) <;> (try ring)
  · rcases hi with rfl | rfl | rfl <;> simp [M3.at', M3.row, R3.get] at h5 <;>
      simp [opposite, gap, ev, jacobiRotation, M3.set, M3.setRow, M3.row, R3.set, R3.get, M3.at', M3.identity, M3.mul, M3.transpose, R3.dot] <;>
      rw [diag_low h4 h5, diag_high h4 h5] <;> ring
  · intro k hk
    rcases hi with rfl | rfl | rfl <;> simp [M3.at', M3.row, R3.get] at h5 <;> fin_cases k <;> simp [opposite] at hk <;>
      simp [opposite, gap, ev, jacobiRotation, M3.set, M3.setRow, M3.row, R3.set, R3.get, M3.at', M3.identity, M3.mul, M3.transpose, R3.dot] <;>
      first
        | (rw [diag_low h4 h5]; left; ring1)
        | (rw [diag_low h4 h5]; right; ring1)
        | (rw [diag_high h4 h5]; left; ring1)
        | (rw [diag_high h4 h5]; right; ring1)

/-! ## The choice of the rotation -/

theorem ev_opposite (A : M3 ℝ) {i : Fin 3 × Fin 3} (hi : IsPair i) : ev A (opposite i) = A.at' i.1 i.2 := by
  rcases hi with rfl | rfl | rfl <;> rfl

/-- The algorithm chooses the element `m`. -/
def Picks (A : M3 ℝ) (m : Fin 3) : Prop :=
  ∃ i, (largest A).2 = some i ∧ IsPair i ∧ (largest A).1 = |A.at' i.1 i.2| ∧ opposite i = m

theorem picks_spec (A : M3 ℝ) : ∃ m, Picks A m ∧ ∀ k, |ev A k| ≤ |ev A m| := by
  obtain ⟨i, h1, h2, h3, h4⟩ := largest_spec A
  refine ⟨opposite i, ⟨i, h1, h2, h3, rfl⟩, fun k => ?_⟩
  rw [ev_opposite A h2, ← h3]
  obtain ⟨a, b, c⟩ := h4
  fin_cases k
  · exact c
  · exact b
  · exact a

/-- An iteration of the loop. -/
theorem jacobiLoop_step {F : M3 ℝ} {norm : ℝ} (hn : 0 ≤ norm) (n : Nat) {A V : M3 ℝ} (h : JInv F A V) {m : Fin 3} (hm : Picks A m) :
    (jacobiLoop norm (n + 1) (A, V) = some (A, V) ∧ Small A (ε * norm)) ∨
    ∃ A' V' t c, jacobiLoop norm (n + 1) (A, V) = jacobiLoop norm n (A', V') ∧ JInv F A' V' ∧ ev A m ≠ 0 ∧ Rotated A A' m t c ∧
      off A' = off A - ev A m ^ 2 := by
  obtain ⟨i, h1, h2, h3, rfl⟩ := hm
  obtain ⟨_, _, _, _, h4⟩ := largest_spec A
  have hl : jacobiLoop norm (n + 1) (A, V) = if (largest A).1 ≤ ε * norm then some (A, V) else (largest A).2.bind fun i =>
      jacobiLoop norm n
        (((jacobiRotation i.1 i.2 (schur A i.1 i.2).1 (schur A i.1 i.2).2).transpose.mul A).mul
          (jacobiRotation i.1 i.2 (schur A i.1 i.2).1 (schur A i.1 i.2).2),
          V.mul (jacobiRotation i.1 i.2 (schur A i.1 i.2).1 (schur A i.1 i.2).2)) := rfl
  rw [hl]
  by_cases hs : (largest A).1 ≤ ε * norm
  · rw [if_pos hs]
    exact .inl ⟨rfl, h4.1.trans hs, h4.2.1.trans hs, h4.2.2.trans hs⟩
  · right
    rw [if_neg hs, h1]
    simp only [Option.bind_some]
    have hne : A.at' i.1 i.2 ≠ 0 := by
      intro h0
      rw [h3, h0, abs_zero] at hs
      exact hs (mul_nonneg (by unfold ε; positivity) hn)
    obtain ⟨t, c, hr⟩ := rotated h.symmetric h2 hne _ rfl
    exact ⟨_, _, t, c, rfl, h.step h2 _ rfl, by rw [ev_opposite A h2]; exact hne, hr, by rw [ev_opposite A h2]; exact (step_off h.symmetric h2 _ rfl).2.2⟩

/-! ## The last iterations -/

/-- The role played by the pair of close diagonal elements. -/
inductive Role
  | zero
  | next
  | last

/-- The bounds after an iteration. -/
noncomputable def advance : Role × ℝ × ℝ → Role × ℝ × ℝ
  | (.zero, U, V) => (.last, V, U * V)
  | (.last, U, V) => (.next, V, U * V)
  | (.next, U, V) => (.zero, V, V / 2)

/-- The index of the pair that plays the given role. -/
def Role.index (z m n : Fin 3) : Role → Fin 3
  | .zero => z
  | .next => m
  | .last => n

/-- The element `z` vanishes, the element `m` is chosen, the elements `m` and `n` are bounded, and all the diagonal elements are far apart except
possibly the ones of `B`. -/
structure Config (A : M3 ℝ) (B : Fin 3) (g U V : ℝ) (z m n : Fin 3) : Prop where
  zm : z ≠ m
  zn : z ≠ n
  mn : m ≠ n
  ez : ev A z = 0
  le : |ev A n| ≤ |ev A m|
  picks : Picks A m
  u : ev A m ^ 2 ≤ U * g ^ 2
  v : ev A n ^ 2 ≤ V * g ^ 2
  gaps : ∀ k, k ≠ B → g + |ev A m| + 49 / 20 * |ev A n| ≤ |gap A k|

/-- The state after some iterations. -/
def State (A : M3 ℝ) (B : Fin 3) (g : ℝ) (s : Role × ℝ × ℝ) : Prop :=
  (∀ k, ev A k = 0) ∨ ∃ z m n, Config A B g s.2.1 s.2.2 z m n ∧ s.1.index z m n = B

theorem third {z m n k : Fin 3} (h1 : z ≠ m) (h2 : z ≠ n) (h3 : m ≠ n) : k = z ∨ k = m ∨ k = n := by
  revert z m n k; decide

/-- The cosine and the sine of the angle of a rotation: the weighted sum decreases. -/
theorem cos_sin_le {t c : ℝ} (h1 : |t| ≤ 1) (h2 : 0 ≤ c) (h3 : c * c * (1 + t * t) = 1) : c + 49 / 20 * (|t| * c) ≤ 49 / 20 := by
  have h4 : t * t = |t| * |t| := (abs_mul_abs_self t).symm
  rw [h4] at h3
  have h5 := abs_nonneg t
  generalize |t| = x at *
  have h6 : (c + 49 / 20 * (x * c)) ^ 2 ≤ (49 / 20) ^ 2 := by
    have : (c + 49 / 20 * (x * c)) ^ 2 = c * c * (1 + 49 / 20 * x) ^ 2 := by ring
    rw [this]
    have : (49 / 20 : ℝ) ^ 2 = c * c * (1 + x * x) * (49 / 20) ^ 2 := by rw [h3, one_mul]
    rw [this, mul_assoc (c * c) (1 + x * x)]
    apply mul_le_mul_of_nonneg_left _ (mul_nonneg h2 h2)
    nlinarith
  exact (sq_le_sq₀ (by positivity) (by norm_num)).1 h6

/-- What is common to all the iterations. -/
theorem Config.advance_common {A A' : M3 ℝ} {B : Fin 3} {g U V t c : ℝ} {z m n : Fin 3} (h : Config A B g U V z m n) (hr : Rotated A A' m t c) :
    |ev A' n| = c * |ev A n| ∧ |ev A' z| = |t| * c * |ev A n| ∧ ev A' m = 0 ∧ |ev A' z| ≤ |ev A' n| ∧ ev A' n ^ 2 ≤ V * g ^ 2 ∧
      ∀ k, k ≠ B → g + |ev A' n| + 49 / 20 * |ev A' z| ≤ |gap A' k| := by
  obtain ⟨h1, h2⟩ := hr.others z n h.zn h.zm h.mn.symm h.ez
  have hv := abs_nonneg (ev A n)
  have ht := abs_nonneg t
  have hc1 : c ≤ 1 := by nlinarith [hr.c_eq, hr.c_nonneg, mul_self_nonneg t]
  refine ⟨h1, h2, hr.zero, ?_, ?_, ?_⟩
  · rw [h1, h2, mul_assoc]
    exact mul_le_of_le_one_left (mul_nonneg hr.c_nonneg hv) hr.t_le
  · refine le_trans ?_ h.v
    rw [← sq_abs (ev A' n), ← sq_abs (ev A n), h1]
    exact pow_le_pow_left₀ (mul_nonneg hr.c_nonneg hv) (mul_le_of_le_one_left hv hc1) 2
  · intro k hk
    have hg := h.gaps k hk
    have hcs := cos_sin_le hr.t_le hr.c_nonneg hr.c_eq
    have h3 : |ev A' n| + 49 / 20 * |ev A' z| ≤ 49 / 20 * |ev A n| := by
      rw [h1, h2]
      have := mul_le_mul_of_nonneg_right hcs hv
      linarith
    have h4 : |gap A k| - |ev A m| ≤ |gap A' k| := by
      by_cases hkm : k = m
      · subst hkm
        rw [hr.gap_self]
        have h5 : 0 ≤ gap A k * (t * ev A k) := by
          have : gap A k * (t * ev A k) = ev A k * ev A k * (1 - t * t) := by linear_combination ev A k * hr.t_gap
          rw [this]
          refine mul_nonneg (mul_self_nonneg _) ?_
          have := mul_le_mul hr.t_le hr.t_le ht zero_le_one
          rw [abs_mul_abs_self] at this
          linarith
        have h6 : |gap A k| ≤ |gap A k + 2 * (t * ev A k)| := by
          apply sq_le_sq.1
          nlinarith [mul_self_nonneg (t * ev A k)]
        linarith [abs_nonneg (ev A k)]
      · have h5 : |t * ev A m| ≤ |ev A m| := by
          rw [abs_mul]; exact mul_le_of_le_one_left (abs_nonneg _) hr.t_le
        rcases hr.gap_others k hkm with h6 | h6
        · have := abs_sub_abs_le_abs_sub (gap A k) (-(t * ev A m))
          rw [abs_neg, sub_neg_eq_add] at this
          rw [h6]; linarith
        · have := abs_sub_abs_le_abs_sub (gap A k) (t * ev A m)
          rw [h6]; linarith
    linarith

/-- The next element is chosen. -/
theorem picks_of {A : M3 ℝ} {z m n : Fin 3} (zm : z ≠ m) (zn : z ≠ n) (mn : m ≠ n) (ez : ev A z = 0) (hlt : |ev A n| < |ev A m|) : Picks A m := by
  obtain ⟨p, h1, h2⟩ := picks_spec A
  rcases third (k := p) zm zn mn with rfl | rfl | rfl
  · have := h2 m
    rw [ez, abs_zero] at this
    linarith [abs_nonneg (ev A n)]
  · exact h1
  · linarith [h2 m]

/-- An iteration on diagonal elements that are far apart. -/
theorem Config.good {A A' : M3 ℝ} {B : Fin 3} {g U V t c : ℝ} {z m n : Fin 3} (h : Config A B g U V z m n) (hg : 0 ≤ g) (hr : Rotated A A' m t c)
    (hB : m ≠ B) (hne : ev A m ≠ 0) : (∀ k, ev A' k = 0) ∨ Config A' B g V (U * V) m n z := by
  obtain ⟨h1, h2, h3, h4, h5, h6⟩ := h.advance_common hr
  by_cases hv : ev A n = 0
  · left
    rw [hv, abs_zero, mul_zero, abs_eq_zero] at h1 h2
    intro k
    rcases third (k := k) h.zm h.zn h.mn with rfl | rfl | rfl <;> assumption
  · right
    have hu : 0 < |ev A m| := abs_pos.2 hne
    have hvp : 0 < |ev A n| := abs_pos.2 hv
    have hgap := h.gaps m hB
    have hg0 : 0 < g := by
      rcases hg.eq_or_lt with h0 | h0
      · have := h.u
        rw [← h0] at this
        have : 0 < ev A m ^ 2 := by positivity
        nlinarith
      · exact h0
    have htg : |t| * |gap A m| = |ev A m| * (1 - t * t) := by
      rw [← abs_mul, hr.t_gap, abs_mul, abs_of_nonneg (a := 1 - t * t)]
      have := mul_le_mul hr.t_le hr.t_le (abs_nonneg t) zero_le_one
      rw [abs_mul_abs_self] at this
      linarith
    have hg1 : |ev A m| + g < |gap A m| := by linarith
    have ht : |t| * g ≤ |ev A m| := by
      have : |t| * g ≤ |t| * |gap A m| := mul_le_mul_of_nonneg_left (by linarith) (abs_nonneg t)
      have : |ev A m| * (1 - t * t) ≤ |ev A m| := mul_le_of_le_one_right hu.le (by nlinarith [mul_self_nonneg t])
      linarith
    have ht1 : |t| < 1 := by
      by_contra hcon
      have h1 : |t| = 1 := le_antisymm hr.t_le (not_lt.1 hcon)
      rw [h1, ← abs_mul_abs_self t, h1] at htg
      linarith
    have ht2 : t ^ 2 ≤ U := by
      have h7 : (|t| * g) ^ 2 ≤ |ev A m| ^ 2 := pow_le_pow_left₀ (by positivity) ht 2
      rw [sq_abs, mul_pow, sq_abs] at h7
      have h8 := h7.trans h.u
      exact le_of_mul_le_mul_right h8 (by positivity)
    have hc0 : 0 < c := by
      rcases hr.c_nonneg.eq_or_lt with h0 | h0
      · have := hr.c_eq; rw [← h0] at this; simp at this
      · exact h0
    have hlt : |ev A' z| < |ev A' n| := by
      rw [h1, h2, mul_assoc]
      exact mul_lt_of_lt_one_left (mul_pos hc0 hvp) ht1
    refine ⟨h.mn, h.zm.symm, h.zn.symm, h3, h4, picks_of h.mn h.zm.symm h.zn.symm h3 hlt, h5, ?_, h6⟩
    have hc1 : c ≤ 1 := by nlinarith [hr.c_eq, hr.c_nonneg, mul_self_nonneg t]
    have : ev A' z ^ 2 ≤ t ^ 2 * ev A n ^ 2 := by
      rw [← sq_abs (ev A' z), ← sq_abs (ev A n), ← sq_abs t, h2, ← mul_pow]
      refine pow_le_pow_left₀ (by positivity) ?_ 2
      rw [mul_assoc]
      exact mul_le_mul_of_nonneg_left (mul_le_of_le_one_left hvp.le hc1) (abs_nonneg t)
    refine this.trans ?_
    rw [mul_assoc]
    exact mul_le_mul ht2 h.v (sq_nonneg _) ((sq_nonneg t).trans ht2)

/-- An iteration on diagonal elements that may be close. -/
theorem Config.bad {A A' : M3 ℝ} {B : Fin 3} {g U V t c : ℝ} {z m n : Fin 3} (h : Config A B g U V z m n) (hr : Rotated A A' m t c) :
    (∀ k, ev A' k = 0) ∨ ∃ m' n', Config A' B g V (V / 2) m m' n' := by
  obtain ⟨h1, h2, h3, h4, h5, h6⟩ := h.advance_common hr
  have hz : ev A' z ^ 2 ≤ V / 2 * g ^ 2 := by
    have h7 : 2 * ev A' z ^ 2 ≤ ev A n ^ 2 := by
      rw [← sq_abs (ev A' z), ← sq_abs (ev A n), h2, mul_pow, mul_pow, sq_abs]
      have h8 : t ^ 2 ≤ 1 := by rw [← sq_abs]; exact pow_le_one₀ (abs_nonneg t) hr.t_le
      have h9 : 2 * (t ^ 2 * c ^ 2) ≤ 1 := by nlinarith [hr.c_eq, sq_nonneg c]
      have := mul_le_mul_of_nonneg_right h9 (sq_nonneg |ev A n|)
      linarith
    linarith [h.v]
  obtain ⟨p, p1, p2⟩ := picks_spec A'
  rcases third (k := p) h.zm h.zn h.mn with rfl | rfl | rfl
  · -- A tie.
    have he : |ev A' p| = |ev A' n| := le_antisymm h4 (p2 n)
    have hs : ev A' p ^ 2 = ev A' n ^ 2 := by rw [← sq_abs, he, sq_abs]
    refine .inr ⟨p, n, h.zm.symm, h.mn, h.zn, h3, he.ge, p1, hs ▸ h5, hs ▸ hz, fun k hk => ?_⟩
    have := h6 k hk
    rw [he] at this ⊢
    exact this
  · left
    intro k
    have := p2 k
    rw [h3, abs_zero] at this
    exact abs_eq_zero.1 (le_antisymm this (abs_nonneg _))
  · exact .inr ⟨p, z, h.mn, h.zm.symm, h.zn.symm, h3, h4, p1, h5, hz, h6⟩

theorem State.step {A A' : M3 ℝ} {B : Fin 3} {g t c : ℝ} {s : Role × ℝ × ℝ} {m : Fin 3} (h : State A B g s) (hg : 0 ≤ g) (hm : Picks A m)
    (hne : ev A m ≠ 0) (hr : Rotated A A' m t c) : State A' B g (advance s) := by
  rcases h with h | ⟨z, m', n, h, hrole⟩
  · exact absurd (h m) hne
  · obtain rfl : m = m' := by
      obtain ⟨i, h1, _, _, h2⟩ := hm
      obtain ⟨j, h3, _, _, h4⟩ := h.picks
      rw [← h2, ← h4, Option.some.inj (h1.symm.trans h3)]
    obtain ⟨r, U, V⟩ := s
    cases r with
    | zero =>
      obtain rfl : z = B := hrole
      exact (h.good hg hr h.zm.symm hne).imp id fun h => ⟨m, n, z, h, rfl⟩
    | last =>
      obtain rfl : n = B := hrole
      exact (h.good hg hr h.mn hne).imp id fun h => ⟨m, n, z, h, rfl⟩
    | next =>
      obtain rfl : m = B := hrole
      exact (h.bad hr).imp id fun ⟨m', n', h⟩ => ⟨m, m', n', h, rfl⟩

theorem small_of_state {A : M3 ℝ} {B : Fin 3} {g x : ℝ} {s : Role × ℝ × ℝ} (h : State A B g s) (hx : 0 ≤ x) (hs : s.2.1 * g ^ 2 ≤ x ^ 2) : Small A x := by
  have : ∀ k, |ev A k| ≤ x := by
    intro k
    rcases h with h | ⟨z, m, n, h, _⟩
    · rw [h k, abs_zero]; exact hx
    · have hm : |ev A m| ≤ x := abs_le_of_sq_le_sq (h.u.trans hs) hx
      rcases third (k := k) h.zm h.zn h.mn with rfl | rfl | rfl
      · rw [h.ez, abs_zero]; exact hx
      · exact hm
      · exact h.le.trans hm
  exact ⟨this 2, this 1, this 0⟩

theorem jacobiLoop_state {F : M3 ℝ} {norm g : ℝ} (hn : 0 ≤ norm) (hg : 0 ≤ g) {B : Fin 3} (n : Nat) {A V : M3 ℝ} {s : Role × ℝ × ℝ}
    (h : JInv F A V) (hs : State A B g s) :
    ∃ A' V', jacobiLoop norm n (A, V) = some (A', V') ∧ JInv F A' V' ∧ (Small A' (ε * norm) ∨ State A' B g (advance^[n] s)) := by
  induction n generalizing A V s with
  | zero => exact ⟨A, V, rfl, h, .inr hs⟩
  | succ n ih =>
    obtain ⟨m, hm, _⟩ := picks_spec A
    rcases jacobiLoop_step hn n h hm with ⟨h1, h2⟩ | ⟨A', V', t, c, h1, h2, h3, h4, _⟩
    · exact ⟨A, V, h1, h, .inl h2⟩
    · obtain ⟨A'', V'', e1, e2, e3⟩ := ih h2 (hs.step hg hm h3 h4)
      exact ⟨A'', V'', h1.trans e1, e2, e3⟩

/-- The bounds after ten iterations. -/
theorem advance_ten (r : Role) : (advance^[10] (r, 1 / 12, 1 / 24)).2.1 ≤ 8 * (2 ^ (-59 : ℤ)) ^ 2 := by
  cases r <;> simp only [Function.iterate_succ, Function.iterate_zero, Function.comp, id, advance] <;> norm_num

/-! ## The first iterations -/

/-- The sum of the squares of the elements above the diagonal and of the deviations of the diagonal elements from their mean. -/
noncomputable def total (A : M3 ℝ) : ℝ := (gap A 0 ^ 2 + gap A 1 ^ 2 + gap A 2 ^ 2) / 3 + 2 * off A

theorem total_eq {A : M3 ℝ} (h : A.Symmetric) : total A = frobeniusSq A - A.trace ^ 2 / 3 := by
  simp [M3.Symmetric, M3.ext_iff, R3.ext_iff, M3.transpose] at h
  obtain ⟨⟨h1, h2⟩, ⟨h3, h4⟩, h5, h6⟩ := h
  simp [total, gap, off, frobeniusSq, R3.normSq, M3.trace, h1, h2, h4]
  ring

theorem JInv.total {F A V : M3 ℝ} (h : JInv F A V) (hF : F.Symmetric) : total A = total F := by
  rw [total_eq h.symmetric, total_eq hF, h.conj, trace_conj h.direct, frobeniusSq_conj h.direct]

/-- Only one pair of diagonal elements may be close. -/
theorem gaps_large (A : M3 ℝ) : ∃ B, ∀ k, k ≠ B → gap A 0 ^ 2 + gap A 1 ^ 2 + gap A 2 ^ 2 ≤ 6 * gap A k ^ 2 := by
  have h : gap A 1 = gap A 0 + gap A 2 := by simp [gap]
  have e0 : gap A 0 ^ 2 ≤ 2 * gap A 1 ^ 2 + 2 * gap A 2 ^ 2 := by rw [h]; nlinarith [sq_nonneg (gap A 0 + gap A 2 + gap A 2)]
  have e1 : gap A 1 ^ 2 ≤ 2 * gap A 0 ^ 2 + 2 * gap A 2 ^ 2 := by rw [h]; nlinarith [sq_nonneg (gap A 0 - gap A 2)]
  have e2 : gap A 2 ^ 2 ≤ 2 * gap A 0 ^ 2 + 2 * gap A 1 ^ 2 := by rw [h]; nlinarith [sq_nonneg (gap A 0 + gap A 2 + gap A 0)]
  rcases le_total (gap A 0 ^ 2) (gap A 1 ^ 2) with h01 | h01
  · rcases le_total (gap A 0 ^ 2) (gap A 2 ^ 2) with h02 | h02
    · refine ⟨0, fun k hk => ?_⟩
      fin_cases k
      · exact absurd rfl hk
      · show gap A 0 ^ 2 + gap A 1 ^ 2 + gap A 2 ^ 2 ≤ 6 * gap A 1 ^ 2
        linarith
      · show gap A 0 ^ 2 + gap A 1 ^ 2 + gap A 2 ^ 2 ≤ 6 * gap A 2 ^ 2
        linarith
    · refine ⟨2, fun k hk => ?_⟩
      fin_cases k
      · show gap A 0 ^ 2 + gap A 1 ^ 2 + gap A 2 ^ 2 ≤ 6 * gap A 0 ^ 2
        linarith
      · show gap A 0 ^ 2 + gap A 1 ^ 2 + gap A 2 ^ 2 ≤ 6 * gap A 1 ^ 2
        linarith
      · exact absurd rfl hk
  · rcases le_total (gap A 1 ^ 2) (gap A 2 ^ 2) with h12 | h12
    · refine ⟨1, fun k hk => ?_⟩
      fin_cases k
      · show gap A 0 ^ 2 + gap A 1 ^ 2 + gap A 2 ^ 2 ≤ 6 * gap A 0 ^ 2
        linarith
      · exact absurd rfl hk
      · show gap A 0 ^ 2 + gap A 1 ^ 2 + gap A 2 ^ 2 ≤ 6 * gap A 2 ^ 2
        linarith
    · refine ⟨2, fun k hk => ?_⟩
      fin_cases k
      · show gap A 0 ^ 2 + gap A 1 ^ 2 + gap A 2 ^ 2 ≤ 6 * gap A 0 ^ 2
        linarith
      · show gap A 0 ^ 2 + gap A 1 ^ 2 + gap A 2 ^ 2 ≤ 6 * gap A 1 ^ 2
        linarith
      · exact absurd rfl hk

theorem off_eq {A : M3 ℝ} {z m n : Fin 3} (zm : z ≠ m) (zn : z ≠ n) (mn : m ≠ n) : off A = ev A z ^ 2 + ev A m ^ 2 + ev A n ^ 2 := by
  fin_cases z <;> fin_cases m <;> fin_cases n <;> simp at zm zn mn <;> simp [off, ev] <;> ring

/-- The state after the first iterations. -/
theorem state_of {A : M3 ℝ} (hz : HasZero A) (h : off A * 96 ≤ total A) : ∃ B r, State A B √(total A / 8) (r, 1 / 12, 1 / 24) := by
  obtain ⟨B, hB⟩ := gaps_large A
  obtain ⟨m, hm, hmax⟩ := picks_spec A
  by_cases h0 : ev A m = 0
  · refine ⟨B, .zero, .inl fun k => ?_⟩
    have := hmax k
    rw [h0, abs_zero] at this
    exact abs_eq_zero.1 (le_antisymm this (abs_nonneg _))
  have hz' : ∃ z, ev A z = 0 := by
    rcases hz with h | h | h
    · exact ⟨2, h⟩
    · exact ⟨1, h⟩
    · exact ⟨0, h⟩
  obtain ⟨z, ez⟩ := hz'
  have zm : z ≠ m := fun h => h0 (h ▸ ez)
  obtain ⟨n, zn, mn⟩ : ∃ n, z ≠ n ∧ m ≠ n := by
    revert zm; clear * -; revert z m; decide
  have ho := off_eq (A := A) zm zn mn
  rw [ez] at ho
  have hle := hmax n
  have ht0 : 0 ≤ total A := by
    have : 0 ≤ off A := by unfold off; positivity
    linarith
  set g := √(total A / 8) with hg
  have hg2 : g ^ 2 = total A / 8 := Real.sq_sqrt (by linarith)
  have hg0 : 0 ≤ g := Real.sqrt_nonneg _
  have hsq : ev A n ^ 2 ≤ ev A m ^ 2 := sq_le_sq.2 hle
  have hc : Config A B g (1 / 12) (1 / 24) z m n := by
    refine ⟨zm, zn, mn, ez, hle, hm, ?_, ?_, ?_⟩
    · rw [hg2]; nlinarith [sq_nonneg (ev A n)]
    · rw [hg2]; nlinarith
    · intro k hk
      have h1 := hB k hk
      have h2 : |ev A m| + 49 / 20 * |ev A n| ≤ 71 / 100 * g := by
        apply le_of_sq_le_sq _ (by positivity)
        rw [mul_pow, hg2]
        have e1 : |ev A m| ^ 2 = ev A m ^ 2 := sq_abs _
        have e2 : |ev A n| ^ 2 = ev A n ^ 2 := sq_abs _
        have p1 := abs_nonneg (ev A n)
        have : (|ev A m| + 49 / 20 * |ev A n|) ^ 2 ≤ (69 / 20) ^ 2 / 2 * (|ev A m| ^ 2 + |ev A n| ^ 2) := by
          generalize |ev A m| = u at *
          generalize |ev A n| = v at *
          nlinarith [mul_nonneg (sub_nonneg.2 hle) p1, mul_nonneg (sub_nonneg.2 hle) (sub_nonneg.2 hle)]
        rw [e1, e2] at this
        nlinarith
      have h3 : (171 / 100 * g) ≤ |gap A k| := by
        apply le_of_sq_le_sq _ (abs_nonneg _)
        rw [mul_pow, hg2, sq_abs]
        have : total A = (gap A 0 ^ 2 + gap A 1 ^ 2 + gap A 2 ^ 2) / 3 + 2 * off A := rfl
        linarith
      linarith
  by_cases b1 : z = B
  · exact ⟨B, .zero, .inr ⟨z, m, n, hc, b1⟩⟩
  · by_cases b2 : m = B
    · exact ⟨B, .next, .inr ⟨z, m, n, hc, b2⟩⟩
    · refine ⟨B, .last, .inr ⟨z, m, n, hc, ?_⟩⟩
      rcases third (k := B) zm zn mn with h | h | h
      · exact absurd h.symm b1
      · exact absurd h.symm b2
      · exact h.symm

theorem frobeniusNorm_sq (F : M3 ℝ) : frobeniusNorm F ^ 2 = frobeniusSq F := by
  unfold frobeniusNorm frobeniusSq
  apply Real.sq_sqrt
  simp only [R3.normSq]
  nlinarith [mul_self_nonneg F.rowX.x, mul_self_nonneg F.rowX.y, mul_self_nonneg F.rowX.z, mul_self_nonneg F.rowY.x, mul_self_nonneg F.rowY.y,
    mul_self_nonneg F.rowY.z, mul_self_nonneg F.rowZ.x, mul_self_nonneg F.rowZ.y, mul_self_nonneg F.rowZ.z]

theorem jacobiLoop_first {F : M3 ℝ} (hF : F.Symmetric) (k : Nat) {A V : M3 ℝ} (h : JInv F A V) (hz : HasZero A) (ho : off A * 96 ≤ total F * 2 ^ k) :
    ∃ A' V', jacobiLoop (frobeniusNorm F) (k + 10) (A, V) = some (A', V') ∧ JInv F A' V' ∧ Small A' (ε * frobeniusNorm F) := by
  have hn : 0 ≤ frobeniusNorm F := Real.sqrt_nonneg _
  induction k generalizing A V with
  | zero =>
    obtain ⟨B, r, hs⟩ := state_of hz (by rw [h.total hF]; linarith)
    obtain ⟨A', V', e1, e2, e3⟩ := jacobiLoop_state hn (Real.sqrt_nonneg _) 10 h hs
    refine ⟨A', V', by rw [Nat.zero_add]; exact e1, e2, ?_⟩
    rcases e3 with e3 | e3
    · exact e3
    · have hε : ε = 2 ^ (-59 : ℤ) := by unfold ε; norm_num
      refine small_of_state e3 (mul_nonneg (by rw [hε]; positivity) hn) ?_
      have ht : total A ≤ frobeniusSq F := by
        rw [h.total hF, total_eq hF]; nlinarith [sq_nonneg F.trace]
      have ht0 : 0 ≤ total A := by unfold total off; positivity
      rw [Real.sq_sqrt (by linarith), mul_pow, frobeniusNorm_sq, hε]
      have h10 := advance_ten r
      calc _ ≤ 8 * (2 ^ (-59 : ℤ)) ^ 2 * (total A / 8) := mul_le_mul_of_nonneg_right h10 (by linarith)
        _ = (2 ^ (-59 : ℤ)) ^ 2 * total A := by ring
        _ ≤ _ := mul_le_mul_of_nonneg_left ht (by positivity)
  | succ k ih =>
    obtain ⟨m, hm, hmax⟩ := picks_spec A
    rw [show k + 1 + 10 = (k + 10) + 1 by omega]
    rcases jacobiLoop_step hn (k + 10) h hm with ⟨h1, h2⟩ | ⟨A', V', t, c, h1, h2, h3, h4, h5⟩
    · exact ⟨A, V, h1, h, h2⟩
    · have hz' : HasZero A' := by
        have := h4.zero
        fin_cases m
        · exact .inr (.inr this)
        · exact .inr (.inl this)
        · exact .inl this
      have hle := off_le' (A := A) (m := |ev A m|) ⟨hmax 2, hmax 1, hmax 0⟩ hz
      rw [sq_abs] at hle
      obtain ⟨A'', V'', e1, e2, e3⟩ := ih h2 hz' (by rw [h5]; rw [pow_succ] at ho; linarith)
      exact ⟨A'', V'', h1.trans e1, e2, e3⟩

/-- The iterations suffice. -/
theorem jacobiLoop_converges (F : M3 ℝ) (hF : F.Symmetric) :
    ∃ A V, jacobiLoop (frobeniusNorm F) maxIterations (F, M3.identity) = some (A, V) ∧ JInv F A V ∧ Small A (ε * frobeniusNorm F) := by
  have h : JInv F F M3.identity := by
    refine ⟨Direct.identity, hF, ?_⟩
    rw [mul_identity']; exact (identity_mul' F).symm
  obtain ⟨m, hm, hmax⟩ := picks_spec F
  rcases jacobiLoop_step (norm := frobeniusNorm F) (Real.sqrt_nonneg _) 15 h hm with ⟨h1, h2⟩ | ⟨A', V', t, c, h1, h2, h3, h4, h5⟩
  · exact ⟨F, _, h1, h, h2⟩
  · have hz' : HasZero A' := by
      have := h4.zero
      fin_cases m
      · exact .inr (.inr this)
      · exact .inr (.inl this)
      · exact .inl this
    have hle := off_le (A := F) (m := |ev F m|) ⟨hmax 2, hmax 1, hmax 0⟩
    rw [sq_abs] at hle
    have ht : 2 * off F ≤ total F := by
      unfold total; nlinarith [sq_nonneg (gap F 0), sq_nonneg (gap F 1), sq_nonneg (gap F 2)]
    obtain ⟨A'', V'', e1, e2, e3⟩ := jacobiLoop_first hF 5 h2 hz' (by rw [h5]; linarith)
    exact ⟨A'', V'', h1.trans e1, e2, e3⟩

/-! ## The properties -/

/-- C53: the diagonalization always yields a diagonal form whose elements are increasing, and a rotation that maps it to the original form, with an
error (in the sense of the Frobenius norm) that is at most the original norm divided by 2⁵⁷.  The trace is preserved. -/
theorem C53_diagonalize (F : M3 ℝ) (hF : F.Symmetric) :
    ∃ d r, diagonalize F = some (M3.diagonal d, r) ∧ r.IsUnit ∧ d.x ≤ d.y ∧ d.y ≤ d.z ∧ d.x + d.y + d.z = F.trace ∧
      frobeniusNorm (r.applyForm (M3.diagonal d) - F) ≤ 2 ^ (-57 : ℤ) * frobeniusNorm F := by
  obtain ⟨A, V, d, r, h1, h2, h3, h4, h5, h6, h7, h8, _⟩ := diagonalize_spec F hF
  obtain ⟨A', V', e1, e2, e3⟩ := jacobiLoop_converges F hF
  obtain ⟨rfl, rfl⟩ : A = A' ∧ V = V' := by
    rw [h1] at e1
    exact ⟨congrArg Prod.fst (Option.some.inj e1), congrArg Prod.snd (Option.some.inj e1)⟩
  refine ⟨d, r, h3, h4, h5, h6, by rw [← h7]; simp [M3.trace, M3.diagonal], ?_⟩
  have hn : 0 ≤ frobeniusNorm F := Real.sqrt_nonneg _
  apply le_of_sq_le_sq _ (by positivity)
  rw [frobeniusNorm_sq, h8]
  have := off_le e3
  have hε : ε = 2 ^ (-59 : ℤ) := by unfold ε; norm_num
  rw [hε, mul_pow] at this
  rw [mul_pow]
  have h0 : 0 ≤ frobeniusNorm F ^ 2 := sq_nonneg _
  have : (2 ^ (-57 : ℤ) : ℝ) ^ 2 = 16 * (2 ^ (-59 : ℤ)) ^ 2 := by norm_num
  rw [this]
  have h9 : (0 : ℝ) ≤ (2 ^ (-59 : ℤ)) ^ 2 * frobeniusNorm F ^ 2 := by positivity
  linarith

/-- C53: a form that is already diagonal is diagonalized without any error, whatever the order of its elements. -/
theorem C53_diagonalize_exact (e : R3 ℝ) :
    ∃ d r, diagonalize (M3.diagonal e) = some (M3.diagonal d, r) ∧ r.IsUnit ∧ d.x ≤ d.y ∧ d.y ≤ d.z ∧
      r.applyForm (M3.diagonal d) = M3.diagonal e := by
  have hF : (M3.diagonal e).Symmetric := by simp [M3.Symmetric, M3.diagonal, M3.transpose]
  obtain ⟨A, V, d, r, h1, h2, h3, h4, h5, h6, h7, h8, _⟩ := diagonalize_spec _ hF
  refine ⟨d, r, h3, h4, h5, h6, ?_⟩
  have h0 : off (M3.diagonal e) = 0 := by simp [off, M3.diagonal]
  have hA : off A = 0 := by
    obtain ⟨m, hm, hmax⟩ := picks_spec (M3.diagonal e)
    have h : JInv (M3.diagonal e) (M3.diagonal e) M3.identity := by
      refine ⟨Direct.identity, hF, ?_⟩
      rw [mul_identity']; exact (identity_mul' _).symm
    rcases jacobiLoop_step (norm := frobeniusNorm (M3.diagonal e)) (Real.sqrt_nonneg _) 15 h hm with ⟨e1, _⟩ | ⟨A', V', t, c, e1, _, e2, _, _⟩
    · have e1 : jacobiLoop (frobeniusNorm (M3.diagonal e)) maxIterations (M3.diagonal e, M3.identity) = some (M3.diagonal e, M3.identity) := e1
      rw [h1] at e1
      have e2 : A = M3.diagonal e := congrArg Prod.fst (Option.some.inj e1)
      rw [e2]
      exact h0
    · exfalso
      apply e2
      fin_cases m <;> simp [ev, M3.diagonal]
  rw [hA, mul_zero] at h8
  generalize r.applyForm (M3.diagonal d) = B at *
  generalize M3.diagonal e = C at *
  simp only [frobeniusSq, R3.normSq, M3.sub_rowX, M3.sub_rowY, M3.sub_rowZ, R3.sub_x, R3.sub_y, R3.sub_z] at h8
  have z : ∀ a b : ℝ, (a - b) * (a - b) = 0 → a = b := fun a b h => sub_eq_zero.1 (mul_self_eq_zero.1 h)
  have n : ∀ a b : ℝ, 0 ≤ (a - b) * (a - b) := fun a b => mul_self_nonneg _
  have := n B.rowX.x C.rowX.x
  have := n B.rowX.y C.rowX.y
  have := n B.rowX.z C.rowX.z
  have := n B.rowY.x C.rowY.x
  have := n B.rowY.y C.rowY.y
  have := n B.rowY.z C.rowY.z
  have := n B.rowZ.x C.rowZ.x
  have := n B.rowZ.y C.rowZ.y
  have := n B.rowZ.z C.rowZ.z
  refine M3.ext (R3.ext ?_ ?_ ?_) (R3.ext ?_ ?_ ?_) (R3.ext ?_ ?_ ?_) <;> apply z <;> linarith

/-- C53: `IsDiagonalized` recognizes the diagonal forms with increasing elements. -/
theorem C53_is_diagonalized (F : M3 ℝ) : isDiagonalized F ↔ ∃ d, F = M3.diagonal d ∧ d.x ≤ d.y ∧ d.y ≤ d.z := by
  simp only [isDiagonalized, M3.at', R3.get, M3.row, M3.diagonal]
  constructor
  · rintro ⟨⟨h1, h2, h3, h4, h5, h6⟩, h7, h8⟩
    exact ⟨⟨F.rowX.x, F.rowY.y, F.rowZ.z⟩, M3.ext (R3.ext rfl h1 h2) (R3.ext h3 rfl h4) (R3.ext h5 h6 rfl), h7, h8⟩
  · rintro ⟨d, rfl, h1, h2⟩
    exact ⟨⟨rfl, rfl, rfl, rfl, rfl, rfl⟩, h1, h2⟩

/-- A form that is not diagonal. -/
example : (⟨⟨2, 1, 0⟩, ⟨1, 2, 1⟩, ⟨0, 1, 2⟩⟩ : M3 ℝ).Symmetric ∧ (⟨⟨2, 1, 0⟩, ⟨1, 2, 1⟩, ⟨0, 1, 2⟩⟩ : M3 ℝ) ≠ M3.diagonal ⟨2, 2, 2⟩ := by
  constructor
  · simp [M3.Symmetric, M3.transpose]
  · simp [M3.diagonal, M3.ext_iff, R3.ext_iff]

end Principia.Geometry.Form
