import Verif.Numerics.NextProps

/-!
C80: `ULPDistance`.
-/

set_option linter.unusedVariables false
set_option linter.unusedSimpArgs false

namespace Principia.Numerics.Next

open DoublePrecisions

variable (R : Rounding)

theorem isDouble_abs {x : ℝ} (h : IsDouble x) : IsDouble |x| := by
  rcases abs_choice x with h' | h' <;> rw [h']
  · exact h
  · exact h.neg

/-- The bits of a subnormal number. -/
theorem magnitude_subnormal {a : ℝ} (h : IsDouble a) (h' : |a| < (2 : ℝ) ^ (-1022 : ℤ)) : (magnitude (Fl.finite a) : ℝ) = |a| * 2 ^ (1074 : ℤ) := by
  obtain ⟨k, hk⟩ := (isDouble_abs h).grid
  have e : |a| * (2 : ℝ) ^ (1074 : ℤ) = k := by
    rw [hk, mul_assoc, ← two_add, show (-1074 + 1074 : ℤ) = 0 by norm_num, zpow_zero, mul_one]
  simp only [magnitude]
  rw [if_pos h', e, Int.floor_intCast]

/-- The bits of a normal number. -/
theorem magnitude_normal {a : ℝ} {L : ℤ} (h : IsDouble a) (hL : -1022 ≤ L) (h1 : (2 : ℝ) ^ L ≤ |a|) (h2 : |a| < (2 : ℝ) ^ (L + 1)) :
    (magnitude (Fl.finite a) : ℝ) = (L + 1022) * 2 ^ 52 + |a| * 2 ^ (52 - L) := by
  have h0 : a ≠ 0 := abs_pos.1 ((two_pos L).trans_le h1)
  have hl : Int.log 2 |a| = L := log_unique (log_bounds h0).1 (log_bounds h0).2 h1 h2
  have g : Grid (L - 52) |a| := grid_of_large (isDouble_abs h) (by rw [abs_abs, show 52 + (L - 52) = L by ring]; exact h1)
  obtain ⟨k, hk⟩ := g
  have e : |a| * (2 : ℝ) ^ (52 - L) = k := by
    rw [hk, mul_assoc, ← two_add, show L - 52 + (52 - L) = 0 by ring, zpow_zero, mul_one]
  have hn : ¬ |a| < (2 : ℝ) ^ (-1022 : ℤ) := not_lt.2 ((two_le hL).trans h1)
  simp only [magnitude]
  rw [if_neg hn, hl, e, Int.floor_intCast]
  push_cast
  ring

/-- A double is subnormal or normal. -/
theorem normal_cases {a : ℝ} (h : IsFinite a) : |a| < (2 : ℝ) ^ (-1022 : ℤ) ∨ ∃ L : ℤ, -1022 ≤ L ∧ L ≤ 1023 ∧ (2 : ℝ) ^ L ≤ |a| ∧ |a| < (2 : ℝ) ^ (L + 1) := by
  by_cases h' : |a| < (2 : ℝ) ^ (-1022 : ℤ)
  · exact Or.inl h'
  · push Not at h'
    have h0 : a ≠ 0 := abs_pos.1 ((two_pos _).trans_le h')
    obtain ⟨l1, l2⟩ := log_bounds h0
    have a1 := two_lt (h'.trans_lt l2)
    have a2 := two_lt (l1.trans_lt h.2)
    exact Or.inr ⟨_, by omega, by omega, l1, l2⟩

theorem scaled_bounds {a : ℝ} {L : ℤ} (h1 : (2 : ℝ) ^ L ≤ |a|) (h2 : |a| < (2 : ℝ) ^ (L + 1)) : 2 ^ 52 ≤ |a| * (2 : ℝ) ^ (52 - L) ∧ |a| * (2 : ℝ) ^ (52 - L) < 2 ^ 53 := by
  have hp := two_pos (52 - L)
  have e1 : (2 : ℝ) ^ L * 2 ^ (52 - L) = 2 ^ 52 := by rw [← two_add, show L + (52 - L) = 52 by ring]; norm_cast
  have e2 : (2 : ℝ) ^ (L + 1) * 2 ^ (52 - L) = 2 ^ 53 := by rw [← two_add, show L + 1 + (52 - L) = 53 by ring]; norm_cast
  exact ⟨by rw [← e1]; exact mul_le_mul_of_nonneg_right h1 hp.le, by rw [← e2]; exact mul_lt_mul_of_pos_right h2 hp⟩

theorem subnormal_bounds {a : ℝ} (h : |a| < (2 : ℝ) ^ (-1022 : ℤ)) : |a| * (2 : ℝ) ^ (1074 : ℤ) < 2 ^ 52 := by
  have e : (2 : ℝ) ^ (-1022 : ℤ) * 2 ^ (1074 : ℤ) = 2 ^ 52 := by rw [← two_add, show (-1022 + 1074 : ℤ) = 52 by norm_num]; norm_cast
  rw [← e]
  exact mul_lt_mul_of_pos_right h (two_pos _)

/-- The bits are ordered like the numbers. -/
theorem magnitude_mono {a b : ℝ} (ha : IsFinite a) (hb : IsFinite b) (h : |a| < |b|) : magnitude (Fl.finite a) < magnitude (Fl.finite b) := by
  have key : (magnitude (Fl.finite a) : ℝ) < magnitude (Fl.finite b) := by
    rcases normal_cases ha with ca | ⟨L, L1, L2, L3, L4⟩
    · rw [magnitude_subnormal ha.1 ca]
      have ba := subnormal_bounds ca
      rcases normal_cases hb with cb | ⟨M, M1, M2, M3, M4⟩
      · rw [magnitude_subnormal hb.1 cb]
        exact mul_lt_mul_of_pos_right h (two_pos _)
      · rw [magnitude_normal hb.1 M1 M3 M4]
        have bb := (scaled_bounds M3 M4).1
        have M1' : (-1022 : ℝ) ≤ M := by exact_mod_cast M1
        have : 0 ≤ ((M : ℝ) + 1022) * 2 ^ 52 := mul_nonneg (by linarith) (by positivity)
        linarith
    · rw [magnitude_normal ha.1 L1 L3 L4]
      have ba := scaled_bounds L3 L4
      rcases normal_cases hb with cb | ⟨M, M1, M2, M3, M4⟩
      · exact absurd ((two_le L1).trans L3) (not_le.2 (h.trans cb))
      · rw [magnitude_normal hb.1 M1 M3 M4]
        have bb := (scaled_bounds M3 M4).1
        have hLM := two_lt (L3.trans_lt (h.trans M4))
        rcases (show L = M ∨ L + 1 ≤ M by omega) with e | e
        · subst e
          have := mul_lt_mul_of_pos_right h (two_pos (52 - L))
          linarith
        · have e' : (L : ℝ) + 1 ≤ M := by exact_mod_cast e
          have b2 := ba.2
          norm_num at b2 bb ⊢
          linarith
  exact_mod_cast key

theorem magnitude_bounds {a : ℝ} (ha : IsFinite a) : 0 ≤ magnitude (Fl.finite a) ∧ magnitude (Fl.finite a) < 2047 * 2 ^ 52 := by
  have key : (0 : ℝ) ≤ magnitude (Fl.finite a) ∧ (magnitude (Fl.finite a) : ℝ) < 2047 * 2 ^ 52 := by
    rcases normal_cases ha with ca | ⟨L, L1, L2, L3, L4⟩
    · rw [magnitude_subnormal ha.1 ca]
      have ba := subnormal_bounds ca
      refine ⟨mul_nonneg (abs_nonneg a) (two_pos _).le, ?_⟩
      norm_num at ba ⊢
      linarith
    · rw [magnitude_normal ha.1 L1 L3 L4]
      have ba := scaled_bounds L3 L4
      have L1' : (-1022 : ℝ) ≤ L := by exact_mod_cast L1
      have L2' : (L : ℝ) ≤ 1023 := by exact_mod_cast L2
      have h1 := ba.1
      have h2 := ba.2
      norm_num at h1 h2 ⊢
      constructor <;> linarith
  exact ⟨by exact_mod_cast key.1, by exact_mod_cast key.2⟩

/-- All the bit patterns below that of infinity are doubles. -/
theorem magnitude_surjective {k : ℤ} (h0 : 0 ≤ k) (h1 : k < 2047 * 2 ^ 52) : ∃ a : ℝ, 0 ≤ a ∧ IsFinite a ∧ magnitude (Fl.finite a) = k := by
  by_cases hk : k < 2 ^ 52
  · have ha : 0 ≤ (k : ℝ) * 2 ^ (-1074 : ℤ) := mul_nonneg (by exact_mod_cast h0) (two_pos _).le
    have hd : IsDouble ((k : ℝ) * 2 ^ (-1074 : ℤ)) := ⟨k, -1074, by rw [abs_of_nonneg h0]; omega, le_rfl, rfl⟩
    have e : (2 : ℝ) ^ 52 * 2 ^ (-1074 : ℤ) = 2 ^ (-1022 : ℤ) := by
      rw [show (2 : ℝ) ^ 52 = 2 ^ (52 : ℤ) by norm_cast, ← two_add, show (52 + -1074 : ℤ) = -1022 by norm_num]
    have hs : |(k : ℝ) * 2 ^ (-1074 : ℤ)| < 2 ^ (-1022 : ℤ) := by
      rw [abs_of_nonneg ha, ← e]
      exact mul_lt_mul_of_pos_right (by exact_mod_cast hk) (two_pos _)
    refine ⟨_, ha, ⟨hd, hs.trans (zpow_lt_zpow_right₀ (by norm_num) (by norm_num))⟩, ?_⟩
    have := magnitude_subnormal hd hs
    rw [abs_of_nonneg ha, mul_assoc, ← two_add, show (-1074 + 1074 : ℤ) = 0 by norm_num, zpow_zero, mul_one] at this
    exact_mod_cast this
  · push Not at hk
    obtain ⟨q, m, hq, hm1, hm2, hq1, hq2⟩ : ∃ q m : ℤ, k = q * 2 ^ 52 + m ∧ 2 ^ 52 ≤ m ∧ m < 2 ^ 53 ∧ 0 ≤ q ∧ q ≤ 2045 := by
      refine ⟨k / 2 ^ 52 - 1, k % 2 ^ 52 + 2 ^ 52, ?_, ?_, ?_, ?_, ?_⟩ <;> omega
    have hm : (2 : ℝ) ^ 52 ≤ m := by exact_mod_cast hm1
    have hm' : (m : ℝ) < 2 ^ 53 := by exact_mod_cast hm2
    have hp := two_pos (q - 1074)
    have ha : 0 ≤ (m : ℝ) * 2 ^ (q - 1074) := mul_nonneg (by linarith [show (0 : ℝ) ≤ 2 ^ 52 by positivity]) hp.le
    have hd : IsDouble ((m : ℝ) * 2 ^ (q - 1074)) := ⟨m, q - 1074, by rw [abs_of_nonneg (by omega)]; exact hm2, by omega, rfl⟩
    have b1 : (2 : ℝ) ^ (q - 1022) ≤ |(m : ℝ) * 2 ^ (q - 1074)| := by
      rw [abs_of_nonneg ha, show q - 1022 = 52 + (q - 1074) by ring, two_add, show (2 : ℝ) ^ (52 : ℤ) = 2 ^ 52 by norm_cast]
      exact mul_le_mul_of_nonneg_right hm hp.le
    have b2 : |(m : ℝ) * 2 ^ (q - 1074)| < (2 : ℝ) ^ (q - 1022 + 1) := by
      rw [abs_of_nonneg ha, show q - 1022 + 1 = 53 + (q - 1074) by ring, two_add, show (2 : ℝ) ^ (53 : ℤ) = 2 ^ 53 by norm_cast]
      exact mul_lt_mul_of_pos_right hm' hp
    refine ⟨_, ha, ⟨hd, b2.trans_le (two_le (by omega))⟩, ?_⟩
    have := magnitude_normal hd (by omega) b1 b2
    rw [abs_of_nonneg ha, mul_assoc, ← two_add, show q - 1074 + (52 - (q - 1022)) = 0 by ring, zpow_zero, mul_one] at this
    rw [hq]
    push_cast at this
    have h3 : (magnitude (Fl.finite ((m : ℝ) * 2 ^ (q - 1074))) : ℝ) = ((q * 2 ^ 52 + m : ℤ) : ℝ) := by
      rw [this]
      push_cast
      ring
    exact_mod_cast h3

/-! ### Positions -/

open Classical in
/-- The rank of a double, counted from zero. -/
noncomputable def position (x : Fl) : ℤ := if x.lt (Fl.finite 0) then -magnitude x else magnitude x

theorem magnitude_zero : magnitude (Fl.finite 0) = 0 := by
  have := magnitude_subnormal isDouble_zero (by rw [abs_zero]; exact two_pos _)
  rw [abs_zero, zero_mul] at this
  exact_mod_cast this

theorem isFinite_zero : IsFinite 0 := ⟨isDouble_zero, by rw [abs_zero]; exact two_pos _⟩

theorem magnitude_infinity (n : Bool) : magnitude (Fl.infinity n) = 2047 * 2 ^ 52 := rfl

theorem position_infinity (n : Bool) : position (Fl.infinity n) = if n then -(2047 * 2 ^ 52) else 2047 * 2 ^ 52 := by
  cases n <;> simp [position, Fl.lt, magnitude_infinity]

theorem position_nonneg {a : ℝ} (h : 0 ≤ a) : position (Fl.finite a) = magnitude (Fl.finite a) := by
  simp only [position]
  rw [if_neg (show ¬ (Fl.finite a).lt (Fl.finite 0) from not_lt.2 h)]

theorem position_neg {a : ℝ} (h : a < 0) : position (Fl.finite a) = -magnitude (Fl.finite a) := by
  simp only [position]
  rw [if_pos (show (Fl.finite a).lt (Fl.finite 0) from h)]

theorem position_mono {x y : Fl} (hx : x.IsFl) (hy : y.IsFl) (h : x.lt y) : position x < position y := by
  cases x with
  | finite a =>
    have ba := magnitude_bounds hx
    cases y with
    | finite b =>
      have bb := magnitude_bounds hy
      have h' : a < b := h
      rcases lt_or_ge a 0 with ha | ha
      · rw [position_neg ha]
        rcases lt_or_ge b 0 with hb | hb
        · rw [position_neg hb]
          have := magnitude_mono hy hx (by rw [abs_of_neg ha, abs_of_neg hb]; linarith)
          omega
        · rw [position_nonneg hb]
          have := magnitude_mono isFinite_zero hx (by rw [abs_zero]; exact abs_pos.2 ha.ne)
          rw [magnitude_zero] at this
          omega
      · have hb : 0 ≤ b := ha.trans h'.le
        rw [position_nonneg ha, position_nonneg hb]
        exact magnitude_mono hx hy (by rwa [abs_of_nonneg ha, abs_of_nonneg hb])
    | infinity n =>
      have hn : n = false := h
      rw [position_infinity, hn]
      rcases lt_or_ge a 0 with ha | ha
      · rw [position_neg ha]
        simp only [Bool.false_eq_true, if_false]
        omega
      · rw [position_nonneg ha]
        simp only [Bool.false_eq_true, if_false]
        omega
  | infinity m =>
    cases y with
    | finite b =>
      have bb := magnitude_bounds hy
      have hm : m = true := h
      rw [position_infinity, hm]
      rcases lt_or_ge b 0 with hb | hb
      · rw [position_neg hb]
        simp only [if_true]
        omega
      · rw [position_nonneg hb]
        simp only [if_true]
        omega
    | infinity n =>
      rw [position_infinity, position_infinity, h.1, h.2]
      norm_num

theorem lt_trichotomy {x y : Fl} : x.lt y ∨ x = y ∨ y.lt x := by
  cases x with
  | finite a =>
    cases y with
    | finite b =>
      rcases _root_.lt_trichotomy a b with h | h | h
      · exact Or.inl h
      · exact Or.inr (Or.inl (by rw [h]))
      · exact Or.inr (Or.inr h)
    | infinity n => cases n <;> simp [Fl.lt]
  | infinity m =>
    cases y with
    | finite b => cases m <;> simp [Fl.lt]
    | infinity n => cases m <;> cases n <;> simp [Fl.lt]

theorem position_surjective {k : ℤ} (h0 : -(2047 * 2 ^ 52) < k) (h1 : k < 2047 * 2 ^ 52) : ∃ x : Fl, x.IsFl ∧ position x = k := by
  rcases lt_or_ge k 0 with h | h
  · obtain ⟨a, ha, hf, hm⟩ := magnitude_surjective (k := -k) (by omega) (by omega)
    have hpos : 0 < a := by
      rcases ha.eq_or_lt with h' | h'
      · rw [← h', magnitude_zero] at hm
        omega
      · exact h'
    refine ⟨Fl.finite (-a), ⟨hf.1.neg, by rw [abs_neg]; exact hf.2⟩, ?_⟩
    rw [position_neg (by linarith)]
    have : magnitude (Fl.finite (-a)) = magnitude (Fl.finite a) := by simp only [magnitude, abs_neg]
    omega
  · obtain ⟨a, ha, hf, hm⟩ := magnitude_surjective h h1
    exact ⟨Fl.finite a, hf, by rw [position_nonneg ha, hm]⟩

theorem position_bounds {x : Fl} (hx : x.IsFl) : -(2047 * 2 ^ 52) ≤ position x ∧ position x ≤ 2047 * 2 ^ 52 := by
  cases x with
  | finite a =>
    have ba := magnitude_bounds hx
    rcases lt_or_ge a 0 with ha | ha
    · rw [position_neg ha]
      omega
    · rw [position_nonneg ha]
      omega
  | infinity n => rw [position_infinity]; cases n <;> simp

/-- The next double has the next position. -/
theorem position_next {x : Fl} (hx : x.IsFl) (hi : x ≠ Fl.infinity false) : position (nextUp R x) = position x + 1 := by
  obtain ⟨h1, h2, h3⟩ := (C80_next_up R hx).1 hi
  have hm := position_mono hx h1 h2
  by_contra hne
  have bx := position_bounds hx
  have bn := position_bounds h1
  obtain ⟨z, hz, hp⟩ := position_surjective (k := position x + 1) (by omega) (by omega)
  have hxz : x.lt z := by
    rcases lt_trichotomy (x := x) (y := z) with h | h | h
    · exact h
    · rw [h] at hp; omega
    · have := position_mono hz hx h; omega
  rcases h3 z hz hxz with h | h
  · rw [h] at hp; omega
  · have := position_mono h1 hz h
    omega

theorem not_infinity_of_lt {x y : Fl} (h : x.lt y) : x ≠ Fl.infinity false := by
  intro e
  rw [e] at h
  cases y <;> simp [Fl.lt] at h

/-- Going from a double to a greater one by successive calls to `NextUp`. -/
theorem steps (n : ℕ) : ∀ {x y : Fl}, x.IsFl → y.IsFl → (x.lt y ∨ x = y) → position y = position x + n → (nextUp R)^[n] x = y := by
  induction n with
  | zero =>
    intro x y hx hy h hp
    rcases h with h | h
    · have := position_mono hx hy h
      simp at hp
      omega
    · exact h
  | succ n ih =>
    intro x y hx hy h hp
    push_cast at hp
    have hl : x.lt y := by
      rcases h with h | h
      · exact h
      · rw [h] at hp; omega
    have hi := not_infinity_of_lt hl
    obtain ⟨h1, h2, h3⟩ := (C80_next_up R hx).1 hi
    rw [Function.iterate_succ_apply]
    refine ih h1 hy ?_ ?_
    · rcases h3 y hy hl with h | h
      · exact Or.inr h.symm
      · exact Or.inl h
    · rw [position_next R hx hi]
      omega

theorem sameSign_eq (s : Bool) (x y : Fl) : sameSignDistance s x y = |magnitude x - magnitude y| := by
  classical
  simp only [sameSignDistance, bits]
  by_cases h : x = y
  · rw [if_pos h, h, sub_self, abs_zero]
  · rw [if_neg h]
    congr 1
    cases s <;> simp

theorem position_of_sign {s : Bool} {x : Fl} (h : HasSign s x) : position x = if s then -magnitude x else magnitude x := by
  cases x with
  | finite a =>
    cases s with
    | false =>
      have h' : 0 ≤ a := h
      rw [position_nonneg h']
      rfl
    | true =>
      have h' : a ≤ 0 := h
      rcases h'.eq_or_lt with h0 | h0
      · rw [h0, position_nonneg le_rfl, magnitude_zero]
        rfl
      · rw [position_neg h0]
        rfl
  | infinity n =>
    have h' : s = n := h
    rw [position_infinity, h', magnitude_infinity]

theorem magnitude_nonneg {x : Fl} (hx : x.IsFl) : 0 ≤ magnitude x := by
  cases x with
  | finite a => exact (magnitude_bounds hx).1
  | infinity n => rw [magnitude_infinity]; norm_num

/-- `ULPDistance` is the difference of the positions. -/
theorem ulpDistance_eq {sx sy : Bool} {x y : Fl} (hx : x.IsFl) (hy : y.IsFl) (hsx : HasSign sx x) (hsy : HasSign sy y) :
    ulpDistance sx x sy y = min |position x - position y| (2 ^ 63 - 1) := by
  classical
  have px := position_of_sign hsx
  have py := position_of_sign hsy
  have mx := magnitude_nonneg hx
  have my := magnitude_nonneg hy
  have bx := position_bounds hx
  have by' := position_bounds hy
  by_cases h : x = y
  · simp only [ulpDistance]
    rw [if_pos h, h, sub_self, abs_zero]
    norm_num
  · simp only [ulpDistance]
    rw [if_neg h]
    cases sx <;> cases sy <;> simp only [sameSign_eq, magnitude_zero, sub_zero, ne_eq, not_true, not_false_eq_true, if_true, if_false, Bool.false_eq_true, Bool.true_eq_false, reduceCtorEq] at * <;>
      rw [px] at bx ⊢ <;> rw [py] at by' ⊢
    · rw [min_eq_left]
      rw [abs_le]
      omega
    · rw [abs_of_nonneg mx, abs_of_nonneg my, sub_neg_eq_add, abs_of_nonneg (by omega)]
      by_cases hc : 2 ^ 63 - 1 - magnitude y < magnitude x
      · rw [if_pos hc, min_eq_right (by omega)]
      · rw [if_neg hc, min_eq_left (by omega)]
    · rw [abs_of_nonneg mx, abs_of_nonneg my, abs_of_nonpos (by omega)]
      by_cases hc : 2 ^ 63 - 1 - magnitude x < magnitude y
      · rw [if_pos hc, min_eq_right (by omega)]
      · rw [if_neg hc, min_eq_left (by omega)]
        ring
    · rw [show -magnitude x - -magnitude y = -(magnitude x - magnitude y) by ring, abs_neg, min_eq_left]
      rw [abs_le]
      omega

/-- **C80**: `ULPDistance` is the number of times that `NextUp` must be applied to go from the smallest argument to the largest, saturated to the largest integer; it is symmetric, and does not depend on
the sign of the zeroes. -/
theorem C80_ulp_distance {sx sy : Bool} {x y : Fl} (hx : x.IsFl) (hy : y.IsFl) (hsx : HasSign sx x) (hsy : HasSign sy y) (h : x.lt y ∨ x = y) :
    ∃ n : ℕ, (nextUp R)^[n] x = y ∧ ulpDistance sx x sy y = min n (2 ^ 63 - 1) ∧ ulpDistance sy y sx x = min n (2 ^ 63 - 1) := by
  have hp : position x ≤ position y := by
    rcases h with h | h
    · exact (position_mono hx hy h).le
    · rw [h]
  refine ⟨(position y - position x).toNat, steps R _ hx hy h (by omega), ?_, ?_⟩
  · rw [ulpDistance_eq hx hy hsx hsy, abs_of_nonpos (by omega)]
    congr 1
    omega
  · rw [ulpDistance_eq hy hx hsy hsx, abs_of_nonneg (by omega)]
    congr 1
    omega

/-- **C80**: the distance is zero only between equal numbers. -/
theorem C80_ulp_distance_zero {sx sy : Bool} {x y : Fl} (hx : x.IsFl) (hy : y.IsFl) (hsx : HasSign sx x) (hsy : HasSign sy y) : ulpDistance sx x sy y = 0 ↔ x = y := by
  rw [ulpDistance_eq hx hy hsx hsy]
  constructor
  · intro h
    have h1 : |position x - position y| = 0 := by
      have := abs_nonneg (position x - position y)
      rcases le_total |position x - position y| (2 ^ 63 - 1) with h2 | h2
      · rwa [min_eq_left h2] at h
      · rw [min_eq_right h2] at h
        norm_num at h
    have h2 := abs_eq_zero.1 h1
    rcases lt_trichotomy (x := x) (y := y) with h3 | h3 | h3
    · have := position_mono hx hy h3
      omega
    · exact h3
    · have := position_mono hy hx h3
      omega
  · intro h
    rw [h, sub_self, abs_zero]
    norm_num

/-! Concrete cases: the smallest positive double and its opposite, and the infinities, which are too far apart. -/

theorem isFinite_tiny : IsFinite ((2 : ℝ) ^ (-1074 : ℤ)) := ⟨isDouble_two le_rfl, by rw [abs_of_pos (two_pos _)]; exact zpow_lt_zpow_right₀ (by norm_num) (by norm_num)⟩

theorem magnitude_tiny : magnitude (Fl.finite ((2 : ℝ) ^ (-1074 : ℤ))) = 1 := by
  have h := magnitude_subnormal isFinite_tiny.1 (by rw [abs_of_pos (two_pos _)]; exact zpow_lt_zpow_right₀ (by norm_num) (by norm_num))
  rw [abs_of_pos (two_pos _), ← two_add, show (-1074 + 1074 : ℤ) = 0 by norm_num, zpow_zero] at h
  exact_mod_cast h

example : ulpDistance true (Fl.finite (-(2 : ℝ) ^ (-1074 : ℤ))) false (Fl.finite ((2 : ℝ) ^ (-1074 : ℤ))) = 2 := by
  have hp := two_pos (-1074)
  rw [ulpDistance_eq (sx := true) (sy := false) (x := Fl.finite (-(2 : ℝ) ^ (-1074 : ℤ))) (y := Fl.finite ((2 : ℝ) ^ (-1074 : ℤ))) ⟨isFinite_tiny.1.neg, by rw [abs_neg]; exact isFinite_tiny.2⟩ isFinite_tiny (neg_neg_of_pos hp).le hp.le]
  rw [position_neg (neg_neg_of_pos hp), position_nonneg hp.le, magnitude_tiny]
  have : magnitude (Fl.finite (-(2 : ℝ) ^ (-1074 : ℤ))) = 1 := by rw [← magnitude_tiny]; simp only [magnitude, abs_neg]
  rw [this]
  norm_num

example : ulpDistance true (Fl.infinity true) false (Fl.infinity false) = 2 ^ 63 - 1 := by
  rw [ulpDistance_eq (x := Fl.infinity true) (y := Fl.infinity false) trivial trivial rfl rfl, position_infinity, position_infinity]
  norm_num

example : IsNext (Fl.finite 1) (nextUp R (Fl.finite 1)) := (C80_next_up R (x := Fl.finite 1) isFinite_one).1 (by simp)

example : IsPrevious (Fl.infinity false) (nextDown R (Fl.infinity false)) := (C80_next_down R (x := Fl.infinity false) trivial).1 (by simp)

example : (2 : ℝ) ^ (logB R 1100 1) ≤ |1| := (C80_log_b R le_rfl isFinite_one one_ne_zero).1

example : scaleB R 1 (-1074) = fl R (1 * 2 ^ (-1074 : ℤ)) := C80_scale_b R isFinite_one (Or.inl zero_le_one)

end Principia.Numerics.Next
