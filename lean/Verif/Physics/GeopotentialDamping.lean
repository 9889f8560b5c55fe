import Verif.Physics.GeopotentialModel
import Mathlib.Analysis.Calculus.Deriv.Mul
import Mathlib.Analysis.Calculus.Deriv.Add
import Mathlib.Analysis.Calculus.Deriv.Pow
import Mathlib.Data.Prod.Lex
import Mathlib.Tactic.FieldSimp
import Mathlib.Tactic.Linarith
import Mathlib.Tactic.LinearCombination
import Mathlib.Tactic.ByContra

/-!
The damping of the harmonics.
-/

set_option linter.unusedSimpArgs false
set_option linter.unusedVariables false
set_option linter.unusedSectionVars false

namespace Principia.Geopotential

variable {V : Type*} [NormedAddCommGroup V] [InnerProductSpace ℝ V]

/-! ### Specification -/

/-- The cubic which goes from 1 at `s` to 0 at `3 s`, and whose derivative vanishes at both. -/
noncomputable def sigmoid (s r : ℝ) : ℝ := r / (4 * s) * (3 - r / s) ^ 2

/-- The derivative of the cubic. -/
noncomputable def sigmoidSlope (s r : ℝ) : ℝ := 1 / (4 * s) * ((3 - r / s) * (3 - 3 * (r / s)))

open Classical in
/-- The factor by which a harmonic is multiplied at the distance `r`: 1 below the threshold, 0 above three times the threshold. -/
noncomputable def damping (s : WithTop ℝ) (r : ℝ) : ℝ :=
  if (r : WithTop ℝ) ≤ s then 1 else if (r : WithTop ℝ) < outerThreshold s then sigmoid (s.untopD 0) r else 0

open Classical in
/-- The derivative of the factor. -/
noncomputable def dampingSlope (s : WithTop ℝ) (r : ℝ) : ℝ :=
  if (r : WithTop ℝ) ≤ s then 0 else if (r : WithTop ℝ) < outerThreshold s then sigmoidSlope (s.untopD 0) r else 0

/-! ### The factor -/

theorem outer_coe (s : ℝ) : outerThreshold (s : WithTop ℝ) = ((s * 3 : ℝ) : WithTop ℝ) := rfl

theorem outer_top : outerThreshold ⊤ = ⊤ := rfl

theorem damping_top (r : ℝ) : damping ⊤ r = 1 := by rw [damping, if_pos le_top]

theorem damping_coe (s r : ℝ) : damping (s : WithTop ℝ) r = if r ≤ s then 1 else if r < s * 3 then sigmoid s r else 0 := by
  unfold damping
  simp only [outer_coe, WithTop.coe_le_coe, WithTop.coe_lt_coe, WithTop.untopD_coe]

theorem dampingSlope_top (r : ℝ) : dampingSlope ⊤ r = 0 := by rw [dampingSlope, if_pos le_top]

theorem dampingSlope_coe (s r : ℝ) : dampingSlope (s : WithTop ℝ) r = if r ≤ s then 0 else if r < s * 3 then sigmoidSlope s r else 0 := by
  unfold dampingSlope
  simp only [outer_coe, WithTop.coe_le_coe, WithTop.coe_lt_coe, WithTop.untopD_coe]

theorem damping_below {s : WithTop ℝ} {r : ℝ} (h : (r : WithTop ℝ) ≤ s) : damping s r = 1 := by rw [damping, if_pos h]

theorem damping_above {s : WithTop ℝ} (hs : 0 ≤ s) {r : ℝ} (hr : 0 < r) (h : outerThreshold s ≤ r) : damping s r = 0 ∧ dampingSlope s r = 0 := by
  cases s with
  | top => rw [outer_top] at h; simp at h
  | coe s =>
    rw [outer_coe, WithTop.coe_le_coe] at h
    have hs' : 0 ≤ s := by exact_mod_cast hs
    rw [damping_coe, dampingSlope_coe, if_neg (by linarith), if_neg (by linarith), if_neg (by linarith), if_neg (by linarith)]
    exact ⟨rfl, rfl⟩

theorem hasDerivAt_sigmoid {s : ℝ} (hs : 0 < s) (r : ℝ) : HasDerivAt (sigmoid s) (sigmoidSlope s r) r := by
  have h1 : HasDerivAt (fun r : ℝ => r / (4 * s)) (1 / (4 * s)) r := (hasDerivAt_id r).div_const _
  have h2 : HasDerivAt (fun r : ℝ => 3 - r / s) (-(1 / s)) r := ((hasDerivAt_id r).div_const s).const_sub 3
  have h3 := h1.mul (h2.pow 2)
  refine h3.congr_deriv ?_
  unfold sigmoidSlope
  simp only [Pi.pow_apply, show (2 : ℕ) - 1 = 1 from rfl, pow_one, Nat.cast_ofNat]
  field_simp
  ring

theorem sigmoid_inner {s : ℝ} (hs : 0 < s) : sigmoid s s = 1 ∧ sigmoidSlope s s = 0 := by
  unfold sigmoid sigmoidSlope
  rw [div_self hs.ne']
  constructor
  · field_simp; norm_num
  · ring

theorem sigmoid_outer {s : ℝ} (hs : 0 < s) : sigmoid s (s * 3) = 0 ∧ sigmoidSlope s (s * 3) = 0 := by
  unfold sigmoid sigmoidSlope
  rw [mul_div_cancel_left₀ _ hs.ne']
  constructor <;> ring

/-- Two functions which join with the same derivative. -/
theorem hasDerivAt_glue {f g h : ℝ → ℝ} {a c : ℝ} (hf : HasDerivAt f c a) (hg : HasDerivAt g c a) (hl : ∀ x ≤ a, h x = f x) (hr : ∀ x, a ≤ x → h x = g x) : HasDerivAt h c a := by
  rw [← hasDerivWithinAt_univ, ← Set.Iic_union_Ici (a := a)]
  exact (hf.hasDerivWithinAt.congr (fun x hx => hl x hx) (hl a le_rfl)).union (hg.hasDerivWithinAt.congr (fun x hx => hr x hx) (hr a le_rfl))

theorem hasDerivAt_damping {s : WithTop ℝ} (hs : 0 ≤ s) {r : ℝ} (hr : 0 < r) : HasDerivAt (damping s) (dampingSlope s r) r := by
  cases s with
  | top =>
    rw [dampingSlope_top, show damping ⊤ = fun _ => 1 from funext damping_top]
    exact hasDerivAt_const _ _
  | coe s =>
    have hs0 : 0 ≤ s := by exact_mod_cast hs
    have e : ∀ x, damping (s : WithTop ℝ) x = if x ≤ s then 1 else if x < s * 3 then sigmoid s x else 0 := damping_coe s
    rw [dampingSlope_coe]
    rcases lt_trichotomy r s with h | h | h
    · rw [if_pos h.le]
      refine (hasDerivAt_const r (1 : ℝ)).congr_of_eventuallyEq ?_
      filter_upwards [Iio_mem_nhds h] with x hx
      rw [e, if_pos (le_of_lt hx)]
    · subst h
      rw [if_pos le_rfl]
      have hg := hasDerivAt_sigmoid hr r
      rw [(sigmoid_inner hr).2] at hg
      have h1 : HasDerivAt (fun x => if x < r * 3 then sigmoid r x else 0) 0 r := by
        refine hg.congr_of_eventuallyEq ?_
        filter_upwards [Iio_mem_nhds (show r < r * 3 by linarith)] with x hx
        rw [if_pos (Set.mem_Iio.1 hx)]
      refine hasDerivAt_glue (hasDerivAt_const r (1 : ℝ)) h1 (fun x hx => by rw [e, if_pos hx]) (fun x hx => ?_)
      rw [e]
      by_cases hxr : x ≤ r
      · have hxe : x = r := le_antisymm hxr hx
        rw [if_pos hxr, if_pos (by linarith), hxe, (sigmoid_inner hr).1]
      · rw [if_neg hxr]
    · rw [if_neg (not_le.2 h)]
      rcases lt_trichotomy r (s * 3) with h3 | h3 | h3
      · rw [if_pos h3]
        refine (hasDerivAt_sigmoid (by linarith) r).congr_of_eventuallyEq ?_
        filter_upwards [Iio_mem_nhds h3, Ioi_mem_nhds h] with x hx hx'
        rw [e, if_neg (not_le.2 hx'), if_pos (Set.mem_Iio.1 hx)]
      · rw [if_neg h3.not_lt]
        have hs1 : 0 < s := by linarith
        have hg := hasDerivAt_sigmoid hs1 r
        rw [h3, (sigmoid_outer hs1).2, ← h3] at hg
        have h1 : HasDerivAt (fun x => if x ≤ s then 1 else sigmoid s x) 0 r := by
          refine hg.congr_of_eventuallyEq ?_
          filter_upwards [Ioi_mem_nhds h] with x hx
          rw [if_neg (not_le.2 hx)]
        refine hasDerivAt_glue h1 (hasDerivAt_const r (0 : ℝ)) (fun x hx => ?_) (fun x hx => by rw [e, if_neg (by linarith), if_neg (by linarith)])
        rw [e]
        by_cases hxs : x ≤ s
        · rw [if_pos hxs, if_pos hxs]
        · rw [if_neg hxs, if_neg hxs]
          by_cases hx3 : x < s * 3
          · rw [if_pos hx3]
          · have hxe : x = s * 3 := by linarith
            rw [if_neg hx3, hxe, (sigmoid_outer hs1).1]
      · rw [if_neg h3.not_gt]
        refine (hasDerivAt_const r (0 : ℝ)).congr_of_eventuallyEq ?_
        filter_upwards [Ioi_mem_nhds h3, Ioi_mem_nhds h] with x hx hx'
        rw [e, if_neg (not_le.2 hx'), if_neg (not_lt.2 (le_of_lt hx))]

theorem damping_mem {s : WithTop ℝ} (hs : 0 ≤ s) {r : ℝ} (hr : 0 < r) : 0 ≤ damping s r ∧ damping s r ≤ 1 := by
  cases s with
  | top => rw [damping_top]; norm_num
  | coe s =>
    have hs0 : 0 ≤ s := by exact_mod_cast hs
    rw [damping_coe]
    by_cases h : r ≤ s
    · rw [if_pos h]; norm_num
    · rw [if_neg h]
      by_cases h3 : r < s * 3
      · rw [if_pos h3]
        have hs1 : 0 < s := by linarith
        unfold sigmoid
        constructor
        · positivity
        · obtain ⟨u, rfl⟩ : ∃ u, r = u * s := ⟨r / s, by field_simp⟩
          rw [mul_div_cancel_right₀ _ hs1.ne', show u * s / (4 * s) = u / 4 by field_simp]
          have hu : u < 3 := by nlinarith
          nlinarith [mul_nonneg (sq_nonneg (u - 1)) (show 0 ≤ 4 - u by linarith)]
      · rw [if_neg h3]; norm_num

/-! ### The code that computes it -/

theorem dampedPotential_eq {s : WithTop ℝ} {r : ℝ} (hr : 0 < r) (h : (r : WithTop ℝ) ≤ outerThreshold s) (ℜ : ℝ) : dampedPotential s r (r ^ 2) ℜ = some (damping s r * ℜ) := by
  unfold dampedPotential
  by_cases h1 : (r : WithTop ℝ) ≤ s
  · rw [if_pos h1, damping_below h1, one_mul]
  · rw [if_neg h1]
    cases s with
    | top => exact absurd le_top h1
    | coe s =>
      rw [outer_coe, WithTop.coe_le_coe] at h
      rw [WithTop.coe_le_coe] at h1
      have hs : 0 < s := by linarith
      have hs' : ¬WithTop.untopD 0 (s : WithTop ℝ) = 0 := hs.ne'
      simp only
      rw [if_neg hs']
      simp only [WithTop.untopD_coe]
      rw [damping_coe, if_neg h1]
      congr 2
      by_cases h3 : r < s * 3
      · rw [if_pos h3]
        unfold sigmoid
        field_simp
        ring
      · rw [if_neg h3]
        have : r = s * 3 := by linarith
        subst this
        field_simp
        norm_num

theorem dampedAcceleration_eq {s : WithTop ℝ} {r : ℝ} (hr : 0 < r) (h : (r : WithTop ℝ) ≤ outerThreshold s) (v : V) (ℜ ℜ' : ℝ) :
    dampedAcceleration s r (r ^ 2) v ℜ ℜ' = some (damping s r * ℜ, (dampingSlope s r * r * ℜ + ℜ' * damping s r) • v) := by
  unfold dampedAcceleration
  by_cases h1 : (r : WithTop ℝ) ≤ s
  · rw [if_pos h1, damping_below h1, one_mul, mul_one, dampingSlope, if_pos h1, zero_mul, zero_mul, zero_add]
  · rw [if_neg h1]
    cases s with
    | top => exact absurd le_top h1
    | coe s =>
      rw [outer_coe, WithTop.coe_le_coe] at h
      rw [WithTop.coe_le_coe] at h1
      have hs : 0 < s := by linarith
      have hs' : ¬WithTop.untopD 0 (s : WithTop ℝ) = 0 := hs.ne'
      simp only
      rw [if_neg hs']
      simp only [WithTop.untopD_coe]
      rw [damping_coe, dampingSlope_coe, if_neg h1, if_neg h1]
      by_cases h3 : r < s * 3
      · rw [if_pos h3, if_pos h3]
        have e1 : 1 / (4 * s ^ 3) * (r ^ 2 * r) + -3 / (2 * s ^ 2) * r ^ 2 + 9 / (4 * s) * r = sigmoid s r := by unfold sigmoid; field_simp; ring
        have e2 : 3 * (1 / (4 * s ^ 3) * (r ^ 2 * r)) + 2 * (-3 / (2 * s ^ 2) * r ^ 2) + 9 / (4 * s) * r = sigmoidSlope s r * r := by unfold sigmoidSlope; field_simp; ring
        rw [e1, e2]
      · rw [if_neg h3, if_neg h3]
        have : r = s * 3 := by linarith
        subst this
        have e1 : 1 / (4 * s ^ 3) * ((s * 3) ^ 2 * (s * 3)) + -3 / (2 * s ^ 2) * (s * 3) ^ 2 + 9 / (4 * s) * (s * 3) = 0 := by field_simp; norm_num
        have e2 : 3 * (1 / (4 * s ^ 3) * ((s * 3) ^ 2 * (s * 3))) + 2 * (-3 / (2 * s ^ 2) * (s * 3) ^ 2) + 9 / (4 * s) * (s * 3) = 0 := by field_simp; norm_num
        simp only [e1, e2, zero_mul]

end Principia.Geopotential
