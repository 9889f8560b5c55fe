import Verif.Geometry.PerspectiveShadow
import Verif.Numerics.RootFindersProps

/-!
The intersection of a line with the shadow, from the numbers that the code computes.
-/

set_option linter.unusedSimpArgs false
set_option linter.unusedVariables false
set_option linter.unusedSectionVars false

namespace Principia.Geometry.Perspectives

open Principia.RootFinders

/-- The numbers that describe the line: `u` is the product with the direction of the centre, `f₁` and `f₂` the products with the normals to the tangents, `Q` the power with respect to the
sphere. -/
structure Line where
  u0 : ℝ
  u1 : ℝ
  h : ℝ
  κ : ℝ
  c₁ : ℝ
  b₁ : ℝ
  c₂ : ℝ
  b₂ : ℝ
  q0 : ℝ
  q1 : ℝ
  q2 : ℝ

namespace Line

variable (L : Line)

def u (l : ℝ) : ℝ := L.u0 + l * L.u1

def Q (l : ℝ) : ℝ := L.q0 + L.q1 * l + L.q2 * l ^ 2

def P (l : ℝ) : ℝ := (L.u l - L.h) ^ 2 - L.h * L.Q l

/-- What is known of these numbers. -/
structure Valid : Prop where
  sum : ∀ l, (L.c₁ + l * L.b₁) + (L.c₂ + l * L.b₂) = 2 * L.κ * L.u l
  prod : ∀ l, (L.c₁ + l * L.b₁) * (L.c₂ + l * L.b₂) = L.κ * L.P l
  h : 0 < L.h
  κ : 0 < L.κ
  q2 : 0 < L.q2
  N : ∀ l, 0 < L.Q l + 2 * L.u l - L.h
  u : L.u1 = 0 → 0 < L.u0

/-- The point is hidden. -/
def Hid (l : ℝ) : Prop := L.Q l < 0 ∨ (L.h ≤ L.u l ∧ 0 < L.P l)

/-- The point touches the shadow. -/
def Touch (l : ℝ) : Prop := L.Q l ≤ 0 ∨ (L.h ≤ L.u l ∧ 0 ≤ L.P l)

noncomputable def σ : Ext := Ext.div (-L.u0) L.u1

noncomputable def τ : Ext := Ext.div (L.h - L.u0) L.u1

noncomputable def l₁ : Ext := Ext.div (-L.c₁) L.b₁

noncomputable def l₂ : Ext := Ext.div (-L.c₂) L.b₂

/-- The hyperbolic case. -/
def Hyper : Prop := (Ext.lt L.l₁ L.σ ∨ Ext.lt L.l₂ L.σ) ∧ (Ext.lt L.σ L.l₁ ∨ Ext.lt L.σ L.l₂)

/-- The intersections. -/
def In (e : Ext) : Prop :=
  (e = L.l₁ ∧ isKept L.σ L.τ L.l₁ = true) ∨ (e = L.l₂ ∧ isKept L.σ L.τ L.l₂ = true) ∨ (L.Hyper ∧ e = infinityTimesDifference L.τ L.σ) ∨ e ∈ solveQuadratic 0 L.q0 L.q1 L.q2

/-- The same line, with the tangents exchanged. -/
def swap : Line := { L with c₁ := L.c₂, b₁ := L.b₂, c₂ := L.c₁, b₂ := L.b₁ }

variable {L}

theorem Valid.swap (H : L.Valid) : L.swap.Valid where
  sum l := by rw [add_comm]; exact H.sum l
  prod l := by rw [mul_comm]; exact H.prod l
  h := H.h
  κ := H.κ
  q2 := H.q2
  N := H.N
  u := H.u

theorem swap_in {e : Ext} (h : L.swap.In e) : L.In e := by
  rcases h with h | h | ⟨⟨h1, h2⟩, h⟩ | h
  · exact Or.inr (Or.inl h)
  · exact Or.inl h
  · exact Or.inr (Or.inr (Or.inl ⟨⟨h1.symm, h2.symm⟩, h⟩))
  · exact Or.inr (Or.inr (Or.inr h))

theorem slopes (H : L.Valid) : L.b₁ + L.b₂ = 2 * L.κ * L.u1 := by
  have h0 := H.sum 0
  have h1 := H.sum 1
  simp only [Line.u] at h0 h1
  linear_combination h1 - h0

theorem not_parallel (H : L.Valid) (h1 : L.b₁ = 0) (h2 : L.b₂ = 0) : False := by
  have hu : L.u1 = 0 := by
    have := slopes H
    rw [h1, h2, add_zero] at this
    rcases mul_eq_zero.1 this.symm with h | h
    · linarith [H.κ]
    · exact h
  have e0 := H.prod 0
  have e1 := H.prod 1
  have e2 := H.prod (-1)
  simp only [h1, h2, Line.P, Line.u, Line.Q, hu] at e0 e1 e2
  have : L.κ * (L.h * L.q2) = 0 := by nlinarith
  exact absurd this (mul_pos H.κ (mul_pos H.h H.q2)).ne'

theorem P_zero (H : L.Valid) {l : ℝ} (hu : L.u l = 0) : L.P l < 0 := by
  have := H.N l
  unfold Line.P
  rw [hu] at this ⊢
  nlinarith [mul_pos H.h this]

theorem c₁_ne (H : L.Valid) (hb : L.b₁ = 0) : L.c₁ ≠ 0 := by
  intro hc
  by_cases hu : L.u1 = 0
  · have := slopes H
    rw [hb, hu] at this
    exact not_parallel H hb (by linarith)
  · have h0 : L.u (-L.u0 / L.u1) = 0 := by
      unfold Line.u
      field_simp
      ring
    have := H.prod (-L.u0 / L.u1)
    rw [hb, hc] at this
    have hP := P_zero H h0
    have : L.κ * L.P (-L.u0 / L.u1) = 0 := by linarith
    exact absurd this (mul_neg_of_pos_of_neg H.κ hP).ne

theorem l₁_fin {L : Line} (hb : L.b₁ ≠ 0) : L.l₁ = .fin (-L.c₁ / L.b₁) := by
  unfold Line.l₁ Ext.div
  rw [if_neg hb]

theorem l₁_pos {L : Line} (hb : L.b₁ = 0) (hc : L.c₁ < 0) : L.l₁ = .posInf := by
  unfold Line.l₁ Ext.div
  rw [if_pos hb, if_neg (by linarith), if_pos (by linarith)]

theorem l₁_neg {L : Line} (hb : L.b₁ = 0) (hc : 0 < L.c₁) : L.l₁ = .negInf := by
  unfold Line.l₁ Ext.div
  rw [if_pos hb, if_neg (by linarith), if_neg (by linarith)]

theorem σ_fin {L : Line} (h : L.u1 ≠ 0) : L.σ = .fin (-L.u0 / L.u1) := by
  unfold Line.σ Ext.div
  rw [if_neg h]

theorem τ_fin {L : Line} (h : L.u1 ≠ 0) : L.τ = .fin ((L.h - L.u0) / L.u1) := by
  unfold Line.τ Ext.div
  rw [if_neg h]

theorem σ_neg (H : L.Valid) (h : L.u1 = 0) : L.σ = .negInf := by
  have := H.u h
  unfold Line.σ Ext.div
  rw [if_pos h, if_neg (by linarith), if_neg (by linarith)]

theorem isKept_iff {σ τ l : Ext} : isKept σ τ l = true ↔ (Ext.le σ τ ∧ Ext.lt τ l) ∨ (Ext.le τ σ ∧ Ext.lt l τ) := by
  unfold isKept
  simp only [decide_eq_true_eq]

theorem u_σ {L : Line} (h : L.u1 ≠ 0) : L.u (-L.u0 / L.u1) = 0 := by
  unfold Line.u
  field_simp
  ring

theorem u_τ {L : Line} (h : L.u1 ≠ 0) : L.u ((L.h - L.u0) / L.u1) = L.h := by
  unfold Line.u
  field_simp
  ring

theorem kept_fin (H : L.Valid) (l : ℝ) : isKept L.σ L.τ (.fin l) = true ↔ L.h < L.u l := by
  rw [isKept_iff]
  have hh := H.h
  rcases lt_trichotomy L.u1 0 with h | h | h
  · rw [σ_fin h.ne, τ_fin h.ne]
    have e : ¬-L.u0 / L.u1 ≤ (L.h - L.u0) / L.u1 := by
      rw [not_le, div_lt_div_right_of_neg h]
      linarith
    have e' : (L.h - L.u0) / L.u1 ≤ -L.u0 / L.u1 := le_of_lt (not_le.1 e)
    simp only [Ext.le, Ext.lt, e, e', false_and, true_and, false_or]
    rw [lt_div_iff_of_neg h]
    unfold Line.u
    constructor <;> intro hx <;> linarith
  · rw [σ_neg H h]
    have hu := H.u h
    unfold Line.τ Ext.div Line.u
    rw [if_pos h, h]
    rcases lt_trichotomy (L.h - L.u0) 0 with h1 | h1 | h1
    · rw [if_neg h1.ne, if_neg (by linarith)]
      simp only [Ext.le, Ext.lt]
      simp
      linarith
    · rw [if_pos h1]
      simp only [Ext.le, Ext.lt]
      simp
      linarith
    · rw [if_neg h1.ne', if_pos h1]
      simp only [Ext.le, Ext.lt]
      simp
      linarith
  · rw [σ_fin h.ne', τ_fin h.ne']
    have e : -L.u0 / L.u1 < (L.h - L.u0) / L.u1 := by
      rw [div_lt_div_iff_of_pos_right h]
      linarith
    have e' : ¬(L.h - L.u0) / L.u1 ≤ -L.u0 / L.u1 := not_le.2 e
    simp only [Ext.le, Ext.lt, e.le, e', false_and, true_and, or_false]
    rw [div_lt_iff₀ h]
    unfold Line.u
    constructor <;> intro hx <;> linarith

theorem kept_pos (H : L.Valid) (h : isKept L.σ L.τ .posInf = true) : 0 ≤ L.u1 := by
  by_contra hc
  have hc := not_le.1 hc
  have hh := H.h
  rw [isKept_iff, σ_fin hc.ne, τ_fin hc.ne] at h
  have e : ¬-L.u0 / L.u1 ≤ (L.h - L.u0) / L.u1 := by
    rw [not_le, div_lt_div_right_of_neg hc]
    linarith
  simp only [Ext.le, Ext.lt, e, false_and, and_false, or_self] at h

theorem kept_neg (H : L.Valid) : isKept L.σ L.τ .negInf = true ↔ L.u1 < 0 := by
  have hh := H.h
  rw [isKept_iff]
  rcases lt_trichotomy L.u1 0 with h | h | h
  · rw [σ_fin h.ne, τ_fin h.ne]
    have e : ¬-L.u0 / L.u1 ≤ (L.h - L.u0) / L.u1 := by
      rw [not_le, div_lt_div_right_of_neg h]
      linarith
    simp only [Ext.le, Ext.lt, (not_le.1 e).le, and_self, or_true, h]
  · rw [σ_neg H h]
    have hu := H.u h
    unfold Line.τ Ext.div
    rw [if_pos h, h]
    rcases lt_trichotomy (L.h - L.u0) 0 with h1 | h1 | h1
    · rw [if_neg h1.ne, if_neg (by linarith)]
      simp [Ext.le, Ext.lt]
    · rw [if_pos h1]
      simp [Ext.le, Ext.lt]
    · rw [if_neg h1.ne', if_pos h1]
      simp [Ext.le, Ext.lt]
  · rw [σ_fin h.ne', τ_fin h.ne']
    have e : ¬(L.h - L.u0) / L.u1 ≤ -L.u0 / L.u1 := by
      rw [not_le, div_lt_div_iff_of_pos_right h]
      linarith
    simp only [Ext.le, Ext.lt, e, false_and, and_false, or_self, false_iff, not_lt]
    exact h.le

theorem root_fin {c b l : ℝ} (hb : b ≠ 0) (h : -c / b = l) : c + l * b = 0 := by
  subst h
  field_simp
  ring

theorem in_quadratic (H : L.Valid) (l : ℝ) : Ext.fin l ∈ solveQuadratic 0 L.q0 L.q1 L.q2 ↔ L.Q l = 0 := by
  rw [(C41_quadratic 0 L.q0 L.q1 L.q2 (Or.inr H.q2.ne')).1 l, sub_zero]
  rfl

theorem quadratic_fin (H : L.Valid) {e : Ext} (h : e ∈ solveQuadratic 0 L.q0 L.q1 L.q2) : ∃ l, e = .fin l :=
  (C41_quadratic 0 L.q0 L.q1 L.q2 (Or.inr H.q2.ne')).2.2 H.q2.ne' e h

/-- If `l₁` is finite and kept, it is a root and it is beyond the horizon. -/
theorem l₁_kept_fin (H : L.Valid) {l : ℝ} (e : Ext.fin l = L.l₁) (hk : isKept L.σ L.τ L.l₁ = true) : L.b₁ ≠ 0 ∧ L.c₁ + l * L.b₁ = 0 ∧ L.h < L.u l := by
  rw [← e, kept_fin H] at hk
  by_cases hb : L.b₁ = 0
  · rcases lt_or_gt_of_ne (c₁_ne H hb) with h | h
    · rw [l₁_pos hb h] at e
      cases e
    · rw [l₁_neg hb h] at e
      cases e
  · rw [l₁_fin hb] at e
    exact ⟨hb, root_fin hb (Ext.fin.inj e).symm, hk⟩

theorem hyper_u1 (H : L.Valid) (h : L.Hyper) : L.u1 ≠ 0 := by
  intro hu
  have := h.1
  rw [σ_neg H hu] at this
  rcases this with h | h
  · revert h
    cases L.l₁ <;> simp [Ext.lt]
  · revert h
    cases L.l₂ <;> simp [Ext.lt]

theorem l₂_eq_swap : L.l₂ = L.swap.l₁ := rfl

theorem hyper_slopes (H : L.Valid) (h : L.Hyper) : 0 ≤ L.b₁ * L.b₂ := by
  by_cases h1 : L.b₁ = 0
  · rw [h1, zero_mul]
  · by_cases h2 : L.b₂ = 0
    · rw [h2, mul_zero]
    · have hu := hyper_u1 H h
      have e1 := l₁_fin h1
      have e2 : L.l₂ = .fin (-L.c₂ / L.b₂) := l₁_fin (L := L.swap) h2
      obtain ⟨ha, hb⟩ := h
      rw [e1, e2, σ_fin hu] at ha hb
      simp only [Ext.lt] at ha hb
      have hs := H.sum (-L.u0 / L.u1)
      rw [u_σ hu, mul_zero] at hs
      set s := -L.u0 / L.u1
      set x := -L.c₁ / L.b₁ with hx
      set y := -L.c₂ / L.b₂ with hy
      have f1 : L.c₁ = -(x * L.b₁) := by
        have := root_fin h1 hx.symm
        linarith
      have f2 : L.c₂ = -(y * L.b₂) := by
        have := root_fin h2 hy.symm
        linarith
      have key : (s - x) * L.b₁ = (y - s) * L.b₂ := by
        rw [f1, f2] at hs
        linarith
      have hsq : (L.b₁ * L.b₂) * ((s - x) * (y - s)) = ((y - s) * L.b₂) ^ 2 := by
        calc (L.b₁ * L.b₂) * ((s - x) * (y - s)) = ((s - x) * L.b₁) * ((y - s) * L.b₂) := by ring
          _ = _ := by rw [key]; ring
      have hpos : 0 < (s - x) * (y - s) := by
        rcases ha with ha | ha
        · rcases hb with hb | hb
          · exact absurd ha (lt_asymm hb)
          · exact mul_pos (by linarith) (by linarith)
        · rcases hb with hb | hb
          · exact mul_pos_of_neg_of_neg (by linarith) (by linarith)
          · exact absurd ha (lt_asymm hb)
      by_contra hc
      nlinarith [sq_nonneg ((y - s) * L.b₂), mul_neg_of_neg_of_pos (not_le.1 hc) hpos]

theorem infinity_eq (H : L.Valid) (hu : L.u1 ≠ 0) : infinityTimesDifference L.τ L.σ = if 0 < L.u1 then .posInf else .negInf := by
  have hh := H.h
  rw [σ_fin hu, τ_fin hu]
  simp only [infinityTimesDifference]
  by_cases h : 0 < L.u1
  · rw [if_pos h, if_pos]
    rw [div_lt_div_iff_of_pos_right h]
    linarith
  · have h' : L.u1 < 0 := lt_of_le_of_ne (not_lt.1 h) hu
    rw [if_neg h, if_neg, if_pos]
    · rw [div_lt_div_right_of_neg h']
      linarith
    · rw [not_lt, div_le_div_right_of_neg h']
      linarith

theorem in_fin (H : L.Valid) {l : ℝ} (h : L.In (.fin l)) : L.Touch l := by
  rcases h with ⟨e, hk⟩ | ⟨e, hk⟩ | ⟨hh, e⟩ | h
  · obtain ⟨-, h1, h2⟩ := l₁_kept_fin H e hk
    have := H.prod l
    rw [h1, zero_mul] at this
    exact Or.inr ⟨h2.le, by nlinarith [H.κ, (mul_eq_zero.1 this.symm).resolve_left H.κ.ne']⟩
  · obtain ⟨-, h1, h2⟩ := l₁_kept_fin H.swap e hk
    have := H.swap.prod l
    rw [h1, zero_mul] at this
    have hP : L.P l = 0 := (mul_eq_zero.1 this.symm).resolve_left H.κ.ne'
    exact Or.inr ⟨le_of_lt h2, hP.ge⟩
  · rw [infinity_eq H (hyper_u1 H hh)] at e
    split at e <;> cases e
  · exact Or.inl (((in_quadratic H l).1 h).le)

theorem in_nan (H : L.Valid) : ¬L.In .nan := by
  rintro (⟨e, hk⟩ | ⟨e, hk⟩ | ⟨hh, e⟩ | h)
  · rw [← e, isKept_iff] at hk
    revert hk
    cases L.τ <;> simp [Ext.lt]
  · rw [← e, isKept_iff] at hk
    revert hk
    cases L.τ <;> simp [Ext.lt]
  · rw [infinity_eq H (hyper_u1 H hh)] at e
    split at e <;> cases e
  · obtain ⟨l, e⟩ := quadratic_fin H h
    cases e

theorem l₁_inf (H : L.Valid) (h : L.l₁ = .posInf ∨ L.l₁ = .negInf) : L.b₁ = 0 := by
  by_contra hb
  rw [l₁_fin hb] at h
  rcases h with h | h <;> cases h

theorem b_zero_u1 (H : L.Valid) (h : L.b₁ = 0) : L.u1 ≠ 0 := by
  intro hu
  have := slopes H
  rw [hu, h] at this
  exact not_parallel H h (by linarith)

theorem in_posInf (H : L.Valid) (h : L.In .posInf) : 0 < L.u1 ∧ 0 ≤ L.b₁ * L.b₂ := by
  rcases h with ⟨e, hk⟩ | ⟨e, hk⟩ | ⟨hh, e⟩ | h
  · have hb := l₁_inf H (Or.inl e.symm)
    rw [← e] at hk
    exact ⟨lt_of_le_of_ne (kept_pos H hk) (b_zero_u1 H hb).symm, by rw [hb, zero_mul]⟩
  · have hb := l₁_inf H.swap (Or.inl e.symm)
    rw [← e] at hk
    exact ⟨lt_of_le_of_ne (kept_pos H hk) (b_zero_u1 H.swap hb).symm, by rw [show L.b₂ = 0 from hb, mul_zero]⟩
  · refine ⟨?_, hyper_slopes H hh⟩
    rw [infinity_eq H (hyper_u1 H hh)] at e
    by_contra hc
    rw [if_neg hc] at e
    cases e
  · obtain ⟨l, e⟩ := quadratic_fin H h
    cases e

theorem in_negInf (H : L.Valid) (h : L.In .negInf) : L.u1 < 0 ∧ 0 ≤ L.b₁ * L.b₂ := by
  rcases h with ⟨e, hk⟩ | ⟨e, hk⟩ | ⟨hh, e⟩ | h
  · have hb := l₁_inf H (Or.inr e.symm)
    rw [← e] at hk
    exact ⟨(kept_neg H).1 hk, by rw [hb, zero_mul]⟩
  · have hb := l₁_inf H.swap (Or.inr e.symm)
    rw [← e] at hk
    exact ⟨(kept_neg H).1 hk, by rw [show L.b₂ = 0 from hb, mul_zero]⟩
  · refine ⟨?_, hyper_slopes H hh⟩
    rw [infinity_eq H (hyper_u1 H hh)] at e
    by_cases hc : 0 < L.u1
    · rw [if_pos hc] at e
      cases e
    · exact lt_of_le_of_ne (not_lt.1 hc) (hyper_u1 H hh)
  · obtain ⟨l, e⟩ := quadratic_fin H h
    cases e

/-- The check succeeds. -/
theorem hyper_check (H : L.Valid) (h : L.Hyper) : ¬(isKept L.σ L.τ L.l₁ = true ∧ isKept L.σ L.τ L.l₂ = true) := by
  rintro ⟨k1, k2⟩
  have hu := hyper_u1 H h
  -- The general case, and the case where one of the intersections is at infinity.
  have main : ∀ (M : Line), M.Valid → M.u1 ≠ 0 → M.b₁ = 0 → isKept M.σ M.τ M.l₁ = true → isKept M.σ M.τ M.l₂ = true → M.Hyper → False := by
    intro M V hu hb k1 k2 hy
    have hb2 : M.b₂ ≠ 0 := fun hb2 => not_parallel V hb hb2
    have e2 : M.l₂ = .fin (-M.c₂ / M.b₂) := l₁_fin (L := M.swap) hb2
    obtain ⟨-, f2, hk⟩ := l₁_kept_fin V.swap e2.symm k2
    have hs := V.sum (-M.c₂ / M.b₂)
    have f2' : M.c₂ + -M.c₂ / M.b₂ * M.b₂ = 0 := f2
    rw [hb, f2'] at hs
    have hup : M.h < M.u (-M.c₂ / M.b₂) := hk
    have hc : 0 < M.c₁ := by
      have := mul_pos V.κ (lt_trans V.h hup)
      linarith
    have e1 := l₁_neg hb hc
    rw [e1, kept_neg V] at k1
    have h2 := hy.2
    rw [e1, e2, σ_fin hu] at h2
    simp only [Ext.lt, false_or] at h2
    rw [div_lt_iff_of_neg k1] at h2
    unfold Line.u at hup
    linarith [V.h]
  by_cases hb1 : L.b₁ = 0
  · exact main L H hu hb1 k1 k2 h
  by_cases hb2 : L.b₂ = 0
  · exact main L.swap H.swap hu hb2 k2 k1 ⟨h.1.symm, h.2.symm⟩
  have e1 := l₁_fin hb1
  have e2 : L.l₂ = .fin (-L.c₂ / L.b₂) := l₁_fin (L := L.swap) hb2
  obtain ⟨-, -, p1⟩ := l₁_kept_fin H e1.symm k1
  obtain ⟨-, -, p2⟩ := l₁_kept_fin H.swap e2.symm k2
  have p2 : L.h < L.u (-L.c₂ / L.b₂) := p2
  obtain ⟨h1, h2⟩ := h
  rw [e1, e2, σ_fin hu] at h1 h2
  simp only [Ext.lt] at h1 h2
  have hh := H.h
  unfold Line.u at p1 p2
  rcases lt_or_gt_of_ne hu with hu | hu
  · rw [div_lt_iff_of_neg hu, div_lt_iff_of_neg hu] at h2
    rcases h2 with h2 | h2 <;> linarith
  · rw [lt_div_iff₀ hu, lt_div_iff₀ hu] at h1
    rcases h1 with h1 | h1 <;> linarith

theorem discriminant (L : Line) (l : ℝ) : (2 * L.q2 * l + L.q1) ^ 2 = (L.q1 ^ 2 - 4 * L.q0 * L.q2) + 4 * L.q2 * L.Q l := by
  unfold Line.Q
  ring

theorem root_above (H : L.Valid) {l : ℝ} (h : L.Q l ≤ 0) : ∃ r, l ≤ r ∧ L.Q r = 0 := by
  have hq := H.q2
  have hd := discriminant L l
  have hD : (2 * L.q2 * l + L.q1) ^ 2 ≤ L.q1 ^ 2 - 4 * L.q0 * L.q2 := by nlinarith
  set D := L.q1 ^ 2 - 4 * L.q0 * L.q2
  have hD0 : 0 ≤ D := le_trans (sq_nonneg _) hD
  refine ⟨(-L.q1 + Real.sqrt D) / (2 * L.q2), ?_, ?_⟩
  · rw [le_div_iff₀ (by linarith)]
    have := Real.le_sqrt_of_sq_le hD
    linarith
  · have := discriminant L ((-L.q1 + Real.sqrt D) / (2 * L.q2))
    have e : 2 * L.q2 * ((-L.q1 + Real.sqrt D) / (2 * L.q2)) + L.q1 = Real.sqrt D := by
      field_simp
      ring
    rw [e, Real.sq_sqrt hD0] at this
    have h4 : 4 * L.q2 * L.Q ((-L.q1 + Real.sqrt D) / (2 * L.q2)) = 0 := by linarith
    exact (mul_eq_zero.1 h4).resolve_left (by linarith)

theorem root_below (H : L.Valid) {l : ℝ} (h : L.Q l ≤ 0) : ∃ r, r ≤ l ∧ L.Q r = 0 := by
  have hq := H.q2
  have hd := discriminant L l
  have hD : (2 * L.q2 * l + L.q1) ^ 2 ≤ L.q1 ^ 2 - 4 * L.q0 * L.q2 := by nlinarith
  set D := L.q1 ^ 2 - 4 * L.q0 * L.q2
  have hD0 : 0 ≤ D := le_trans (sq_nonneg _) hD
  refine ⟨(-L.q1 - Real.sqrt D) / (2 * L.q2), ?_, ?_⟩
  · rw [div_le_iff₀ (by linarith)]
    have := Real.neg_sqrt_le_of_sq_le hD
    linarith
  · have := discriminant L ((-L.q1 - Real.sqrt D) / (2 * L.q2))
    have e : 2 * L.q2 * ((-L.q1 - Real.sqrt D) / (2 * L.q2)) + L.q1 = -Real.sqrt D := by
      field_simp
      ring
    rw [e, neg_sq, Real.sq_sqrt hD0] at this
    have h4 : 4 * L.q2 * L.Q ((-L.q1 - Real.sqrt D) / (2 * L.q2)) = 0 := by linarith
    exact (mul_eq_zero.1 h4).resolve_left (by linarith)

/-- Beyond the horizon, a hidden point is inside the cone. -/
theorem inside (H : L.Valid) {l : ℝ} (hQ : 0 ≤ L.Q l) (hu : L.h ≤ L.u l) (hP : 0 < L.P l) : L.h < L.u l ∧ 0 < L.c₁ + l * L.b₁ ∧ 0 < L.c₂ + l * L.b₂ := by
  have hh := H.h
  have h1 : L.h < L.u l := by
    refine lt_of_le_of_ne hu fun e => ?_
    unfold Line.P at hP
    rw [← e] at hP
    nlinarith
  have hp := mul_pos H.κ hP
  rw [← H.prod l] at hp
  have hs := H.sum l
  have hpos : 0 < 2 * L.κ * L.u l := mul_pos (mul_pos two_pos H.κ) (by linarith)
  rcases mul_pos_iff.1 hp with h | h
  · exact ⟨h1, h⟩
  · linarith [h.1, h.2]

theorem in_l₁ (H : L.Valid) (hb : L.b₁ ≠ 0) (hu : L.h < L.u (-L.c₁ / L.b₁)) : L.In (.fin (-L.c₁ / L.b₁)) :=
  Or.inl ⟨(l₁_fin hb).symm, by rw [l₁_fin hb, kept_fin H]; exact hu⟩

theorem σ_sign (H : L.Valid) (hu : L.u1 ≠ 0) : (L.c₁ + -L.u0 / L.u1 * L.b₁) * (L.c₂ + -L.u0 / L.u1 * L.b₂) < 0 := by
  rw [H.prod]
  exact mul_neg_of_pos_of_neg H.κ (P_zero H (u_σ hu))

theorem above (H : L.Valid) {l : ℝ} (h : L.Hid l) : ∃ e, L.In e ∧ Ext.lt (.fin l) e := by
  have hh := H.h
  by_cases hQ : L.Q l < 0
  · obtain ⟨r, h1, h2⟩ := root_above H hQ.le
    refine ⟨.fin r, Or.inr (Or.inr (Or.inr ((in_quadratic H r).2 h2))), ?_⟩
    refine lt_of_le_of_ne h1 fun e => ?_
    rw [← e] at h2
    linarith
  · have hQ := not_lt.1 hQ
    obtain ⟨hu, hP⟩ := h.resolve_left (not_lt.2 hQ)
    obtain ⟨hu, p1, p2⟩ := inside H hQ hu hP
    -- A tangent that is crossed before the horizon.
    have tangent : ∀ (M : Line), M.Valid → M.u1 < 0 → ∀ t, l < t → M.u t = M.h → 0 < M.c₁ + l * M.b₁ → M.c₁ + t * M.b₁ < 0 → ∃ e, M.In e ∧ Ext.lt (.fin l) e := by
      intro M V hu t ht hut a b
      have hb : M.b₁ < 0 := by
        by_contra hc
        nlinarith [mul_nonneg (sub_nonneg.2 ht.le) (not_lt.1 hc)]
      have r1 : l < -M.c₁ / M.b₁ := by
        rw [lt_div_iff_of_neg hb]
        linarith
      have r2 : -M.c₁ / M.b₁ < t := by
        rw [div_lt_iff_of_neg hb]
        linarith
      refine ⟨_, in_l₁ V hb.ne ?_, r1⟩
      unfold Line.u at hut ⊢
      nlinarith
    rcases lt_or_ge L.u1 0 with hu1 | hu1
    · have hut := u_τ (L := L) hu1.ne
      have hlt : l < (L.h - L.u0) / L.u1 := by
        rw [lt_div_iff_of_neg hu1]
        unfold Line.u at hu
        linarith
      by_cases hQt : L.Q ((L.h - L.u0) / L.u1) ≤ 0
      · obtain ⟨r, h1, h2⟩ := root_above H hQt
        exact ⟨.fin r, Or.inr (Or.inr (Or.inr ((in_quadratic H r).2 h2))), lt_of_lt_of_le hlt h1⟩
      · have hPt : L.P ((L.h - L.u0) / L.u1) < 0 := by
          unfold Line.P
          rw [hut]
          nlinarith [mul_pos hh (not_le.1 hQt)]
        have hn := mul_neg_of_pos_of_neg H.κ hPt
        rw [← H.prod] at hn
        rcases mul_neg_iff.1 hn with ⟨-, h2⟩ | ⟨h1, -⟩
        · obtain ⟨e, he, hl⟩ := tangent L.swap H.swap hu1 _ hlt hut p2 h2
          exact ⟨e, swap_in he, hl⟩
        · exact tangent L H hu1 _ hlt hut p1 h1
    · have slope : ∀ (M : Line), M.Valid → 0 ≤ M.u1 → M.h < M.u l → 0 < M.c₁ + l * M.b₁ → M.b₁ < 0 → ∃ e, M.In e ∧ Ext.lt (.fin l) e := by
        intro M V hu1 hu a hb
        have r1 : l < -M.c₁ / M.b₁ := by
          rw [lt_div_iff_of_neg hb]
          linarith
        refine ⟨_, in_l₁ V hb.ne ?_, r1⟩
        unfold Line.u at hu ⊢
        nlinarith [mul_nonneg (sub_nonneg.2 r1.le) hu1]
      by_cases hb1 : L.b₁ < 0
      · exact slope L H hu1 hu p1 hb1
      by_cases hb2 : L.b₂ < 0
      · obtain ⟨e, he, hl⟩ := slope L.swap H.swap hu1 hu p2 hb2
        exact ⟨e, swap_in he, hl⟩
      have hb1 := not_lt.1 hb1
      have hb2 := not_lt.1 hb2
      have hu1' : 0 < L.u1 := by
        refine lt_of_le_of_ne hu1 fun e => ?_
        have := slopes H
        rw [← e, mul_zero] at this
        exact not_parallel H (by linarith) (by linarith)
      have hyper : ∀ (M : Line), M.Valid → 0 < M.u1 → 0 ≤ M.b₁ → 0 ≤ M.b₂ → 0 < M.c₂ + l * M.b₂ → 0 < M.c₁ + -M.u0 / M.u1 * M.b₁ → M.c₂ + -M.u0 / M.u1 * M.b₂ < 0 → Ext.lt M.l₁ M.σ ∧ Ext.lt M.σ M.l₂ := by
        intro M V hu1 hb1 hb2 p2 s1 s2
        have hb2' : 0 < M.b₂ := by
          refine lt_of_le_of_ne hb2 fun e => ?_
          rw [← e] at s2 p2
          linarith
        rw [show M.l₂ = .fin (-M.c₂ / M.b₂) from l₁_fin (L := M.swap) hb2'.ne', σ_fin hu1.ne']
        constructor
        · by_cases hb : M.b₁ = 0
          · rw [hb] at s1
            rw [l₁_neg hb (by linarith)]
            trivial
          · have hb1' : 0 < M.b₁ := lt_of_le_of_ne hb1 (Ne.symm hb)
            rw [l₁_fin hb]
            show -M.c₁ / M.b₁ < -M.u0 / M.u1
            rw [div_lt_iff₀ hb1']
            linarith
        · show -M.u0 / M.u1 < -M.c₂ / M.b₂
          rw [lt_div_iff₀ hb2']
          linarith
      have hy : L.Hyper := by
        rcases mul_neg_iff.1 (σ_sign H hu1'.ne') with ⟨s1, s2⟩ | ⟨s1, s2⟩
        · obtain ⟨a, b⟩ := hyper L H hu1' hb1 hb2 p2 s1 s2
          exact ⟨Or.inl a, Or.inr b⟩
        · obtain ⟨a, b⟩ := hyper L.swap H.swap hu1' hb2 hb1 p1 s2 s1
          exact ⟨Or.inr a, Or.inl b⟩
      refine ⟨.posInf, Or.inr (Or.inr (Or.inl ⟨hy, ?_⟩)), trivial⟩
      rw [infinity_eq H hu1'.ne', if_pos hu1']

theorem below (H : L.Valid) {l : ℝ} (h : L.Hid l) : ∃ e, L.In e ∧ Ext.lt e (.fin l) := by
  have hh := H.h
  by_cases hQ : L.Q l < 0
  · obtain ⟨r, h1, h2⟩ := root_below H hQ.le
    refine ⟨.fin r, Or.inr (Or.inr (Or.inr ((in_quadratic H r).2 h2))), ?_⟩
    refine lt_of_le_of_ne h1 fun e => ?_
    rw [e] at h2
    linarith
  · have hQ := not_lt.1 hQ
    obtain ⟨hu, hP⟩ := h.resolve_left (not_lt.2 hQ)
    obtain ⟨hu, p1, p2⟩ := inside H hQ hu hP
    have tangent : ∀ (M : Line), M.Valid → 0 < M.u1 → ∀ t, t < l → M.u t = M.h → 0 < M.c₁ + l * M.b₁ → M.c₁ + t * M.b₁ < 0 → ∃ e, M.In e ∧ Ext.lt e (.fin l) := by
      intro M V hu t ht hut a b
      have hb : 0 < M.b₁ := by
        by_contra hc
        nlinarith [mul_nonneg (sub_nonneg.2 ht.le) (neg_nonneg.2 (not_lt.1 hc))]
      have r1 : -M.c₁ / M.b₁ < l := by
        rw [div_lt_iff₀ hb]
        linarith
      have r2 : t < -M.c₁ / M.b₁ := by
        rw [lt_div_iff₀ hb]
        linarith
      refine ⟨_, in_l₁ V hb.ne' ?_, r1⟩
      unfold Line.u at hut ⊢
      nlinarith
    rcases lt_or_ge 0 L.u1 with hu1 | hu1
    · have hut := u_τ (L := L) hu1.ne'
      have hlt : (L.h - L.u0) / L.u1 < l := by
        rw [div_lt_iff₀ hu1]
        unfold Line.u at hu
        linarith
      by_cases hQt : L.Q ((L.h - L.u0) / L.u1) ≤ 0
      · obtain ⟨r, h1, h2⟩ := root_below H hQt
        exact ⟨.fin r, Or.inr (Or.inr (Or.inr ((in_quadratic H r).2 h2))), lt_of_le_of_lt h1 hlt⟩
      · have hPt : L.P ((L.h - L.u0) / L.u1) < 0 := by
          unfold Line.P
          rw [hut]
          nlinarith [mul_pos hh (not_le.1 hQt)]
        have hn := mul_neg_of_pos_of_neg H.κ hPt
        rw [← H.prod] at hn
        rcases mul_neg_iff.1 hn with ⟨-, h2⟩ | ⟨h1, -⟩
        · obtain ⟨e, he, hl⟩ := tangent L.swap H.swap hu1 _ hlt hut p2 h2
          exact ⟨e, swap_in he, hl⟩
        · exact tangent L H hu1 _ hlt hut p1 h1
    · have slope : ∀ (M : Line), M.Valid → M.u1 ≤ 0 → M.h < M.u l → 0 < M.c₁ + l * M.b₁ → 0 < M.b₁ → ∃ e, M.In e ∧ Ext.lt e (.fin l) := by
        intro M V hu1 hu a hb
        have r1 : -M.c₁ / M.b₁ < l := by
          rw [div_lt_iff₀ hb]
          linarith
        refine ⟨_, in_l₁ V hb.ne' ?_, r1⟩
        unfold Line.u at hu ⊢
        nlinarith [mul_nonneg (sub_nonneg.2 r1.le) (neg_nonneg.2 hu1)]
      by_cases hb1 : 0 < L.b₁
      · exact slope L H hu1 hu p1 hb1
      by_cases hb2 : 0 < L.b₂
      · obtain ⟨e, he, hl⟩ := slope L.swap H.swap hu1 hu p2 hb2
        exact ⟨e, swap_in he, hl⟩
      have hb1 := not_lt.1 hb1
      have hb2 := not_lt.1 hb2
      have hu1' : L.u1 < 0 := by
        refine lt_of_le_of_ne hu1 fun e => ?_
        have := slopes H
        rw [e, mul_zero] at this
        exact not_parallel H (by linarith) (by linarith)
      have flat : ∀ (M : Line), M.Valid → M.u1 < 0 → M.b₁ = 0 → 0 < M.c₁ + l * M.b₁ → ∃ e, M.In e ∧ Ext.lt e (.fin l) := by
        intro M V hu1 hb a
        rw [hb] at a
        have e := l₁_neg hb (by linarith)
        exact ⟨.negInf, Or.inl ⟨e.symm, by rw [e, kept_neg V]; exact hu1⟩, trivial⟩
      by_cases hz1 : L.b₁ = 0
      · exact flat L H hu1' hz1 p1
      by_cases hz2 : L.b₂ = 0
      · obtain ⟨e, he, hl⟩ := flat L.swap H.swap hu1' hz2 p2
        exact ⟨e, swap_in he, hl⟩
      have hb1' : L.b₁ < 0 := lt_of_le_of_ne hb1 hz1
      have hb2' : L.b₂ < 0 := lt_of_le_of_ne hb2 hz2
      have hy : L.Hyper := by
        unfold Line.Hyper
        rw [l₁_fin hz1, show L.l₂ = .fin (-L.c₂ / L.b₂) from l₁_fin (L := L.swap) hz2, σ_fin hu1'.ne]
        show (-L.c₁ / L.b₁ < -L.u0 / L.u1 ∨ -L.c₂ / L.b₂ < -L.u0 / L.u1) ∧ (-L.u0 / L.u1 < -L.c₁ / L.b₁ ∨ -L.u0 / L.u1 < -L.c₂ / L.b₂)
        rw [div_lt_iff_of_neg hb1', div_lt_iff_of_neg hb2', lt_div_iff_of_neg hb1', lt_div_iff_of_neg hb2']
        rcases mul_neg_iff.1 (σ_sign H hu1'.ne) with ⟨s1, s2⟩ | ⟨s1, s2⟩
        · exact ⟨Or.inr (by linarith), Or.inl (by linarith)⟩
        · exact ⟨Or.inl (by linarith), Or.inr (by linarith)⟩
      refine ⟨.negInf, Or.inr (Or.inr (Or.inl ⟨hy, ?_⟩)), trivial⟩
      rw [infinity_eq H hu1'.ne, if_neg (by linarith)]

end Line

end Principia.Geometry.Perspectives
