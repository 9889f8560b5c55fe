import Verif.Numerics.GradientDescentModel
import Mathlib.Analysis.Calculus.Deriv.MeanValue
import Mathlib.Analysis.Calculus.Deriv.Pow
import Mathlib.Topology.MetricSpace.UniformConvergence
import Mathlib.Topology.UniformSpace.HeineCantor
import Mathlib.Topology.MetricSpace.Pseudo.Basic
import Mathlib.Analysis.SpecificLimits.Basic
import Mathlib.Tactic.Linarith
import Mathlib.Tactic.Ring
import Mathlib.Tactic.ByContra

/-!
C84: the line search.
-/

set_option linter.unusedSimpArgs false
set_option linter.unusedVariables false

namespace Principia.Numerics.GradientDescent

noncomputable section

/-- The strong Wolfe conditions for the step α, with the constants 10⁻⁴ and 0.9. -/
def StrongWolfe (ϕ ϕ' : ℝ → ℝ) (α : ℝ) : Prop := ϕ α ≤ ϕ 0 + 1 / 10000 * α * ϕ' 0 ∧ |ϕ' α| ≤ 9 / 10 * |ϕ' 0|

structure Inv (ϕ ϕ' : ℝ → ℝ) (A : ℝ) (s : ZoomState) : Prop where
  lo0 : 0 ≤ s.lo
  hi0 : 0 ≤ s.hi
  loA : s.lo ≤ A
  hiA : s.hi ≤ A
  ne : s.lo ≠ s.hi
  eLo : s.ϕLo = ϕ s.lo
  armijo : ϕ s.lo ≤ ϕ 0 + c₁ * s.lo * ϕ' 0
  bad : ϕ 0 + c₁ * s.hi * ϕ' 0 < ϕ s.hi ∨ ϕ s.lo ≤ ϕ s.hi
  slope : ϕ' s.lo * (s.hi - s.lo) < 0
  steep : -c₂ * ϕ' 0 < |ϕ' s.lo|

/-- The candidate is well inside of the interval. -/
theorem candidate_mem (s : ZoomState) : min s.lo s.hi + |s.hi - s.lo| / 100 ≤ candidate s ∧ candidate s ≤ max s.lo s.hi - |s.hi - s.lo| / 100 := by
  have hmid : min s.lo s.hi + |s.hi - s.lo| / 100 ≤ (s.lo + s.hi) / 2 ∧ (s.lo + s.hi) / 2 ≤ max s.lo s.hi - |s.hi - s.lo| / 100 := by
    rcases le_total s.lo s.hi with h | h
    · rw [min_eq_left h, max_eq_right h, abs_of_nonneg (by linarith)]; constructor <;> linarith
    · rw [min_eq_right h, max_eq_left h, abs_of_nonpos (by linarith)]; constructor <;> linarith
  rw [candidate]
  cases (Hermite2s.construct (s.lo, s.hi) (s.ϕLo, s.ϕHi) s.ϕ'Lo).bind Hermite2s.Hermite2.findExtremum with
  | none => exact hmid
  | some e =>
    simp only
    by_cases h : min s.lo s.hi + |s.hi - s.lo| * hermite2Tolerance < e ∧ e < max s.lo s.hi - |s.hi - s.lo| * hermite2Tolerance
    · rw [if_pos h]
      have : |s.hi - s.lo| * hermite2Tolerance = |s.hi - s.lo| / 100 := by rw [hermite2Tolerance]; ring
      rw [this] at h
      exact ⟨h.1.le, h.2.le⟩
    · rw [if_neg h]; exact hmid

/-- The position of the candidate, as a fraction of the interval. -/
theorem candidate_eq (s : ZoomState) (hne : s.lo ≠ s.hi) : ∃ θ : ℝ, 1 / 100 ≤ θ ∧ θ ≤ 99 / 100 ∧ candidate s = s.lo + θ * (s.hi - s.lo) := by
  obtain ⟨h1, h2⟩ := candidate_mem s
  have hd : s.hi - s.lo ≠ 0 := sub_ne_zero.mpr hne.symm
  refine ⟨(candidate s - s.lo) / (s.hi - s.lo), ?_, ?_, by rw [div_mul_cancel₀ _ hd]; ring⟩
  · rcases lt_or_gt_of_ne hne with h | h
    · rw [min_eq_left h.le, abs_of_pos (by linarith)] at h1
      rw [le_div_iff₀ (by linarith)]; linarith
    · rw [max_eq_left h.le, abs_of_neg (by linarith)] at h2
      rw [le_div_iff_of_neg (by linarith)]; linarith
  · rcases lt_or_gt_of_ne hne with h | h
    · rw [max_eq_right h.le, abs_of_pos (by linarith)] at h2
      rw [div_le_iff₀ (by linarith)]; linarith
    · rw [min_eq_right h.le, abs_of_neg (by linarith)] at h1
      rw [div_le_iff_of_neg (by linarith)]; linarith

/-- One iteration. -/
theorem zoom_step (ϕ ϕ' : ℝ → ℝ) (A : ℝ) (h0 : ϕ' 0 < 0) (s : ZoomState) (hs : Inv ϕ ϕ' A s) (fuel : ℕ) :
    (∃ α, zoom ϕ ϕ' (ϕ 0) (ϕ' 0) (fuel + 1) s = .done (α, false) ∧ 0 < α) ∨
    (∃ α, zoom ϕ ϕ' (ϕ 0) (ϕ' 0) (fuel + 1) s = .done (α, true) ∧ 0 < α ∧ StrongWolfe ϕ ϕ' α) ∨
    ∃ s', zoom ϕ ϕ' (ϕ 0) (ϕ' 0) (fuel + 1) s = zoom ϕ ϕ' (ϕ 0) (ϕ' 0) fuel s' ∧ Inv ϕ ϕ' A s' ∧ |s'.hi - s'.lo| ≤ 99 / 100 * |s.hi - s.lo| := by
  obtain ⟨θ, t1, t2, hα⟩ := candidate_eq s hs.ne
  have hd : s.hi - s.lo ≠ 0 := sub_ne_zero.mpr hs.ne.symm
  have hpos : 0 < candidate s := by
    rw [hα]
    have e : s.lo + θ * (s.hi - s.lo) = (1 - θ) * s.lo + θ * s.hi := by ring
    rw [e]
    rcases hs.lo0.lt_or_eq with h | h
    · have := mul_pos (show 0 < 1 - θ by linarith) h
      have := mul_nonneg (show 0 ≤ θ by linarith) hs.hi0
      linarith
    · have h' : 0 < s.hi := lt_of_le_of_ne hs.hi0 (by rw [h]; exact hs.ne)
      have := mul_pos (show 0 < θ by linarith) h'
      have := mul_nonneg (show 0 ≤ 1 - θ by linarith) hs.lo0
      linarith
  have hA : candidate s ≤ A := by
    rw [hα]
    have e : s.lo + θ * (s.hi - s.lo) = (1 - θ) * s.lo + θ * s.hi := by ring
    rw [e]
    have := mul_le_mul_of_nonneg_left hs.loA (show 0 ≤ 1 - θ by linarith)
    have := mul_le_mul_of_nonneg_left hs.hiA (show 0 ≤ θ by linarith)
    linarith
  have w1 : |candidate s - s.lo| ≤ 99 / 100 * |s.hi - s.lo| := by
    rw [hα, add_sub_cancel_left, abs_mul, abs_of_pos (by linarith : 0 < θ)]
    exact mul_le_mul_of_nonneg_right t2 (abs_nonneg _)
  have w2 : |s.hi - candidate s| ≤ 99 / 100 * |s.hi - s.lo| := by
    have e : s.hi - candidate s = (1 - θ) * (s.hi - s.lo) := by rw [hα]; ring
    rw [e, abs_mul, abs_of_pos (by linarith : 0 < 1 - θ)]
    exact mul_le_mul_of_nonneg_right (by linarith) (abs_nonneg _)
  have ne1 : candidate s ≠ s.lo := by
    intro h
    rw [hα] at h
    have : θ * (s.hi - s.lo) = 0 := by linarith
    rcases mul_eq_zero.mp this with h | h
    · linarith
    · exact hd h
  have ne2 : candidate s ≠ s.hi := by
    intro h
    rw [hα] at h
    have : (1 - θ) * (s.hi - s.lo) = 0 := by linarith
    rcases mul_eq_zero.mp this with h | h
    · linarith
    · exact hd h
  have hsl1 : candidate s - s.lo = θ * (s.hi - s.lo) := by rw [hα]; ring
  have hsl2 : s.hi - candidate s = (1 - θ) * (s.hi - s.lo) := by rw [hα]; ring
  rw [zoom, if_neg hs.ne]
  simp only
  by_cases hp : s.previous = some (ϕ (candidate s))
  · left; exact ⟨candidate s, by rw [if_pos hp], hpos⟩
  · right
    rw [if_neg hp]
    by_cases hb : ϕ (candidate s) > ϕ 0 + c₁ * candidate s * ϕ' 0 ∨ ϕ (candidate s) ≥ s.ϕLo
    · right
      rw [if_pos hb]
      refine ⟨_, rfl, ⟨hs.lo0, hpos.le, hs.loA, hA, ne1.symm, hs.eLo, hs.armijo, ?_, ?_, hs.steep⟩, w1⟩
      · rcases hb with h | h
        · exact Or.inl h
        · right; rw [← hs.eLo]; exact h
      · show ϕ' s.lo * (candidate s - s.lo) < 0
        rw [hsl1]
        have := mul_neg_of_pos_of_neg (show 0 < θ by linarith) hs.slope
        linarith
    · rw [if_neg hb]
      push Not at hb
      obtain ⟨hb1, hb2⟩ := hb
      by_cases hw : |ϕ' (candidate s)| ≤ -c₂ * ϕ' 0
      · left
        refine ⟨candidate s, by rw [if_pos hw], hpos, hb1, ?_⟩
        rw [abs_of_neg h0]; rw [c₂] at hw; linarith
      · right
        rw [if_neg hw]
        push Not at hw
        by_cases hsg : ϕ' (candidate s) * (s.hi - s.lo) ≥ 0
        · rw [if_pos hsg]
          refine ⟨_, rfl, ⟨hpos.le, hs.lo0, hA, hs.loA, ne1, rfl, hb1, Or.inr ?_, ?_, hw⟩, ?_⟩
          · show ϕ (candidate s) ≤ ϕ s.lo
            rw [← hs.eLo]; exact hb2.le
          · show ϕ' (candidate s) * (s.lo - candidate s) < 0
            have e : s.lo - candidate s = -(θ * (s.hi - s.lo)) := by rw [hα]; ring
            have hne : ϕ' (candidate s) ≠ 0 := by
              intro h
              rw [h, abs_zero, c₂] at hw; linarith
            have : 0 < ϕ' (candidate s) * (s.hi - s.lo) := lt_of_le_of_ne hsg (mul_ne_zero hne hd).symm
            have := mul_pos (show 0 < θ by linarith) this
            rw [e]; linarith
          · show |s.lo - candidate s| ≤ _
            rw [abs_sub_comm]; exact w1
        · rw [if_neg hsg]
          push Not at hsg
          refine ⟨_, rfl, ⟨hpos.le, hs.hi0, hA, hs.hiA, ne2, rfl, hb1, ?_, ?_, hw⟩, w2⟩
          · rcases hs.bad with h | h
            · exact Or.inl h
            · right
              show ϕ (candidate s) ≤ ϕ s.hi
              rw [hs.eLo] at hb2; linarith
          · show ϕ' (candidate s) * (s.hi - candidate s) < 0
            rw [hsl2]
            have := mul_neg_of_pos_of_neg (show 0 < 1 - θ by linarith) hsg
            linarith

/-- The interval cannot be small, since the derivative varies a lot in it. -/
theorem inv_wide (ϕ ϕ' : ℝ → ℝ) (hϕ : ∀ t, HasDerivAt ϕ (ϕ' t) t) (A δ : ℝ) (h0 : ϕ' 0 < 0)
    (hδ : ∀ s t, 0 ≤ s → s ≤ A → 0 ≤ t → t ≤ A → |s - t| < δ → |ϕ' s - ϕ' t| < 8 / 10 * |ϕ' 0|) (s : ZoomState) (hs : Inv ϕ ϕ' A s) : δ ≤ |s.hi - s.lo| := by
  by_contra hlt
  push Not at hlt
  rw [abs_of_neg h0] at hδ
  have harm := hs.armijo
  have hst := hs.steep
  rw [c₁] at harm
  rw [c₂] at hst
  rcases lt_or_gt_of_ne hs.ne with h | h
  · obtain ⟨c, hc, hc'⟩ := exists_hasDerivAt_eq_slope ϕ ϕ' h (fun t _ => (hϕ t).continuousAt.continuousWithinAt) (fun t _ => hϕ t)
    have hw : 0 < s.hi - s.lo := by linarith
    rw [abs_of_pos hw] at hlt
    have hsl : ϕ' s.lo < 0 := by
      by_contra h'
      push Not at h'
      have := mul_nonneg h' hw.le
      linarith [hs.slope]
    rw [abs_of_neg hsl] at hst
    have := hδ c s.lo (by linarith [hs.lo0, hc.1]) (by linarith [hs.hiA, hc.2]) hs.lo0 hs.loA (by rw [abs_of_pos (by linarith [hc.1])]; linarith [hc.2])
    have hcb : 1 / 10000 * ϕ' 0 ≤ ϕ' c := by
      rw [hc', le_div_iff₀ hw]
      rcases hs.bad with hb | hb
      · rw [c₁] at hb; linarith
      · have := mul_pos (neg_pos.mpr h0) hw
        linarith
    rw [abs_lt] at this
    linarith [this.2]
  · obtain ⟨c, hc, hc'⟩ := exists_hasDerivAt_eq_slope ϕ ϕ' h (fun t _ => (hϕ t).continuousAt.continuousWithinAt) (fun t _ => hϕ t)
    have hw : 0 < s.lo - s.hi := by linarith
    rw [abs_of_neg (by linarith)] at hlt
    have hsl : 0 < ϕ' s.lo := by
      by_contra h'
      push Not at h'
      have := mul_nonneg_of_nonpos_of_nonpos h' (by linarith : s.hi - s.lo ≤ 0)
      linarith [hs.slope]
    rw [abs_of_pos hsl] at hst
    have := hδ c s.lo (by linarith [hs.hi0, hc.1]) (by linarith [hs.loA, hc.2]) hs.lo0 hs.loA (by rw [abs_of_neg (by linarith [hc.2])]; linarith [hc.1])
    have hcb : ϕ' c ≤ 0 := by
      rw [hc']
      apply div_nonpos_of_nonpos_of_nonneg _ hw.le
      rcases hs.bad with hb | hb
      · rw [c₁] at hb
        have := mul_pos (neg_pos.mpr h0) hw
        linarith
      · linarith
    rw [abs_lt] at this
    linarith [this.1]

theorem zoom_correct (ϕ ϕ' : ℝ → ℝ) (A : ℝ) (h0 : ϕ' 0 < 0) (fuel : ℕ) (s : ZoomState) (hs : Inv ϕ ϕ' A s) :
    zoom ϕ ϕ' (ϕ 0) (ϕ' 0) fuel s = .running ∨ ∃ α b, zoom ϕ ϕ' (ϕ 0) (ϕ' 0) fuel s = .done (α, b) ∧ 0 < α ∧ (b = true → StrongWolfe ϕ ϕ' α) := by
  induction fuel generalizing s with
  | zero => exact Or.inl rfl
  | succ fuel ih =>
    rcases zoom_step ϕ ϕ' A h0 s hs fuel with ⟨α, h, hp⟩ | ⟨α, h, hp, hw⟩ | ⟨s', h, hi, -⟩
    · exact Or.inr ⟨α, false, h, hp, by simp⟩
    · exact Or.inr ⟨α, true, h, hp, fun _ => hw⟩
    · rw [h]; exact ih s' hi

theorem zoom_terminates (ϕ ϕ' : ℝ → ℝ) (hϕ : ∀ t, HasDerivAt ϕ (ϕ' t) t) (A δ : ℝ) (h0 : ϕ' 0 < 0)
    (hδ : ∀ s t, 0 ≤ s → s ≤ A → 0 ≤ t → t ≤ A → |s - t| < δ → |ϕ' s - ϕ' t| < 8 / 10 * |ϕ' 0|) (fuel : ℕ) (s : ZoomState) (hs : Inv ϕ ϕ' A s)
    (hf : (99 / 100 : ℝ) ^ fuel * |s.hi - s.lo| < δ) : zoom ϕ ϕ' (ϕ 0) (ϕ' 0) fuel s ≠ .running := by
  induction fuel generalizing s with
  | zero =>
    have := inv_wide ϕ ϕ' hϕ A δ h0 hδ s hs
    rw [pow_zero, one_mul] at hf; linarith
  | succ fuel ih =>
    rcases zoom_step ϕ ϕ' A h0 s hs fuel with ⟨α, h, hp⟩ | ⟨α, h, hp, hw⟩ | ⟨s', h, hi, hw⟩
    · rw [h]; simp
    · rw [h]; simp
    · rw [h]
      apply ih s' hi
      have := mul_le_mul_of_nonneg_left hw (show (0 : ℝ) ≤ (99 / 100) ^ fuel by positivity)
      rw [pow_succ] at hf; linarith

theorem inv_first (ϕ ϕ' : ℝ → ℝ) (A α : ℝ) (h0 : ϕ' 0 < 0) (hα : 0 < α) (hA : α ≤ A) (hb : ϕ α > ϕ 0 + c₁ * α * ϕ' 0 ∨ ϕ α ≥ ϕ 0) (p : Option ℝ) :
    Inv ϕ ϕ' A ⟨0, α, ϕ 0, ϕ α, ϕ' 0, p⟩ := by
  refine ⟨le_rfl, hα.le, by simp only; linarith, hA, hα.ne, rfl, by simp, hb, ?_, ?_⟩
  · simp only; rw [sub_zero]; exact mul_neg_of_neg_of_pos h0 hα
  · simp only; rw [abs_of_neg h0, c₂]; linarith

theorem inv_second (ϕ ϕ' : ℝ → ℝ) (A α : ℝ) (h0 : ϕ' 0 < 0) (hα : 0 < α) (hA : α ≤ A) (hb1 : ϕ α ≤ ϕ 0 + c₁ * α * ϕ' 0) (hb2 : ϕ α < ϕ 0) (hs : 0 ≤ ϕ' α) (hw : -c₂ * ϕ' 0 < |ϕ' α|) (p : Option ℝ) :
    Inv ϕ ϕ' A ⟨α, 0, ϕ α, ϕ 0, ϕ' α, p⟩ := by
  refine ⟨hα.le, le_rfl, hA, by simp only; linarith, hα.ne', rfl, hb1, Or.inr hb2.le, ?_, hw⟩
  simp only
  have : 0 < ϕ' α := by
    rw [abs_of_nonneg hs, c₂] at hw; linarith
  rw [zero_sub]; have := mul_pos this hα; linarith

/-- One iteration of the loop of the line search. -/
theorem lineSearchLoop_correct (ϕ ϕ' : ℝ → ℝ) (h0 : ϕ' 0 < 0) (zoomFuel fuel : ℕ) (α : ℝ) (hα : 0 < α) :
    lineSearchLoop ϕ ϕ' (ϕ 0) (ϕ' 0) zoomFuel fuel α = .running ∨
      ∃ β b, lineSearchLoop ϕ ϕ' (ϕ 0) (ϕ' 0) zoomFuel fuel α = .done (β, b) ∧ 0 < β ∧ (b = true → StrongWolfe ϕ ϕ' β) := by
  induction fuel generalizing α with
  | zero => exact Or.inl rfl
  | succ fuel ih =>
    rw [lineSearchLoop]
    simp only
    by_cases hb : ϕ α > ϕ 0 + c₁ * α * ϕ' 0 ∨ ϕ α ≥ ϕ 0
    · rw [if_pos hb]
      exact zoom_correct ϕ ϕ' α h0 _ _ (inv_first ϕ ϕ' α α h0 hα le_rfl hb none)
    · rw [if_neg hb]
      push Not at hb
      by_cases hw : |ϕ' α| ≤ -c₂ * ϕ' 0
      · rw [if_pos hw]
        refine Or.inr ⟨α, true, rfl, hα, fun _ => ⟨hb.1, ?_⟩⟩
        rw [abs_of_neg h0]; rw [c₂] at hw; linarith
      · rw [if_neg hw]
        push Not at hw
        by_cases hs : ϕ' α ≥ 0
        · rw [if_pos hs]
          exact zoom_correct ϕ ϕ' α h0 _ _ (inv_second ϕ ϕ' α α h0 hα le_rfl hb.1 hb.2 hs hw none)
        · rw [if_neg hs]
          exact ih _ (by rw [αMultiplier]; linarith)

theorem lineSearchLoop_terminates (ϕ ϕ' : ℝ → ℝ) (hϕ : ∀ t, HasDerivAt ϕ (ϕ' t) t) (B δ A : ℝ) (h0 : ϕ' 0 < 0) (hB : ∀ t, B ≤ ϕ t)
    (hA : B > ϕ 0 + c₁ * A * ϕ' 0)
    (hδ : ∀ s t, 0 ≤ s → s ≤ 2 * A → 0 ≤ t → t ≤ 2 * A → |s - t| < δ → |ϕ' s - ϕ' t| < 8 / 10 * |ϕ' 0|) (zoomFuel : ℕ) (hz : (99 / 100 : ℝ) ^ zoomFuel * (2 * A) < δ)
    (fuel : ℕ) (α : ℝ) (hα : 0 < α) (hα2 : α ≤ 2 * A) (hf : A ≤ 2 ^ fuel * α) :
    lineSearchLoop ϕ ϕ' (ϕ 0) (ϕ' 0) zoomFuel (fuel + 1) α ≠ .running := by
  have hz' : (99 / 100 : ℝ) ^ zoomFuel * α < δ := lt_of_le_of_lt (mul_le_mul_of_nonneg_left hα2 (by positivity)) hz
  rw [lineSearchLoop]
  simp only
  by_cases hb : ϕ α > ϕ 0 + c₁ * α * ϕ' 0 ∨ ϕ α ≥ ϕ 0
  · rw [if_pos hb]
    exact zoom_terminates ϕ ϕ' hϕ (2 * A) δ h0 hδ zoomFuel _ (inv_first ϕ ϕ' _ α h0 hα hα2 hb none) (by simp only; rw [sub_zero, abs_of_pos hα]; exact hz')
  · rw [if_neg hb]
    push Not at hb
    have hαA : α < A := by
      by_contra h
      push Not at h
      have h1 := hB α
      rw [c₁] at hA hb
      have := mul_nonneg (neg_nonneg.mpr h0.le) (sub_nonneg.mpr h)
      linarith [hb.1]
    by_cases hw : |ϕ' α| ≤ -c₂ * ϕ' 0
    · rw [if_pos hw]; simp
    · rw [if_neg hw]
      push Not at hw
      by_cases hs : ϕ' α ≥ 0
      · rw [if_pos hs]
        exact zoom_terminates ϕ ϕ' hϕ (2 * A) δ h0 hδ zoomFuel _ (inv_second ϕ ϕ' _ α h0 hα hα2 hb.1 hb.2 hs hw none) (by simp only; rw [zero_sub, abs_neg, abs_of_pos hα]; exact hz')
      · rw [if_neg hs]
        rw [αMultiplier]
        cases fuel with
        | zero => rw [pow_zero, one_mul] at hf; linarith
        | succ fuel =>
          exact lineSearchLoop_terminates ϕ ϕ' hϕ B δ A h0 hB hA hδ zoomFuel hz fuel (α * 2) (by linarith) (by linarith) (by rw [pow_succ] at hf; linarith)
termination_by fuel

end

end Principia.Numerics.GradientDescent
