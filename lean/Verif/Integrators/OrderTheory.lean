import Verif.Integrators.Trees
import Mathlib.Analysis.Calculus.FDeriv.Analytic
import Mathlib.Analysis.Calculus.Deriv.Prod

/-!
The expansions of the stages of a method of the Runge-Kutta family and of the solution of the equation in the powers of the step.
-/

set_option linter.unusedSimpArgs false
set_option linter.unusedVariables false
set_option linter.unusedSectionVars false

namespace Principia.Integrators

open Asymptotics Filter Topology

variable {U V : Type*} [NormedAddCommGroup U] [NormedSpace ℝ U] [NormedAddCommGroup V] [NormedSpace ℝ V]

/-- The values of the right-hand side at the stages of an explicit method. -/
noncomputable def stageValue (kinds : List Bool) (F : U → V) (x0 x1 : U) (ι : Bool → V →L[ℝ] U) (c : ℕ → ℝ) (a : Bool → ℕ → ℕ → ℝ) (h : ℝ) (i : ℕ) : V :=
  F (x0 + ((c i * h) • x1 + (kinds.map fun κ => h ^ degree κ • ι κ (∑ j : Fin i, a κ i j • stageValue kinds F x0 x1 ι c a h j)).sum))

theorem stageValue_eq (kinds : List Bool) (F : U → V) (x0 x1 : U) (ι : Bool → V →L[ℝ] U) (c : ℕ → ℝ) (a : Bool → ℕ → ℕ → ℝ) (h : ℝ) (i : ℕ) :
    stageValue kinds F x0 x1 ι c a h i =
      F (x0 + ((c i * h) • x1 + (kinds.map fun κ => h ^ degree κ • ι κ (∑ j ∈ Finset.range i, a κ i j • stageValue kinds F x0 x1 ι c a h j)).sum)) := by
  rw [stageValue]
  simp only [Finset.sum_range]

/-- A contribution, when the coefficients of the value of the right-hand side are multiplied by those of its integral. -/
theorem contribution_coeff (kinds : List Bool) (x1 : U) (ι : Bool → V →L[ℝ] U) (p : FormalMultilinearSeries ℝ U V) (wv : ℝ) (wg : Bool → Forest → ℝ) (m : ℕ) :
    argumentCoeff kinds x1 ι p wv wg m =
      (if 1 ≤ m then (if m - 1 = 0 then wv • x1 else 0) else 0) + (kinds.map fun κ => if degree κ ≤ m then ι κ (valueCoeff kinds x1 ι p (wg κ) (m - degree κ)) else 0).sum := by
  rw [argumentCoeff]
  congr 1
  · by_cases h : m = 1
    · rw [if_pos h, if_pos (by omega), if_pos (by omega)]
    · rw [if_neg h]
      by_cases h' : 1 ≤ m
      · rw [if_pos h', if_neg (by omega)]
      · rw [if_neg h']
  · refine sum_map_congr fun κ _ => ?_
    split_ifs
    · have := sum_map_linear (forests kinds (m - degree κ)) ((ι κ : V →+ U)) (fun φ => wg κ φ • φ.differential x1 ι p)
      rw [valueCoeff]
      refine Eq.trans ?_ this.symm
      refine sum_map_congr fun φ _ => ?_
      simp
    · rfl

theorem stageValue_exp (kinds : List Bool) {F : U → V} {x0 : U} (x1 : U) (ι : Bool → V →L[ℝ] U) {p : FormalMultilinearSeries ℝ U V} (hF : HasFPowerSeriesAt F p x0) (c : ℕ → ℝ)
    (a : Bool → ℕ → ℕ → ℝ) (i n : ℕ) :
    HasExp n (fun h => stageValue kinds F x0 x1 ι c a h i) (valueCoeff kinds x1 ι p fun φ => φ.stage c a i) := by
  induction i using Nat.strong_induction_on generalizing n with
  | _ i ih =>
    suffices h : HasExp (n + 1) (fun h => stageValue kinds F x0 x1 ι c a h i) (valueCoeff kinds x1 ι p fun φ => φ.stage c a i) from h.mono (Nat.le_succ n)
    have hz : HasExp (n + 1) (fun h : ℝ => (c i * h) • x1 + (kinds.map fun κ => h ^ degree κ • ι κ (∑ j ∈ Finset.range i, a κ i j • stageValue kinds F x0 x1 ι c a h j)).sum)
        (argumentCoeff kinds x1 ι p (c i) fun κ ψ => ∑ j ∈ Finset.range i, a κ i j * ψ.stage c a j) := by
      have h1 := (hasExp_const n (c i • x1)).pow_smul 1
      have h2 : HasExp (n + 1) (fun h : ℝ => (kinds.map fun κ => h ^ degree κ • ι κ (∑ j ∈ Finset.range i, a κ i j • stageValue kinds F x0 x1 ι c a h j)).sum)
          (fun m => (kinds.map fun κ => if degree κ ≤ m then ι κ (∑ j ∈ Finset.range i, a κ i j • valueCoeff kinds x1 ι p (fun φ => φ.stage c a j) (m - degree κ)) else 0).sum) := by
        refine HasExp.listSum kinds fun κ _ => ?_
        have h3 := ((HasExp.sum (Finset.range i) fun j hj => (ih j (Finset.mem_range.mp hj) (n + 1)).const_smul (a κ i j)).clm (ι κ)).pow_smul (degree κ)
        exact h3.mono (Nat.le_add_right _ _)
      refine (h1.add h2).congr (Eventually.of_forall fun h => ?_) fun m _ => ?_
      · simp only [pow_one, smul_smul, mul_comm]
      · rw [contribution_coeff]
        congr 1
        refine sum_map_congr fun κ _ => ?_
        split_ifs
        · congr 1
          simp only [valueCoeff]
          simp only [← sum_map_smul]
          rw [sum_map_comm]
          refine sum_map_congr fun φ _ => ?_
          rw [Finset.sum_smul]
          exact Finset.sum_congr rfl fun j _ => by rw [smul_smul]
        · rfl
    have := HasExp.compose kinds (Nat.succ_pos n) x1 ι hF _ _ hz
    refine this.congr (Eventually.of_forall fun h => ?_) fun m _ => ?_
    · rw [stageValue_eq]
    · simp only [valueCoeff]
      refine sum_map_congr fun φ _ => ?_
      rw [Forest.stage_eq_product c a i φ]

/-- The coefficients of the integral, once or twice. -/
noncomputable def integratedTimes (κ : Bool) (a : ℕ → V) : ℕ → V := if κ then integrated a else integrated (integrated a)

theorem exact_exp (kinds : List Bool) {F : U → V} {x0 : U} (x1 : U) (ι : Bool → V →L[ℝ] U) {p : FormalMultilinearSeries ℝ U V} (hF : HasFPowerSeriesAt F p x0) {k : ℝ → V} {J : Bool → ℝ → V}
    (hk : ∀ᶠ h in 𝓝 0, k h = F (x0 + (h • x1 + (kinds.map fun κ => ι κ (J κ h)).sum))) (hJ0 : ∀ κ ∈ kinds, Tendsto (J κ) (𝓝 0) (𝓝 0))
    (hJ : ∀ κ ∈ kinds, ∀ n a, HasExp n k a → HasExp (n + degree κ) (J κ) (integratedTimes κ a)) (n : ℕ) : HasExp n k (valueCoeff kinds x1 ι p Forest.exact) := by
  induction n with
  | zero =>
    have hz : Tendsto (fun h : ℝ => x0 + (h • x1 + (kinds.map fun κ => ι κ (J κ h)).sum)) (𝓝 0) (𝓝 x0) := by
      have h1 : Tendsto (fun h : ℝ => (kinds.map fun κ => ι κ (J κ h)).sum) (𝓝 0) (𝓝 0) := by
        clear hk hJ
        induction kinds with
        | nil => simp
        | cons κ l ih =>
          simp only [List.map_cons, List.sum_cons]
          have h2 : Tendsto (fun h => ι κ (J κ h)) (𝓝 0) (𝓝 0) := by
            have := ((ι κ).continuous.tendsto 0).comp (hJ0 κ (by simp))
            rw [map_zero] at this
            exact this
          simpa using h2.add (ih fun κ' h' => hJ0 κ' (by simp [h']))
      have h2 : Tendsto (fun h : ℝ => h • x1) (𝓝 0) (𝓝 0) := by
        have := (by fun_prop : Continuous fun h : ℝ => h • x1).tendsto 0
        rw [zero_smul] at this
        exact this
      simpa using tendsto_const_nhds.add (h2.add h1)
    have h1 := ((hF.continuousAt.tendsto.comp hz).congr' (by filter_upwards [hk] with h hh using hh.symm)).isBigO_one ℝ
    simpa [HasExp] using h1
  | succ n ih =>
    have hz : HasExp (n + 1) (fun h : ℝ => h • x1 + (kinds.map fun κ => ι κ (J κ h)).sum)
        (argumentCoeff kinds x1 ι p 1 fun κ c => if κ then c.exact / (c.order + 1) else c.exact / ((c.order + 1) * (c.order + 2))) := by
      have h1 := (hasExp_const n x1).pow_smul 1
      have h2 := HasExp.listSum kinds (g := fun κ h => ι κ (J κ h)) fun κ hκ =>
        ((hJ κ hκ n _ ih).mono (show n + 1 ≤ n + degree κ by have := degree_pos κ; omega)).clm (ι κ)
      refine (h1.add h2).congr (Eventually.of_forall fun h => ?_) fun m _ => ?_
      · simp only [pow_one]
      · rw [contribution_coeff]
        congr 1
        · simp
        · refine sum_map_congr fun κ _ => ?_
          cases κ
          · simp only [integratedTimes, degree, Bool.false_eq_true, if_false]
            by_cases hm : 2 ≤ m
            · rw [if_pos hm, integrated, if_neg (by omega), integrated, if_neg (by omega), smul_smul, valueCoeff, ← sum_map_smul, valueCoeff]
              congr 1
              rw [show m - 1 - 1 = m - 2 by omega]
              refine sum_map_congr fun φ hφ => ?_
              rw [smul_smul]
              congr 1
              rw [mem_forests] at hφ
              obtain ⟨j, rfl⟩ := Nat.exists_eq_add_of_le hm
              have : φ.order = j := by omega
              rw [this]
              have h1 : (2 + j - 1 : ℕ) = j + 1 := by omega
              rw [h1]
              push_cast
              have : (j : ℝ) + 1 ≠ 0 := by positivity
              have : (j : ℝ) + 2 ≠ 0 := by positivity
              field_simp
              ring
            · rw [if_neg hm, integrated]
              split_ifs with h0
              · simp
              · rw [integrated, if_pos (by omega), smul_zero, map_zero]
          · simp only [integratedTimes, degree, if_true]
            by_cases hm : 1 ≤ m
            · rw [if_pos hm, integrated, if_neg (by omega), valueCoeff, ← sum_map_smul, valueCoeff]
              congr 1
              refine sum_map_congr fun φ hφ => ?_
              rw [smul_smul]
              congr 1
              rw [mem_forests] at hφ
              obtain ⟨j, rfl⟩ := Nat.exists_eq_add_of_le hm
              have : φ.order = j := by omega
              rw [this]
              push_cast
              have : (j : ℝ) + 1 ≠ 0 := by positivity
              field_simp
              ring
            · rw [if_neg hm, integrated, if_pos (by omega), map_zero]
    have := HasExp.compose kinds (Nat.succ_pos n) x1 ι hF _ _ hz
    refine this.congr ?_ fun m _ => ?_
    · filter_upwards [hk] with h hh
      rw [hh]
    · simp only [valueCoeff, ← Forest.exact_eq_product]

theorem sum_map_sub' {α M : Type*} [AddCommGroup M] (l : List α) (f g : α → M) : (l.map f).sum - (l.map g).sum = (l.map fun a => f a - g a).sum := by
  induction l with
  | nil => simp
  | cons a l ih =>
    simp only [List.map_cons, List.sum_cons, ← ih]
    abel

/-- The difference between the quadrature of the stages and the integral of the right-hand side: its coefficients are given by the order conditions. -/
theorem defect_exp (kinds : List Bool) {F : U → V} {x0 : U} (x1 : U) (ι : Bool → V →L[ℝ] U) {p : FormalMultilinearSeries ℝ U V} (hF : HasFPowerSeriesAt F p x0) (c : ℕ → ℝ)
    (a : Bool → ℕ → ℕ → ℝ) (b : ℕ → ℝ) (s : ℕ) (κ : Bool) {J : ℝ → V} {n : ℕ} (hJ : HasExp (n + degree κ) J (integratedTimes κ (valueCoeff kinds x1 ι p Forest.exact))) :
    HasExp (n + degree κ) (fun h => h ^ degree κ • ∑ i ∈ Finset.range s, b i • stageValue kinds F x0 x1 ι c a h i - J h)
      (fun m => if degree κ ≤ m then
        valueCoeff kinds x1 ι p (fun φ => ∑ i ∈ Finset.range s, b i * φ.stage c a i - (if κ then φ.exact / (φ.order + 1) else φ.exact / ((φ.order + 1) * (φ.order + 2)))) (m - degree κ) else 0) := by
  have h1 := (HasExp.sum (n := n) (Finset.range s) fun i _ => (stageValue_exp kinds x1 ι hF c a i n).const_smul (b i)).pow_smul (degree κ)
  refine (h1.sub hJ).coeff fun m hm => ?_
  by_cases hd : degree κ ≤ m
  · rw [if_pos hd, if_pos hd]
    have hI : integratedTimes κ (valueCoeff kinds x1 ι p Forest.exact) m =
        valueCoeff kinds x1 ι p (fun φ => if κ then φ.exact / (φ.order + 1) else φ.exact / ((φ.order + 1) * (φ.order + 2))) (m - degree κ) := by
      cases κ
      · simp only [degree, Bool.false_eq_true, if_false] at hd
        simp only [integratedTimes, degree, Bool.false_eq_true, if_false]
        rw [integrated, if_neg (by omega), integrated, if_neg (by omega), smul_smul, valueCoeff, ← sum_map_smul, valueCoeff]
        rw [show m - 1 - 1 = m - 2 by omega]
        refine sum_map_congr fun φ hφ => ?_
        rw [smul_smul]
        congr 1
        rw [mem_forests] at hφ
        obtain ⟨j, rfl⟩ := Nat.exists_eq_add_of_le hd
        have : φ.order = j := by omega
        rw [this]
        have h1 : (2 + j - 1 : ℕ) = j + 1 := by omega
        rw [h1]
        push_cast
        have : (j : ℝ) + 1 ≠ 0 := by positivity
        have : (j : ℝ) + 2 ≠ 0 := by positivity
        field_simp
        ring
      · simp only [degree, if_true] at hd
        simp only [integratedTimes, degree, if_true]
        rw [integrated, if_neg (by omega), valueCoeff, ← sum_map_smul, valueCoeff]
        refine sum_map_congr fun φ hφ => ?_
        rw [smul_smul]
        congr 1
        rw [mem_forests] at hφ
        obtain ⟨j, rfl⟩ := Nat.exists_eq_add_of_le hd
        have : φ.order = j := by omega
        rw [this]
        push_cast
        have : (j : ℝ) + 1 ≠ 0 := by positivity
        field_simp
        ring
    rw [hI]
    simp only [valueCoeff]
    simp only [← sum_map_smul]
    rw [sum_map_comm, sum_map_sub']
    refine sum_map_congr fun φ _ => ?_
    rw [sub_smul, Finset.sum_smul]
    congr 1
    exact Finset.sum_congr rfl fun j _ => by rw [smul_smul]
  · rw [if_neg hd, if_neg hd, zero_sub, neg_eq_zero]
    cases κ
    · simp only [degree, Bool.false_eq_true, if_false] at hd
      simp only [integratedTimes, Bool.false_eq_true, if_false]
      rw [integrated]
      split_ifs with h0
      · rfl
      · rw [integrated, if_pos (by omega), smul_zero]
    · simp only [degree, if_true] at hd
      simp only [integratedTimes, if_true]
      rw [integrated, if_pos (by omega)]

end Principia.Integrators
