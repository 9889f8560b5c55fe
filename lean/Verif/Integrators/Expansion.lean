import Mathlib.Analysis.Analytic.Basic
import Mathlib.Analysis.Calculus.MeanValue
import Mathlib.Analysis.Calculus.Deriv.Pow
import Mathlib.Algebra.BigOperators.NatAntidiagonal
import Mathlib.Analysis.Normed.Module.Multilinear.Curry
import Mathlib.Tactic.Module

/-!
Expansions in the powers of the step, up to a given order: the tool for C45.
-/

set_option linter.unusedSimpArgs false
set_option linter.unusedVariables false
set_option linter.unusedSectionVars false

namespace Principia.Integrators

open Asymptotics Filter Topology

variable {E F G : Type*} [NormedAddCommGroup E] [NormedSpace ℝ E] [NormedAddCommGroup F] [NormedSpace ℝ F] [NormedAddCommGroup G] [NormedSpace ℝ G]

/-- `g` is the sum of the `hᵐ aₘ` for `m < n`, up to a term in `hⁿ`. -/
def HasExp (n : ℕ) (g : ℝ → E) (a : ℕ → E) : Prop := (fun h => g h - ∑ m ∈ Finset.range n, h ^ m • a m) =O[𝓝 0] fun h : ℝ => h ^ n

theorem isBigO_pow_pow {m n : ℕ} (h : n ≤ m) : (fun h : ℝ => h ^ m) =O[𝓝 0] fun h : ℝ => h ^ n := by
  obtain ⟨k, rfl⟩ := Nat.exists_eq_add_of_le h
  have h1 : (fun h : ℝ => h ^ k) =O[𝓝 0] fun _ : ℝ => (1 : ℝ) := ((continuous_pow k).tendsto 0).isBigO_one ℝ
  simpa [pow_add] using (isBigO_refl (fun h : ℝ => h ^ n) (𝓝 0)).mul h1

theorem HasExp.congr {n : ℕ} {g g' : ℝ → E} {a b : ℕ → E} (h : HasExp n g a) (hg : ∀ᶠ x in 𝓝 (0 : ℝ), g x = g' x) (hab : ∀ m < n, a m = b m) : HasExp n g' b := by
  refine IsBigO.congr' h ?_ EventuallyEq.rfl
  filter_upwards [hg] with x hx
  rw [hx, Finset.sum_congr rfl fun m hm => by rw [hab m (Finset.mem_range.mp hm)]]

theorem HasExp.coeff {n : ℕ} {g : ℝ → E} {a b : ℕ → E} (h : HasExp n g a) (hab : ∀ m < n, a m = b m) : HasExp n g b := h.congr (Eventually.of_forall fun _ => rfl) hab

theorem HasExp.mono {m n : ℕ} (hmn : n ≤ m) {g : ℝ → E} {a : ℕ → E} (h : HasExp m g a) : HasExp n g a := by
  have h1 : (fun x : ℝ => ∑ i ∈ Finset.Ico n m, x ^ i • a i) =O[𝓝 0] fun x : ℝ => x ^ n := by
    refine IsBigO.fun_sum fun i hi => ?_
    have := (isBigO_pow_pow (Finset.mem_Ico.mp hi).1).smul (isBigO_refl (fun _ : ℝ => a i) (𝓝 0))
    refine this.trans ?_
    refine IsBigO.of_bound ‖a i‖ (Eventually.of_forall fun x => ?_)
    simp [norm_smul, mul_comm]
  have h2 := (h.trans (isBigO_pow_pow hmn)).add h1
  refine h2.congr_left fun x => ?_
  rw [← Finset.sum_range_add_sum_Ico _ hmn]
  abel

theorem hasExp_zero_of_isBigO {n : ℕ} {g : ℝ → E} (h : g =O[𝓝 0] fun x : ℝ => x ^ n) : HasExp n g 0 := by
  refine h.congr_left fun x => ?_
  simp

theorem HasExp.isBigO {n : ℕ} {g : ℝ → E} {a : ℕ → E} (h : HasExp n g a) (ha : ∀ m < n, a m = 0) : g =O[𝓝 0] fun x : ℝ => x ^ n := by
  have := h.coeff (b := 0) (fun m hm => ha m hm)
  refine IsBigO.congr_left this fun x => ?_
  simp

theorem hasExp_const (n : ℕ) (c : E) : HasExp n (fun _ => c) (fun m => if m = 0 then c else 0) := by
  rcases n with _ | n
  · simp only [HasExp, Finset.range_zero, Finset.sum_empty, sub_zero, pow_zero]
    exact isBigO_const_const c one_ne_zero _
  · refine (isBigO_zero _ _).congr_left fun x => ?_
    rw [Finset.sum_range_succ']
    simp

theorem HasExp.add {n : ℕ} {g k : ℝ → E} {a b : ℕ → E} (hg : HasExp n g a) (hk : HasExp n k b) : HasExp n (fun x => g x + k x) (fun m => a m + b m) := by
  refine (IsBigO.add hg hk).congr_left fun x => ?_
  simp only [smul_add, Finset.sum_add_distrib]
  abel

theorem HasExp.clm {n : ℕ} {g : ℝ → E} {a : ℕ → E} (hg : HasExp n g a) (L : E →L[ℝ] F) : HasExp n (fun x => L (g x)) (fun m => L (a m)) := by
  refine ((L.isBigO_comp _ _).trans hg).congr_left fun x => ?_
  simp [map_sum]

theorem HasExp.const_smul {n : ℕ} {g : ℝ → E} {a : ℕ → E} (hg : HasExp n g a) (c : ℝ) : HasExp n (fun x => c • g x) (fun m => c • a m) := by
  refine (IsBigO.const_smul_left hg c).congr_left fun x => ?_
  simp only [Pi.smul_apply, smul_sub, Finset.smul_sum]
  congr 1
  exact Finset.sum_congr rfl fun m _ => smul_comm _ _ _

theorem HasExp.neg {n : ℕ} {g : ℝ → E} {a : ℕ → E} (hg : HasExp n g a) : HasExp n (fun x => -g x) (fun m => -a m) := by
  simpa using hg.const_smul (-1)

theorem HasExp.sub {n : ℕ} {g k : ℝ → E} {a b : ℕ → E} (hg : HasExp n g a) (hk : HasExp n k b) : HasExp n (fun x => g x - k x) (fun m => a m - b m) := by
  simpa [sub_eq_add_neg] using hg.add hk.neg

theorem HasExp.sum {ι : Type*} {n : ℕ} (s : Finset ι) {g : ι → ℝ → E} {a : ι → ℕ → E} (hg : ∀ i ∈ s, HasExp n (g i) (a i)) :
    HasExp n (fun x => ∑ i ∈ s, g i x) (fun m => ∑ i ∈ s, a i m) := by
  classical
  induction s using Finset.induction_on with
  | empty => simpa using hasExp_const n (0 : E)
  | insert i s hi ih =>
    simp only [Finset.sum_insert hi]
    exact (hg i (Finset.mem_insert_self _ _)).add (ih fun j hj => hg j (Finset.mem_insert_of_mem hj))

theorem HasExp.listSum {ι : Type*} {n : ℕ} (s : List ι) {g : ι → ℝ → E} {a : ι → ℕ → E} (hg : ∀ i ∈ s, HasExp n (g i) (a i)) :
    HasExp n (fun x => (s.map fun i => g i x).sum) (fun m => (s.map fun i => a i m).sum) := by
  induction s with
  | nil => simpa using hasExp_const n (0 : E)
  | cons i s ih =>
    simp only [List.map_cons, List.sum_cons]
    exact (hg i (by simp)).add (ih fun j hj => hg j (by simp [hj]))

theorem HasExp.pow_smul {n : ℕ} {g : ℝ → E} {a : ℕ → E} (hg : HasExp n g a) (d : ℕ) : HasExp (n + d) (fun x => x ^ d • g x) (fun m => if d ≤ m then a (m - d) else 0) := by
  have := (isBigO_refl (fun x : ℝ => x ^ d) (𝓝 0)).smul hg
  refine IsBigO.congr this (fun x => ?_) (fun x => by simp [pow_add, mul_comm])
  have h1 : ∑ m ∈ Finset.range (n + d), x ^ m • (if d ≤ m then a (m - d) else 0) = ∑ m ∈ Finset.range n, x ^ (m + d) • a m := by
    rw [← Finset.sum_range_add_sum_Ico _ (Nat.le_add_left d n), Finset.sum_eq_zero, zero_add, Finset.sum_Ico_eq_sum_range]
    · simp only [Nat.add_sub_cancel]
      refine Finset.sum_congr rfl fun m _ => ?_
      rw [if_pos (Nat.le_add_right _ _), Nat.add_sub_cancel_left, Nat.add_comm]
    · intro m hm
      rw [if_neg (by simpa using hm), smul_zero]
  rw [h1, smul_sub, Finset.smul_sum]
  congr 1
  exact Finset.sum_congr rfl fun m _ => by rw [smul_smul, pow_add, mul_comm]

theorem HasExp.bounded {n : ℕ} {g : ℝ → E} {a : ℕ → E} (hg : HasExp n g a) : g =O[𝓝 0] fun _ : ℝ => (1 : ℝ) := by
  have := hg.mono (Nat.zero_le n)
  simpa [HasExp] using this

theorem HasExp.tendsto {n : ℕ} (hn : 0 < n) {g : ℝ → E} {a : ℕ → E} (hg : HasExp n g a) (ha : a 0 = 0) : Tendsto g (𝓝 0) (𝓝 0) ∧ g =O[𝓝 0] fun x : ℝ => x := by
  have h1 := (hg.mono (show 1 ≤ n from hn)).isBigO (fun m hm => by rw [Nat.lt_one_iff.mp hm, ha])
  simp only [pow_one] at h1
  exact ⟨h1.trans_tendsto tendsto_id, h1⟩

/-- The substitution of a multiple of the variable. -/
theorem HasExp.scale {n : ℕ} {g : ℝ → E} {a : ℕ → E} (hg : HasExp n g a) (c : ℝ) : HasExp n (fun x => g (c * x)) (fun m => c ^ m • a m) := by
  have ht : Tendsto (fun x : ℝ => c * x) (𝓝 0) (𝓝 0) := by simpa using (continuous_const_mul c).tendsto (0 : ℝ)
  have h1 := IsBigO.comp_tendsto hg ht
  have h2 : ((fun h : ℝ => h ^ n) ∘ fun x : ℝ => c * x) =O[𝓝 0] fun x : ℝ => x ^ n := by
    refine IsBigO.of_bound (|c| ^ n) (Eventually.of_forall fun x => ?_)
    simp [mul_pow, abs_mul]
  refine (h1.trans h2).congr_left fun x => ?_
  simp only [Function.comp]
  congr 1
  exact Finset.sum_congr rfl fun m _ => by rw [smul_smul, mul_pow, mul_comm]

/-- The coefficients of an integral. -/
noncomputable def integrated (a : ℕ → E) (m : ℕ) : E := if m = 0 then 0 else (1 / (m : ℝ)) • a (m - 1)

theorem isBigO_of_deriv {n : ℕ} {g g' : ℝ → E} (hd : ∀ᶠ x in 𝓝 (0 : ℝ), HasDerivAt g (g' x) x) (h0 : g 0 = 0) (hg : g' =O[𝓝 0] fun x : ℝ => x ^ n) :
    g =O[𝓝 0] fun x : ℝ => x ^ (n + 1) := by
  obtain ⟨C, hC⟩ := hg.bound
  obtain ⟨ε, hε, hball⟩ := Metric.eventually_nhds_iff_ball.mp (hd.and hC)
  refine IsBigO.of_bound C ?_
  filter_upwards [Metric.ball_mem_nhds (0 : ℝ) hε] with x hx
  have hseg : ∀ y ∈ Set.uIcc 0 x, |y| ≤ |x| := by
    intro y hy
    rcases Set.mem_uIcc.mp hy with ⟨h1, h2⟩ | ⟨h1, h2⟩
    · rw [abs_of_nonneg h1, abs_of_nonneg (h1.trans h2)]; exact h2
    · rw [abs_of_nonpos h2, abs_of_nonpos (h1.trans h2)]; linarith
  have hin : ∀ y ∈ Set.uIcc 0 x, y ∈ Metric.ball (0 : ℝ) ε := by
    intro y hy
    have := hseg y hy
    simp only [Metric.mem_ball, dist_zero_right, Real.norm_eq_abs] at hx ⊢
    linarith
  have hmv := (convex_uIcc (0 : ℝ) x).norm_image_sub_le_of_norm_hasDerivWithin_le (f := g) (f' := g') (C := C * |x| ^ n)
    (fun y hy => (hball y (hin y hy)).1.hasDerivWithinAt)
    (fun y hy => by
      have h1 := (hball y (hin y hy)).2
      have hC0 : 0 ≤ C ∨ C < 0 := le_or_gt 0 C
      rcases hC0 with hC0 | hC0
      · refine h1.trans ?_
        rw [norm_pow, Real.norm_eq_abs]
        exact mul_le_mul_of_nonneg_left (pow_le_pow_left₀ (abs_nonneg _) (hseg y hy) n) hC0
      · have h2 := (hball x hx).2
        have hxn : 0 ≤ ‖x ^ n‖ := norm_nonneg _
        have h3 := norm_nonneg (g' x)
        have h4 : ‖x ^ n‖ = 0 := by nlinarith
        have h6 : ‖y ^ n‖ ≤ ‖x ^ n‖ := by
          rw [norm_pow, norm_pow, Real.norm_eq_abs, Real.norm_eq_abs]
          exact pow_le_pow_left₀ (abs_nonneg _) (hseg y hy) n
        have h5 : ‖y ^ n‖ = 0 := le_antisymm (h6.trans h4.le) (norm_nonneg _)
        rw [← Real.norm_eq_abs, ← norm_pow, h4, mul_zero]
        rw [h5, mul_zero] at h1
        exact h1)
    Set.left_mem_uIcc Set.right_mem_uIcc
  rw [h0, sub_zero, sub_zero, Real.norm_eq_abs] at hmv
  rw [norm_pow, Real.norm_eq_abs, pow_succ, ← mul_assoc]
  exact hmv

/-- A primitive which vanishes at 0. -/
theorem HasExp.integral {n : ℕ} {g g' : ℝ → E} {a : ℕ → E} (hd : ∀ᶠ x in 𝓝 (0 : ℝ), HasDerivAt g (g' x) x) (h0 : g 0 = 0) (hg : HasExp n g' a) :
    HasExp (n + 1) g (integrated a) := by
  have hp : ∀ x : ℝ, HasDerivAt (fun x : ℝ => ∑ m ∈ Finset.range (n + 1), x ^ m • integrated a m) (∑ m ∈ Finset.range n, x ^ m • a m) x := by
    intro x
    have h1 : ∀ m ∈ Finset.range (n + 1), HasDerivAt (fun x : ℝ => x ^ m • integrated a m) (((m : ℝ) * x ^ (m - 1)) • integrated a m) x :=
      fun m _ => (hasDerivAt_pow m x).smul_const _
    refine (HasDerivAt.fun_sum h1).congr_deriv ?_
    rw [Finset.sum_range_succ']
    simp only [Nat.cast_zero, zero_mul, zero_smul, add_zero]
    refine Finset.sum_congr rfl fun m _ => ?_
    have : ((m : ℝ) + 1) ≠ 0 := by positivity
    rw [integrated, if_neg (Nat.succ_ne_zero m), smul_smul]
    simp only [Nat.add_sub_cancel, Nat.cast_add, Nat.cast_one]
    congr 1
    field_simp
  refine isBigO_of_deriv (g' := fun x => g' x - ∑ m ∈ Finset.range n, x ^ m • a m) ?_ ?_ hg
  · filter_upwards [hd] with x hx
    exact hx.sub (hp x)
  · rw [h0, Finset.sum_range_succ']
    simp [integrated]

/-- The coefficients of the value of a multilinear map when all its arguments have the coefficients `Z`. -/
noncomputable def multilinearCoeff (Z : ℕ → E) : (k : ℕ) → (E [×k]→L[ℝ] G) → ℕ → G
  | 0, M, m => if m = 0 then M ![] else 0
  | k + 1, M, m => ∑ i ∈ Finset.range (m + 1), multilinearCoeff Z k (M.curryLeft (Z i)) (m - i)

theorem HasExp.multilinear {n : ℕ} {z : ℝ → E} {Z : ℕ → E} (hz : HasExp n z Z) : ∀ (k : ℕ) (M : E [×k]→L[ℝ] G),
    HasExp n (fun x => M fun _ => z x) (multilinearCoeff Z k M)
  | 0, M => by
    have := hasExp_const n (M ![])
    refine this.congr (Eventually.of_forall fun x => ?_) fun m _ => rfl
    congr 1
    exact Subsingleton.elim _ _
  | k + 1, M => by
    have hL := hz.clm (M.curryLeft : E →L[ℝ] (E [×k]→L[ℝ] G))
    set R : ℝ → (E [×k]→L[ℝ] G) := fun x => M.curryLeft (z x) - ∑ m ∈ Finset.range n, x ^ m • M.curryLeft (Z m) with hR
    have hRz : (fun x => R x fun _ => z x) =O[𝓝 0] fun x : ℝ => x ^ n := by
      have h1 : (fun x => ‖z x‖ ^ k) =O[𝓝 0] fun _ : ℝ => (1 : ℝ) := by
        simpa using (hz.bounded.norm_left).pow k
      have h2 : (fun x => ‖R x‖ * ‖z x‖ ^ k) =O[𝓝 0] fun x : ℝ => x ^ n * 1 := (IsBigO.norm_left hL).mul h1
      refine IsBigO.trans (IsBigO.of_bound 1 (Eventually.of_forall fun x => ?_)) (by simpa using h2)
      refine ((R x).le_opNorm _).trans ?_
      simp
    have hsum := HasExp.sum (n := n) (Finset.range n) (g := fun i x => x ^ i • (M.curryLeft (Z i)) fun _ => z x)
      (a := fun i m => if i ≤ m then multilinearCoeff Z k (M.curryLeft (Z i)) (m - i) else 0)
      fun i _ => ((HasExp.multilinear hz k (M.curryLeft (Z i))).pow_smul i).mono (Nat.le_add_right n i)
    refine ((hasExp_zero_of_isBigO hRz).add hsum).congr (Eventually.of_forall fun x => ?_) fun m hm => ?_
    · have : M (fun _ => z x) = M.curryLeft (z x) (fun _ => z x) := by
        rw [ContinuousMultilinearMap.curryLeft_apply]
        congr 1
        funext i
        refine Fin.cases ?_ (fun i => ?_) i <;> simp
      rw [this, hR]
      simp [ContinuousMultilinearMap.sum_apply]
    · simp only [Pi.zero_apply, zero_add]
      rw [multilinearCoeff, ← Finset.sum_range_add_sum_Ico _ (show m + 1 ≤ n from hm), Finset.sum_congr rfl fun i hi => if_pos (by have := Finset.mem_range.mp hi; omega),
        Finset.sum_eq_zero (s := Finset.Ico _ _) fun i hi => if_neg (by have := Finset.mem_Ico.mp hi; omega), add_zero]

/-- Composition with an analytic function. -/
theorem HasExp.analytic {n : ℕ} (hn : 0 < n) {f : E → F} {p : FormalMultilinearSeries ℝ E F} {x0 : E} (hf : HasFPowerSeriesAt f p x0) {z : ℝ → E} {Z : ℕ → E} (hz : HasExp n z Z) (h0 : Z 0 = 0) :
    HasExp n (fun x => f (x0 + z x)) (fun m => ∑ k ∈ Finset.range n, multilinearCoeff Z k (p k) m) := by
  obtain ⟨ht, hO⟩ := hz.tendsto hn h0
  have h1 := (hf.isBigO_sub_partialSum_pow n).comp_tendsto ht
  have h2 : ((fun y : E => ‖y‖ ^ n) ∘ z) =O[𝓝 0] fun x : ℝ => x ^ n := hO.norm_left.pow n
  have h3 := HasExp.sum (n := n) (Finset.range n) (g := fun k x => p k fun _ => z x) (a := fun k => multilinearCoeff Z k (p k)) fun k _ => hz.multilinear k (p k)
  refine ((hasExp_zero_of_isBigO (h1.trans h2)).add h3).congr (Eventually.of_forall fun x => ?_) fun m hm => ?_
  · simp [FormalMultilinearSeries.partialSum]
  · simp

end Principia.Integrators
