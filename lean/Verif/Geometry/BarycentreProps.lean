import Verif.Geometry.BarycentreModel
import Mathlib.Algebra.BigOperators.Group.List.Basic
import Mathlib.Algebra.Module.BigOperators
import Mathlib.LinearAlgebra.AffineSpace.AffineMap
import Mathlib.Data.Rat.Defs
import Mathlib.Algebra.Field.Rat
import Mathlib.Tactic.Ring
import Mathlib.Tactic.Module

/-!
C35: barycentres.
-/

set_option linter.unusedSimpArgs false
set_option linter.unusedVariables false
set_option linter.unusedSectionVars false

namespace Principia.Geometry.Barycentre

variable {K V P : Type} [Field K] [DecidableEq K] [AddCommGroup V] [Module K V] [AddTorsor V P]

/-! ## Specification -/

/-- The total weight. -/
def total {A : Type} (l : List (A × K)) : K := (l.map (·.2)).sum

/-- The weighted displacements with respect to `b` compensate. -/
def Balanced (l : List (P × K)) (b : P) : Prop := (l.map fun x => x.2 • (x.1 -ᵥ b : V)).sum = 0

/-! ## Lemmas -/

/-- The weighted sum with respect to a reference. -/
def moment (l : List (P × K)) (b : P) : V := (l.map fun x => x.2 • (x.1 -ᵥ b : V)).sum

theorem moment_cons (x : P × K) (l : List (P × K)) (b : P) : (moment (x :: l) b : V) = x.2 • (x.1 -ᵥ b) + moment l b := by
  simp [moment]

theorem total_cons {A : Type} (x : A × K) (l : List (A × K)) : total (x :: l) = x.2 + total l := by simp [total]

theorem moment_append (l l' : List (P × K)) (b : P) : (moment (l ++ l') b : V) = moment l b + moment l' b := by
  simp [moment]

theorem total_append {A : Type} (l l' : List (A × K)) : total (l ++ l') = total l + total l' := by simp [total]

theorem moment_shift (l : List (P × K)) (b c : P) : (moment l b : V) = moment l c + total l • (c -ᵥ b) := by
  induction l with
  | nil => simp [moment, total]
  | cons x l ih =>
    rw [moment_cons, moment_cons, total_cons, ih, ← vsub_add_vsub_cancel x.1 c b, smul_add, add_smul]
    abel

theorem balanced_iff (l : List (P × K)) (r b : P) : Balanced (V := V) l b ↔ total l • (b -ᵥ r) = (moment l r : V) := by
  change (moment l b : V) = 0 ↔ _
  rw [moment_shift l b r, ← neg_vsub_eq_vsub_rev b r, smul_neg, add_neg_eq_zero, eq_comm]

theorem foldl_accumulate (r : P) (l : List (P × K)) (c : Calculator K V) (h : c.empty = false) :
    l.foldl (fun c x => c.addPoint r x.1 x.2) c = ⟨false, c.weightedSum + moment l r, c.weight + total l⟩ := by
  induction l generalizing c with
  | nil => obtain ⟨e, s, w⟩ := c; simp only at h; simp [moment, total, h]
  | cons x l ih =>
    rw [List.foldl_cons, ih _ (by simp [Calculator.addPoint, Calculator.accumulate, h]), moment_cons, total_cons]
    simp [Calculator.addPoint, Calculator.accumulate, h, add_assoc]

theorem foldl_init (r : P) (l : List (P × K)) (h : l ≠ []) :
    l.foldl (fun c x => c.addPoint r x.1 x.2) (Calculator.init : Calculator K V) = ⟨false, moment l r, total l⟩ := by
  cases l with
  | nil => exact absurd rfl h
  | cons x l =>
    rw [List.foldl_cons, foldl_accumulate _ _ _ (by simp [Calculator.addPoint, Calculator.accumulate, Calculator.init]), moment_cons, total_cons]
    simp [Calculator.addPoint, Calculator.accumulate, Calculator.init]

theorem foldl_vectors (l : List (V × K)) (c : Calculator K V) :
    l.foldl (fun c x => c.addVector x.1 x.2) c = l.foldl (fun c x => c.addPoint (0 : V) x.1 x.2) c := by
  congr 1
  funext c x
  simp [Calculator.addVector, Calculator.addPoint]

theorem barycentreVectors_eq (l : List (V × K)) : barycentreVectors l = barycentrePoints (V := V) (0 : V) l := by
  unfold barycentreVectors barycentrePoints
  rw [foldl_vectors]
  simp [Calculator.getVector, Calculator.getPoint]

theorem barycentrePoints_cases (r : P) (l : List (P × K)) :
    barycentrePoints (V := V) r l =
      if l = [] then .error .empty else if total l = 0 then .error .division else .ok (((total l)⁻¹ • moment l r : V) +ᵥ r) := by
  by_cases h : l = []
  · subst h; simp [barycentrePoints, Calculator.init, Calculator.getPoint]
  · rw [if_neg h, barycentrePoints, foldl_init r l h]
    simp [Calculator.getPoint]

theorem balanced_result (r : P) (l : List (P × K)) (h : total l ≠ 0) (b : P) :
    Balanced (V := V) l b ↔ b = ((total l)⁻¹ • moment l r : V) +ᵥ r := by
  rw [balanced_iff l r b, eq_vadd_iff_vsub_eq]
  constructor
  · intro e; rw [← e, smul_smul, inv_mul_cancel₀ h, one_smul]
  · intro e; rw [e, smul_smul, mul_inv_cancel₀ h, one_smul]

/-! ## Theorems -/

/-- C35: the barycentre exists if the weights do not compensate, and it is the only point with respect to which the weighted displacements
compensate. -/
theorem C35_barycentre (r : P) (l : List (P × K)) (h : total l ≠ 0) :
    ∃ b, barycentrePoints (V := V) r l = .ok b ∧ ∀ p : P, Balanced (V := V) l p ↔ p = b := by
  have hl : l ≠ [] := by rintro rfl; simp [total] at h
  refine ⟨_, ?_, balanced_result r l h⟩
  rw [barycentrePoints_cases, if_neg hl, if_neg h]

/-- C35: the same for vectors. -/
theorem C35_barycentre_vectors (l : List (V × K)) (h : total l ≠ 0) :
    ∃ b, barycentreVectors l = .ok b ∧ ∀ p : V, Balanced (V := V) l p ↔ p = b := by
  rw [barycentreVectors_eq]
  exact C35_barycentre 0 l h

/-- C35: the failures are those of an empty calculator and those of weights that compensate. -/
theorem C35_failure (r : P) (l : List (P × K)) :
    (barycentrePoints (V := V) r l = .error .empty ↔ l = []) ∧ (barycentrePoints (V := V) r l = .error .division ↔ l ≠ [] ∧ total l = 0) := by
  rw [barycentrePoints_cases]
  by_cases h : l = [] <;> by_cases h' : total l = 0 <;> simp [h, h']

/-- C35: the weight of the calculator is the sum of the weights. -/
theorem C35_weight (r : P) (l : List (P × K)) (h : l ≠ []) :
    (l.foldl (fun c x => c.addPoint r x.1 x.2) (Calculator.init : Calculator K V)).weight = total l := by
  rw [foldl_init r l h]

/-- C35: the result does not depend on the order of the points, nor on the reference. -/
theorem C35_order (r r' : P) (l l' : List (P × K)) (h : l.Perm l') :
    barycentrePoints (V := V) r l = barycentrePoints (V := V) r' l' := by
  have ht : total l = total l' := (h.map _).sum_eq
  have hm : (moment l r' : V) = moment l' r' := (h.map _).sum_eq
  rw [barycentrePoints_cases, barycentrePoints_cases]
  by_cases hl : l = []
  · subst hl; rw [List.nil_perm.1 h]; simp
  · have hl' : l' ≠ [] := by rintro rfl; exact hl (List.perm_nil.1 h)
    rw [if_neg hl, if_neg hl', ht]
    by_cases h0 : total l' = 0
    · rw [if_pos h0, if_pos h0]
    · rw [if_neg h0, if_neg h0]
      congr 1
      rw [← balanced_result r' l' h0]
      have := (balanced_result r l (by rw [ht]; exact h0) _).2 rfl
      rw [balanced_iff l r', ht] at this
      rw [balanced_iff l' r', ← hm]
      exact this

/-- C35: some points may be replaced by their barycentre, with the sum of their weights. -/
theorem C35_groups (r : P) (l l' : List (P × K)) (b : P) (h : barycentrePoints (V := V) r l = .ok b) :
    barycentrePoints (V := V) r (l ++ l') = barycentrePoints (V := V) r ((b, total l) :: l') := by
  rw [barycentrePoints_cases] at h
  by_cases hl : l = []
  · simp [hl] at h
  rw [if_neg hl] at h
  by_cases h0 : total l = 0
  · simp [h0] at h
  rw [if_neg h0] at h
  injection h with h
  have hm : (moment (l ++ l') r : V) = moment ((b, total l) :: l') r := by
    rw [moment_append, moment_cons]
    congr 1
    rw [← h, vadd_vsub, smul_smul, mul_inv_cancel₀ h0, one_smul]
  have ht : total (l ++ l') = total ((b, total l) :: l') := by rw [total_append, total_cons]
  rw [barycentrePoints_cases, barycentrePoints_cases, hm, ht]
  simp [hl]

/-- C35: barycentres are preserved by affine maps. -/
theorem C35_affine {V' P' : Type} [AddCommGroup V'] [Module K V'] [AddTorsor V' P'] (f : P →ᵃ[K] P') (r : P) (r' : P') (l : List (P × K)) :
    barycentrePoints (V := V') r' (l.map fun x => (f x.1, x.2)) = (barycentrePoints (V := V) r l).map f := by
  have ht : total (l.map fun x => (f x.1, x.2)) = total l := by simp [total, Function.comp_def]
  rw [barycentrePoints_cases, barycentrePoints_cases, ht]
  by_cases hl : l = []
  · simp [hl, Except.map]
  by_cases h0 : total l = 0
  · simp [hl, h0, Except.map]
  rw [if_neg hl, if_neg h0, if_neg (by simpa using hl), if_neg h0, Except.map]
  congr 1
  generalize hb : ((total l)⁻¹ • moment l r : V) +ᵥ r = b
  have := (balanced_result (V := V) r l h0 b).2 hb.symm
  rw [← ht]
  symm
  rw [← balanced_result r' _ (by rw [ht]; exact h0)]
  unfold Balanced at this ⊢
  have h2 := congrArg f.linear this
  rw [map_list_sum] at h2
  simpa [Function.comp_def, List.map_map, ← AffineMap.linearMap_vsub] using h2

/-- C35: without weights, all the weights are equal to 1. -/
theorem C35_mean [CharZero K] (r : P) (l : List P) (h : l ≠ []) :
    barycentrePoints (V := V) r (l.map fun p => (p, (1 : K))) = .ok (meanPoints K r l) := by
  have ht : total (l.map fun p => (p, (1 : K))) = l.length := by simp [total, Function.comp_def]
  have hm : (moment (l.map fun p => (p, (1 : K))) r : V) = l.foldl (fun total p => total + (p -ᵥ r)) 0 := by
    have : ∀ a : V, l.foldl (fun total p => total + (p -ᵥ r)) a = a + (l.map fun p => p -ᵥ r).sum := by
      clear h ht
      induction l with
      | nil => simp
      | cons x l ih => intro a; rw [List.foldl_cons, ih]; simp [add_assoc]
    rw [this]
    simp [moment, Function.comp_def]
  have h0 : (l.length : K) ≠ 0 := by simpa using h
  rw [barycentrePoints_cases, if_neg (by simpa using h), ht, if_neg h0, hm]
  rfl

/-- C35: the same for vectors. -/
theorem C35_mean_vectors [CharZero K] (l : List V) (h : l ≠ []) :
    barycentreVectors (l.map fun p => (p, (1 : K))) = .ok (meanVectors K l) := by
  rw [barycentreVectors_eq, C35_mean 0 l h]
  simp [meanPoints, meanVectors]

/-- Three masses on a line. -/
example : barycentreVectors [((1 : ℚ), (2 : ℚ)), (4, 1), (-3, 3)] = .ok (-1 / 2) ∧ total [((1 : ℚ), (2 : ℚ)), (4, 1), (-3, 3)] ≠ 0 := by
  decide +kernel

/-- Weights that compensate. -/
example : barycentreVectors [((1 : ℚ), (2 : ℚ)), (4, -2)] = .error .division := by decide +kernel

end Principia.Geometry.Barycentre
