import Verif.Geometry.R3Model
import Mathlib.Analysis.Calculus.Deriv.Basic
import Mathlib.Analysis.Calculus.Deriv.Mul
import Mathlib.Analysis.Calculus.Deriv.Add
import Mathlib.Analysis.SpecialFunctions.Sqrt
import Mathlib.Tactic.Ring

/-!
The derivatives of the functions with values in ℝ³.
-/

set_option linter.unusedSimpArgs false
set_option linter.unusedVariables false
set_option linter.unusedSectionVars false

namespace Principia.Geometry

/-- The derivative of a function with values in ℝ³. -/
structure HasDeriv (f : ℝ → R3 ℝ) (f' : R3 ℝ) (t : ℝ) : Prop where
  x : HasDerivAt (fun t => (f t).x) f'.x t
  y : HasDerivAt (fun t => (f t).y) f'.y t
  z : HasDerivAt (fun t => (f t).z) f'.z t

namespace HasDeriv

variable {f g : ℝ → R3 ℝ} {f' g' : R3 ℝ} {t : ℝ} {k : ℝ → ℝ} {k' : ℝ}

theorem congr_deriv (h : HasDeriv f f' t) (e : f' = g') : HasDeriv f g' t := e ▸ h

theorem congr_fun (h : HasDeriv f f' t) (e : ∀ s, g s = f s) : HasDeriv g f' t := by
  have : g = f := funext e
  rw [this]; exact h

theorem unique (h : HasDeriv f f' t) (h' : HasDeriv f g' t) : f' = g' := by
  ext
  · exact h.x.unique h'.x
  · exact h.y.unique h'.y
  · exact h.z.unique h'.z

theorem const (v : R3 ℝ) : HasDeriv (fun _ => v) 0 t := ⟨hasDerivAt_const _ _, hasDerivAt_const _ _, hasDerivAt_const _ _⟩

theorem add (h : HasDeriv f f' t) (h' : HasDeriv g g' t) : HasDeriv (fun s => f s + g s) (f' + g') t := ⟨h.x.add h'.x, h.y.add h'.y, h.z.add h'.z⟩

theorem sub (h : HasDeriv f f' t) (h' : HasDeriv g g' t) : HasDeriv (fun s => f s - g s) (f' - g') t := ⟨h.x.sub h'.x, h.y.sub h'.y, h.z.sub h'.z⟩

theorem neg (h : HasDeriv f f' t) : HasDeriv (fun s => -f s) (-f') t := ⟨h.x.neg, h.y.neg, h.z.neg⟩

theorem smul (hk : HasDerivAt k k' t) (h : HasDeriv f f' t) : HasDeriv (fun s => k s • f s) (k' • f t + k t • f') t := ⟨hk.mul h.x, hk.mul h.y, hk.mul h.z⟩

theorem const_smul (a : ℝ) (h : HasDeriv f f' t) : HasDeriv (fun s => a • f s) (a • f') t := ⟨h.x.const_mul a, h.y.const_mul a, h.z.const_mul a⟩

theorem dot (h : HasDeriv f f' t) (h' : HasDeriv g g' t) : HasDerivAt (fun s => (f s).dot (g s)) (f'.dot (g t) + (f t).dot g') t := by
  refine (((h.x.mul h'.x).add (h.y.mul h'.y)).add (h.z.mul h'.z)).congr_deriv ?_
  simp only [R3.dot]; ring

theorem cross (h : HasDeriv f f' t) (h' : HasDeriv g g' t) : HasDeriv (fun s => (f s).cross (g s)) (f'.cross (g t) + (f t).cross g') t := by
  refine ⟨((h.y.mul h'.z).sub (h.z.mul h'.y)).congr_deriv ?_, ((h.z.mul h'.x).sub (h.x.mul h'.z)).congr_deriv ?_, ((h.x.mul h'.y).sub (h.y.mul h'.x)).congr_deriv ?_⟩ <;>
    simp only [R3.cross, R3.add_x, R3.add_y, R3.add_z] <;> ring

theorem normSq (h : HasDeriv f f' t) : HasDerivAt (fun s => (f s).normSq) (2 * (f t).dot f') t := by
  refine (h.dot h).congr_deriv ?_
  simp only [R3.dot]; ring

theorem norm (h : HasDeriv f f' t) (h0 : f t ≠ 0) : HasDerivAt (fun s => (f s).norm) ((f t).dot f' / (f t).norm) t := by
  have hp : (f t).normSq ≠ 0 := by
    intro h
    apply h0
    have h1 : (f t).x ^ 2 + (f t).y ^ 2 + (f t).z ^ 2 = 0 := by rw [← h]; simp only [R3.normSq]; ring
    have hx : (f t).x ^ 2 = 0 := le_antisymm (by nlinarith [sq_nonneg (f t).y, sq_nonneg (f t).z]) (sq_nonneg _)
    have hy : (f t).y ^ 2 = 0 := le_antisymm (by nlinarith [sq_nonneg (f t).x, sq_nonneg (f t).z]) (sq_nonneg _)
    have hz : (f t).z ^ 2 = 0 := le_antisymm (by nlinarith [sq_nonneg (f t).x, sq_nonneg (f t).y]) (sq_nonneg _)
    ext
    · exact pow_eq_zero_iff (n := 2) (by norm_num) |>.1 hx
    · exact pow_eq_zero_iff (n := 2) (by norm_num) |>.1 hy
    · exact pow_eq_zero_iff (n := 2) (by norm_num) |>.1 hz
  refine (h.normSq.sqrt hp).congr_deriv ?_
  rw [R3.norm, mul_div_mul_left _ _ two_ne_zero]

end HasDeriv

end Principia.Geometry
