import Verif.Physics.GeopotentialPrecomputations
import Mathlib.Analysis.InnerProductSpace.Orthonormal

/-!
The evaluation is a sum over all the harmonics.
-/

set_option linter.unusedSimpArgs false
set_option linter.unusedVariables false
set_option linter.unusedSectionVars false

namespace Principia.Geopotential

open Legendre

variable {V : Type*} [NormedAddCommGroup V] [InnerProductSpace ℝ V]

/-! ### The frames -/

/-- The three vectors are an orthonormal basis. -/
structure IsFrame (x y z : V) : Prop where
  orthonormal : Orthonormal ℝ ![x, y, z]
  complete : ∀ v : V, v = (inner ℝ v x : ℝ) • x + (inner ℝ v y : ℝ) • y + (inner ℝ v z : ℝ) • z

namespace IsFrame

variable {x y z : V} (F : IsFrame x y z)

include F

theorem xx : (inner ℝ x x : ℝ) = 1 := by
  have := F.orthonormal.1 0
  simp only [Matrix.cons_val_zero] at this
  rw [real_inner_self_eq_norm_sq, this, one_pow]

theorem yy : (inner ℝ y y : ℝ) = 1 := by
  have := F.orthonormal.1 1
  simp only [Matrix.cons_val_one, Matrix.cons_val_zero] at this
  rw [real_inner_self_eq_norm_sq, this, one_pow]

theorem zz : (inner ℝ z z : ℝ) = 1 := by
  have := F.orthonormal.1 2
  simp only [Matrix.cons_val] at this
  rw [real_inner_self_eq_norm_sq, this, one_pow]

theorem xy : (inner ℝ x y : ℝ) = 0 := by simpa using F.orthonormal.2 (i := 0) (j := 1) (by decide)

theorem xz : (inner ℝ x z : ℝ) = 0 := by simpa using F.orthonormal.2 (i := 0) (j := 2) (by decide)

theorem yz : (inner ℝ y z : ℝ) = 0 := by simpa using F.orthonormal.2 (i := 1) (j := 2) (by decide)

theorem norm_sq (v : V) : ‖v‖ ^ 2 = inner ℝ v x ^ 2 + inner ℝ v y ^ 2 + inner ℝ v z ^ 2 := by
  rw [← real_inner_self_eq_norm_sq]
  conv_lhs => rw [F.complete v]
  have h1 := F.xx; have h2 := F.yy; have h3 := F.zz; have h4 := F.xy; have h5 := F.xz; have h6 := F.yz
  have h4' := (real_inner_comm x y).trans h4; have h5' := (real_inner_comm x z).trans h5; have h6' := (real_inner_comm y z).trans h6
  simp only [inner_add_left, inner_add_right, real_inner_smul_left, real_inner_smul_right, h1, h2, h3, h4, h5, h6, h4', h5', h6']
  ring

end IsFrame

/-- The angles. -/
structure Angles (p : Precomputations V) (x y z r : V) : Prop where
  unit : p.cos_mL 1 ^ 2 + p.sin_mL 1 ^ 2 = 1
  latitude : p.cos_β ^ 2 + p.sin_β ^ 2 = 1
  nonneg : 0 ≤ p.cos_β
  ix : inner ℝ r x = ‖r‖ * (p.cos_β * p.cos_mL 1)
  iy : inner ℝ r y = ‖r‖ * (p.cos_β * p.sin_mL 1)
  iz : inner ℝ r z = ‖r‖ * p.sin_β
  r_norm : p.r_norm = ‖r‖
  radial : p.r_normalized = (p.cos_β * p.cos_mL 1) • x + (p.cos_β * p.sin_mL 1) • y + p.sin_β • z
  grad_𝔅 : p.grad_𝔅_vector = (-p.sin_β * p.cos_mL 1) • x - (p.sin_β * p.sin_mL 1) • y + p.cos_β • z
  grad_𝔏 : p.grad_𝔏_vector = p.cos_mL 1 • y - p.sin_mL 1 • x
  pole : p.cos_β = 0 → p.cos_mL 1 = 1 ∧ p.sin_mL 1 = 0

theorem initialize_angles (b : OblateBody V) {x y z r : V} (F : IsFrame x y z) (hr : r ≠ 0) (r2 o : ℝ) (u : Arrays) : Angles (initializePrecomputations b (x, y, z) r ‖r‖ r2 o u) x y z r := by
  have hn : ‖r‖ ≠ 0 := norm_ne_zero_iff.2 hr
  have hsq := F.norm_sq r
  unfold initializePrecomputations
  simp only
  set X : ℝ := inner ℝ r x with hX
  set Y : ℝ := inner ℝ r y with hY
  set Z : ℝ := inner ℝ r z with hZ
  set E := √(X * X + Y * Y) with hE
  have hE2 : E * E = X * X + Y * Y := Real.mul_self_sqrt (by nlinarith [mul_self_nonneg X, mul_self_nonneg Y])
  have hE0 : 0 ≤ E := Real.sqrt_nonneg _
  set c := (if E > 0 then X * (1 / E) else 1) with hc
  set s := (if E > 0 then Y * (1 / E) else 0) with hs
  have hcs : c ^ 2 + s ^ 2 = 1 ∧ X = E * c ∧ Y = E * s ∧ (E = 0 → c = 1 ∧ s = 0) := by
    by_cases h : E > 0
    · rw [hc, hs, if_pos h, if_pos h]
      refine ⟨?_, by field_simp, by field_simp, fun h0 => absurd h0 h.ne'⟩
      field_simp
      nlinarith
    · have e0 : E = 0 := le_antisymm (not_lt.1 h) hE0
      have : X * X + Y * Y = 0 := by rw [← hE2, e0, mul_zero]
      have x0 : X = 0 := by nlinarith [mul_self_nonneg X, mul_self_nonneg Y]
      have y0 : Y = 0 := by nlinarith [mul_self_nonneg X, mul_self_nonneg Y]
      rw [hc, hs, if_neg h, if_neg h, x0, y0, e0]
      norm_num
  obtain ⟨h1, h2, h3, h4⟩ := hcs
  refine ⟨by simpa [Function.update_self] using h1, ?_, ?_, ?_, ?_, ?_, rfl, ?_, ?_, ?_, ?_⟩
  · field_simp
    nlinarith
  · positivity
  · simp only [Function.update_self]
    rw [← hX, h2]; field_simp
  · simp only [Function.update_self]
    rw [← hY, h3]; field_simp
  · rw [← hZ]; field_simp
  · simp only [Function.update_self]
    have hv := F.complete r
    rw [← hX, ← hY, ← hZ, h2, h3] at hv
    generalize ‖r‖ = ν
    rw [hv]
    module
  · simp only [Function.update_self]
  · simp only [Function.update_self]
  · intro h
    simp only [Function.update_self]
    refine h4 ?_
    rcases mul_eq_zero.1 h with h | h
    · exact h
    · exact absurd h (by positivity)

theorem Angles.meridian {p : Precomputations V} {x y z r : V} (A : Angles p x y z r) : p.cos_β • p.grad_𝔅_vector = z - p.sin_β • p.r_normalized := by
  have h := A.latitude
  rw [A.grad_𝔅, A.radial]
  have e : p.cos_β ^ 2 = 1 - p.sin_β ^ 2 := by linarith
  have e' : p.cos_β • p.cos_β • z = (1 - p.sin_β ^ 2) • z := by rw [smul_smul, ← sq, e]
  rw [smul_add, e']
  module

/-! ### The number of degrees -/

theorem takeWhile_spec {P : WithTop ℝ → Bool} (l : List (WithTop ℝ)) : (l.takeWhile P).length ≤ l.length ∧ (∀ i < (l.takeWhile P).length, P (l.getD i ⊤) = true) ∧ ((l.takeWhile P).length < l.length → P (l.getD (l.takeWhile P).length ⊤) = false) := by
  induction l with
  | nil => simp
  | cons a l ih =>
    rw [List.takeWhile_cons]
    by_cases h : P a = true
    · rw [if_pos h]
      obtain ⟨h1, h2, h3⟩ := ih
      refine ⟨by simpa using h1, fun i hi => ?_, fun hlt => ?_⟩
      · cases i with
        | zero => simpa using h
        | succ i => simpa using h2 i (by simpa using hi)
      · simpa using h3 (by simpa using hlt)
    · rw [if_neg h]
      refine ⟨by simp, by simp, fun _ => by simpa using h⟩

theorem limitingDegree_spec (d : Damping) (r : ℝ) : d.limitingDegree r ≤ d.degrees.length ∧ (∀ i < d.limitingDegree r, (r : WithTop ℝ) < outerThreshold (d.degrees.getD i ⊤)) ∧
    (d.limitingDegree r < d.degrees.length → outerThreshold (d.degrees.getD (d.limitingDegree r) ⊤) ≤ r) := by
  classical
  unfold Damping.limitingDegree
  obtain ⟨h1, h2, h3⟩ := takeWhile_spec (P := fun inner => decide ((r : WithTop ℝ) < outerThreshold inner)) d.degrees
  refine ⟨?_, fun i hi => ?_, fun h => ?_⟩
  · convert h1
  · have := h2 i (by convert hi)
    simpa using this
  · have := h3 (by convert h)
    rw [decide_eq_false_iff_not, not_lt] at this
    convert this

theorem outer_mono {a b : WithTop ℝ} (h : a ≤ b) : outerThreshold a ≤ outerThreshold b := by
  cases b with
  | top => exact le_top
  | coe b =>
    cases a with
    | top => simp at h
    | coe a =>
      rw [outer_coe, outer_coe]
      have : a ≤ b := by exact_mod_cast h
      exact_mod_cast (by linarith : a * 3 ≤ b * 3)

/-! ### All the harmonics -/

/-- What the evaluation relies on. -/
structure WellDamped (degree : ℕ) (d : Damping) : Prop where
  length : d.degrees.length = max degree 1 + 1
  sorted : ∀ i j, i ≤ j → j ≤ max degree 1 → d.degrees.getD j ⊤ ≤ d.degrees.getD i ⊤
  low : d.degrees.getD 0 ⊤ = ⊤ ∧ d.degrees.getD 1 ⊤ = ⊤
  sectoral : 2 ≤ degree → d.sectoral ≤ d.degrees.getD 2 ⊤ ∧ ∀ n, 3 ≤ n → n ≤ degree → d.degrees.getD n ⊤ ≤ d.sectoral
  nonneg : (∀ n, 0 ≤ d.degrees.getD n ⊤) ∧ 0 ≤ d.sectoral

theorem construct_wellDamped {maxAbs : ℕ → ℕ → ℝ} {b : OblateBody V} {ε : ℝ} (hmax : ∀ n m, 0 ≤ maxAbs n m) (hR : 0 ≤ b.referenceRadius) (hε : 0 ≤ ε) : WellDamped b.degree (construct maxAbs b ε) := by
  have T := construct_thresholds maxAbs b ε
  exact ⟨T.length, T.sorted, T.low, fun h => ⟨(T.sectoral h).2.1, (T.sectoral h).2.2⟩, construct_nonneg hmax hR hε⟩

theorem WellDamped.inner_nonneg {D : ℕ} {d : Damping} (w : WellDamped D d) (n m : ℕ) : 0 ≤ d.inner n m := by
  unfold Damping.inner
  split
  · exact w.nonneg.2
  · exact w.nonneg.1 n

variable {ρ W : Type*} [AddCommGroup W]

theorem known_initial (z : Prop) (b : OblateBody V) (axes : V × V × V) (r : V) (rn r2 : ℝ) (u : Arrays) :
    Known z (exact b.referenceRadius (initializePrecomputations b axes r rn r2 (1 / rn ^ 3) u)) (initializePrecomputations b axes r rn r2 (1 / rn ^ 3) u) 2 2 0 := by
  refine ⟨rfl, rfl, rfl, rfl, rfl, rfl, rfl, fun k h1 h2 => ?_, fun _ k h1 h2 => ?_, fun k h1 _ => ?_, fun k j h1 h2 _ => ?_, fun h => absurd h (by omega)⟩
  · obtain rfl : k = 1 := by omega
    show Function.update u.ℜ_over_r 1 (b.referenceRadius * (1 / rn ^ 3)) 1 = b.referenceRadius ^ 1 / rn ^ (1 + 2)
    rw [Function.update_self, pow_one]
    ring
  · obtain rfl : k = 1 := by omega
    simp only [exact, pow_one, and_self]
  · have : k = 0 ∨ k = 1 := by omega
    rcases this with rfl | rfl
    · simp [exact, initializePrecomputations]
    · simp [exact, initializePrecomputations]
  · have : (k = 0 ∧ j = 0) ∨ (k = 1 ∧ j = 0) ∨ (k = 1 ∧ j = 1) := by omega
    rcases this with ⟨rfl, rfl⟩ | ⟨rfl, rfl⟩ | ⟨rfl, rfl⟩
    · simp [exact, initializePrecomputations, set, legendreD_zero]
    · simp [exact, initializePrecomputations, set, legendreD_one]
    · simp [exact, initializePrecomputations, set, legendreD_one_one]

open Classical in
/-- The truncation and the zonal shortcut do not matter. -/
theorem evaluate_eq {radial : WithTop ℝ → ℝ → ℝ → Precomputations V → Option ρ} {term : ℕ → ℕ → ρ → Precomputations V → W} (hrl : RadialLocal radial) (hl : Local term) (h21 : ∀ x p, term 2 1 x p = 0) {C : ℕ}
    {b : OblateBody V} {d : Damping} (w : WellDamped b.degree d) (hC : b.degree ≤ C) {t : ℝ} {r : V} {rn : ℝ} (hr : 0 < rn) (u : Arrays) {x : ℕ → ℕ → ρ} (e : Prop → Precomputations V)
    (he : ∀ z, e z = exact b.referenceRadius (initializePrecomputations b (b.axes z t) r rn (rn ^ 2) (1 / rn ^ 3) u))
    (hx : ∀ z n m, 2 ≤ n → (rn : WithTop ℝ) ≤ outerThreshold (d.inner n m) → radial (d.inner n m) ((e z).ℜ_over_r n) (-((n : ℝ) + 1) * (e z).ℜ_over_r n) (e z) = some (x n m))
    (hzero : ∀ n m, 2 ≤ n → outerThreshold (d.inner n m) ≤ rn → term n m (x n m) (e False) = 0)
    (hcoef : ∀ n m, 1 ≤ m → b.cos n m = 0 → b.sin n m = 0 → term n m (x n m) (e False) = 0)
    (hframe : ∀ n, term n 0 (x n 0) (e True) = term n 0 (x n 0) (e False)) :
    evaluate radial term C b d t r rn (rn ^ 2) (1 / rn ^ 3) u = some (∑ n ∈ Finset.range (b.degree - 1), ∑ m ∈ Finset.range (n + 3), term (n + 2) m (x (n + 2) m) (e False)) := by
  obtain ⟨l1, l2, l3⟩ := limitingDegree_spec d rn
  have two : 2 ≤ d.limitingDegree rn := by
    by_contra hlt
    have hlen := w.length
    have h := l3 (by omega)
    have : d.limitingDegree rn = 0 ∨ d.limitingDegree rn = 1 := by omega
    rcases this with h' | h' <;> rw [h'] at h
    · rw [w.low.1, outer_top] at h; simp at h
    · rw [w.low.2, outer_top] at h; simp at h
  -- The degrees that are not evaluated.
  have beyond : ∀ n m, 2 ≤ n → n ≤ b.degree → d.limitingDegree rn ≤ n → term n m (x n m) (e False) = 0 := by
    intro n m h1 h2 h3
    have hlen := w.length
    refine hzero n m h1 (le_trans (outer_mono ?_) (l3 (by omega)))
    unfold Damping.inner
    by_cases h22 : n = 2 ∧ m = 2
    · rw [if_pos h22]
      have : d.limitingDegree rn = 2 := by omega
      rw [this]
      exact (w.sectoral (by omega)).1
    · rw [if_neg h22]
      exact w.sorted _ _ h3 (by omega)
  unfold evaluate
  simp only
  obtain ⟨M, hM⟩ : ∃ M, d.limitingDegree rn = M + 2 := ⟨d.limitingDegree rn - 2, by omega⟩
  rw [hM, show M + 2 - 1 = M + 1 from rfl]
  have hlen := w.length
  by_cases hM0 : M = 0
  · rw [if_pos (by omega)]
    rw [Finset.sum_eq_zero]
    intro n hn
    rw [Finset.mem_range] at hn
    exact Finset.sum_eq_zero fun m _ => beyond (n + 2) m (by omega) (by omega) (by omega)
  · rw [if_neg (by omega), if_pos ⟨by omega, by omega⟩]
    set z : Prop := b.isZonal ∨ (rn : WithTop ℝ) > outerThreshold d.sectoral with hz
    have K := known_initial z b (b.axes z t) r rn (rn ^ 2) u
    have hx' : ∀ n m, 2 ≤ n → n < M + 2 → m ≤ n → (z → m = 0) → radial (d.inner n m) ((e z).ℜ_over_r n) (-((n : ℝ) + 1) * (e z).ℜ_over_r n) (e z) = some (x n m) := by
      intro n m h1 h2 h3 h4
      refine hx z n m h1 ?_
      unfold Damping.inner
      by_cases h22 : n = 2 ∧ m = 2
      · rw [if_pos h22]
        by_contra hlt
        have := h4 (.inr (not_le.1 hlt))
        omega
      · rw [if_neg h22]
        exact (l2 n (by omega)).le
    rw [he z] at hx'
    obtain ⟨p', -, ha⟩ := allDegrees_eq hrl hl h21 d (show (initializePrecomputations b (b.axes z t) r rn (rn ^ 2) (1 / rn ^ 3) u).r_norm ≠ 0 from hr.ne') rfl K M hx'
    rw [← he z] at ha
    refine (congrArg (Option.map Prod.fst) ha).trans ?_
    rw [Option.map_some]
    refine congrArg some ?_
    simp only
    -- The orders.
    have inner : ∀ n, n < M → ∑ m ∈ Finset.range (if z then 1 else n + 2 + 1), term (n + 2) m (x (n + 2) m) (e z) = ∑ m ∈ Finset.range (n + 3), term (n + 2) m (x (n + 2) m) (e False) := by
      intro n hn
      by_cases hzz : z
      · rw [if_pos hzz, Finset.sum_range_one]
        have ez : e z = e True := by rw [eq_true hzz]
        rw [ez, hframe, Finset.sum_range_succ' _ (n + 2), Finset.sum_eq_zero, zero_add]
        intro m hm
        rcases hzz with hb | hs
        · rw [Finset.mem_range] at hm
          have := hb (n + 2) (by omega) (m + 1) (by omega) (by omega)
          push Not at this
          exact hcoef _ _ (by omega) this.1 this.2
        · by_cases h1 : n = 0 ∧ m = 0
          · obtain ⟨rfl, rfl⟩ := h1
            exact h21 _ _
          · refine hzero _ _ (by omega) (le_trans (outer_mono ?_) hs.le)
            unfold Damping.inner
            by_cases h22 : n + 2 = 2 ∧ m + 1 = 2
            · rw [if_pos h22]
            · rw [if_neg h22]
              rw [Finset.mem_range] at hm
              exact (w.sectoral (by omega)).2 _ (by omega) (by omega)
      · have ez : e z = e False := by rw [eq_false hzz]
        rw [if_neg hzz, ez]
    rw [Finset.sum_congr rfl fun n hn => inner n (Finset.mem_range.1 hn)]
    refine Finset.sum_subset (Finset.range_subset_range.2 (by omega)) fun n hn hn' => ?_
    rw [Finset.mem_range] at hn hn'
    exact Finset.sum_eq_zero fun m _ => beyond (n + 2) m (by omega) (by omega) (by omega)

end Principia.Geopotential
