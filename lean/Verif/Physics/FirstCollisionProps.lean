import Verif.Physics.FirstCollisionModel
import Verif.Numerics.ApproximationProps
import Mathlib.Topology.Order.IntermediateValue

/-!
C62: the first collision with the terrain.
-/

set_option linter.unusedSimpArgs false
set_option linter.unusedVariables false
set_option linter.unusedSectionVars false

namespace Principia.Physics.FirstCollision

open Principia.Numerics.Chebyshev Polynomial

noncomputable section

/-! ## Specification -/

/-- The estimate of the error of an interpolant of the height is indeed a bound of its error. -/
def Honest (height : ℝ → ℝ) (maxError : ℝ) (p : Interpolant) : Prop :=
  ∀ error, interpolant height p.2.lowerBound p.2.upperBound maxError 8 = some (p, error) →
    ∀ t v, p.2.lowerBound ≤ t → t ≤ p.2.upperBound → p.2.evaluate t = some v → |height t - v| ≤ error

/-- Either the test says that the interpolant has no roots, or it has degree 2 at least, and its leading coefficient is not zero. -/
def Solvable (p : Interpolant) : Prop := p.2.mayHaveRealRoots 0 = some true → 2 ≤ p.1 ∧ p.2.coefficients (Fin.last p.1) ≠ 0

/-! ## Interpolants -/

theorem realRoots_spec {N : ℕ} (hN : 2 ≤ N) (eigenvalues) (he : IsRealEigenvalues (n := N) eigenvalues) (c : Fin (N + 1) → ℝ) (lower upper : ℝ) (h : lower < upper)
    (hc : c (Fin.last N) ≠ 0) :
    ∃ p roots, construct c lower upper = some p ∧ p.realRoots eigenvalues = some roots ∧ ∀ t, t ∈ roots ↔ lower ≤ t ∧ t ≤ upper ∧ series c lower upper t = 0 := by
  obtain ⟨n, rfl⟩ : ∃ n, N = n + 2 := ⟨N - 2, by omega⟩
  exact C39_real_roots eigenvalues he c lower upper h hc

theorem continuous_series {N : ℕ} (c : Fin (N + 1) → ℝ) (lower upper : ℝ) : Continuous (series c lower upper) := by
  have hs : Continuous (scale lower upper) := by
    show Continuous fun t => (2 * t - (lower + upper)) / (upper - lower)
    exact ((continuous_const.mul continuous_id).sub continuous_const).div_const _
  refine continuous_finsetSum _ fun k _ => ?_
  exact (((Chebyshev.T ℝ (k : ℕ)).differentiable.continuous).comp hs).smul continuous_const

/-- What we know of an interpolant. -/
structure Piece (height : ℝ → ℝ) (p : Interpolant) (error : ℝ) (P : ℝ → ℝ) : Prop where
  continuous : Continuous P
  evaluate : ∀ t, p.2.lowerBound ≤ t → t ≤ p.2.upperBound → p.2.evaluate t = some (P t)
  lower : P p.2.lowerBound = height p.2.lowerBound
  upper : P p.2.upperBound = height p.2.upperBound
  nonneg : 0 ≤ error
  mayHaveRealRoots : ∀ e t, p.2.lowerBound ≤ t → t ≤ p.2.upperBound → |P t| ≤ e → p.2.mayHaveRealRoots e = some true
  realRoots : 2 ≤ p.1 → p.2.coefficients (Fin.last p.1) ≠ 0 → ∀ eigenvalues, IsRealEigenvalues (n := p.1) eigenvalues →
    ∃ roots, p.2.realRoots eigenvalues = some roots ∧ ∀ t, t ∈ roots ↔ p.2.lowerBound ≤ t ∧ t ≤ p.2.upperBound ∧ P t = 0

theorem piece_of_interpolant {height : ℝ → ℝ} {a b maxError : ℝ} (h : a < b) {maxDegree : ℕ} {p : Interpolant} {error : ℝ} (hp : interpolant height a b maxError maxDegree = some (p, error)) :
    ∃ P, Piece height p error P := by
  obtain ⟨hl, hu⟩ := interpolant_bounds h hp
  obtain ⟨m, q, h1, h2, -⟩ := interpolant_eq height a b maxError h maxDegree
  rw [hp] at h1
  obtain ⟨rfl, rfl⟩ := Prod.mk.inj (Option.some.inj h1)
  obtain ⟨q', hq', hco, -⟩ := construct_spec (fun j : Fin (2 ^ m + 1) => exact height a b (2 ^ m) j) h
  obtain rfl : q = q' := by rw [h2] at hq'; exact Option.some.inj hq'
  have hpos : 0 < 2 ^ m := Nat.pow_pos two_pos
  refine ⟨series (degree := 2 ^ m) (fun j => exact height a b (2 ^ m) j) a b, continuous_series _ _ _, ?_, ?_, ?_, estimate_nonneg _ _ _ _, ?_, ?_⟩
  · intro t ht1 ht2
    rw [hl] at ht1
    rw [hu] at ht2
    obtain ⟨q', hq'', hv⟩ := C39_value (fun j : Fin (2 ^ m + 1) => exact height a b (2 ^ m) j) a b t h ht1 ht2
    obtain rfl : q = q' := by rw [h2] at hq''; exact Option.some.inj hq''
    exact hv
  · have e : lobatto a b (2 ^ m) (2 ^ m) = a := by
      have : ((2 ^ m : ℕ) : ℝ) ≠ 0 := by exact_mod_cast hpos.ne'
      rw [lobatto, mul_div_cancel_right₀ _ this, Real.cos_pi]; ring
    have := evaluate_exact height h hpos (le_refl (2 ^ m))
    rw [e] at this
    rw [hl]
    exact this
  · have e : lobatto a b (2 ^ m) 0 = b := by
      rw [lobatto]; simp; ring
    have := evaluate_exact height h hpos (Nat.zero_le (2 ^ m))
    rw [e] at this
    rw [hu]
    exact this
  · intro e t ht1 ht2 hv
    rw [hl] at ht1
    rw [hu] at ht2
    obtain ⟨q', hq'', hm⟩ := C39_may_have_real_roots (fun j : Fin (2 ^ m + 1) => exact height a b (2 ^ m) j) a b e h
      (fun s => series (degree := 2 ^ m) (fun j => exact height a b (2 ^ m) j) a b s - series (degree := 2 ^ m) (fun j => exact height a b (2 ^ m) j) a b t)
      (fun s _ _ => by rw [sub_sub_cancel_left, abs_neg]; exact hv) t ht1 ht2 (sub_self _)
    obtain rfl : q = q' := by rw [h2] at hq''; exact Option.some.inj hq''
    exact hm
  · intro hN hc eigenvalues he
    have hc' : (fun j : Fin (2 ^ m + 1) => exact height a b (2 ^ m) j) (Fin.last (2 ^ m)) ≠ 0 := by
      rw [← hco]; exact hc
    obtain ⟨q', roots, hq'', hr, hmem⟩ := realRoots_spec (N := 2 ^ m) hN eigenvalues he (fun j : Fin (2 ^ m + 1) => exact height a b (2 ^ m) j) a b h hc'
    obtain rfl : q = q' := by rw [h2] at hq''; exact Option.some.inj hq''
    refine ⟨roots, hr, fun t => ?_⟩
    rw [hl, hu]
    exact hmem t

theorem mayHaveRealRoots_some {d : ℕ} (p : Poly ℝ d) {e : ℝ} (he : 0 ≤ e) : ∃ b, p.mayHaveRealRoots e = some b := by
  rw [Poly.mayHaveRealRoots, if_neg (not_not.2 he)]
  exact ⟨_, rfl⟩

/-- A continuous function that starts positive and has no root is positive. -/
theorem pos_of_no_root {P : ℝ → ℝ} (hP : Continuous P) {a b : ℝ} (ha : 0 < P a) (h : ∀ t, a ≤ t → t ≤ b → P t ≠ 0) {t : ℝ} (h1 : a ≤ t) (h2 : t ≤ b) : 0 < P t := by
  by_contra hneg
  obtain ⟨x, hx, hx'⟩ := intermediate_value_Icc' h1 hP.continuousOn (show (0 : ℝ) ∈ Set.Icc (P t) (P a) from ⟨not_lt.1 hneg, ha.le⟩)
  exact h x hx.1 (hx.2.trans h2) hx'

variable {height : ℝ → ℝ} {maxError : ℝ}

/-- Where the interpolant is positive, the height is not much below zero. -/
theorem above (hm : 0 < maxError) {p : Interpolant} {error : ℝ} {P : ℝ → ℝ} (hP : Piece height p error P) (hg : Good height maxError 8 subdivide p error) (hh : Honest height maxError p) {t : ℝ}
    (h1 : p.2.lowerBound ≤ t) (h2 : t ≤ p.2.upperBound) (hpos : 0 < P t) : -maxError < height t := by
  have hd := hh error hg.1 t (P t) h1 h2 (hP.evaluate t h1 h2)
  rw [abs_le] at hd
  rcases hg.2 with c | c
  · linarith
  · rcases lt_or_ge error (P t) with c' | c'
    · linarith
    · have := hP.mayHaveRealRoots error t h1 h2 (by rw [abs_of_pos hpos]; exact c')
      rw [subdivide, this] at c
      simp at c

variable (eigenvalues : (n : ℕ) → Matrix (Fin n) (Fin n) ℝ → Finset ℝ)

theorem feedUntil_spec (hm : 0 < maxError) (he : ∀ n, IsRealEigenvalues (n := n) (eigenvalues n)) (l : List Interpolant) :
    ∀ a b, Tiles a b l → (∀ p ∈ l, (∃ error, Good height maxError 8 subdivide p error) ∧ Honest height maxError p ∧ Solvable p) → 0 < height a →
    ∃ r, feedUntil (stop eigenvalues) none l = some r ∧
      ((r = (none, false) ∧ 0 < height b ∧ ∀ t, a ≤ t → t ≤ b → a < b → -maxError < height t) ∨
       ∃ t, r = (some t, true) ∧ a ≤ t ∧ t ≤ b ∧ |height t| ≤ maxError ∧ ∀ t', a ≤ t' → t' < t → -maxError < height t') := by
  induction l with
  | nil =>
    intro a b ht _ ha
    obtain rfl : a = b := ht
    exact ⟨_, rfl, .inl ⟨rfl, ha, fun t _ _ h => absurd h (lt_irrefl _)⟩⟩
  | cons p l ih =>
    intro a b ht hall ha
    obtain ⟨rfl, hlt, ht'⟩ := ht
    obtain ⟨⟨error, hg⟩, hh, hs⟩ := hall p (List.mem_cons_self ..)
    obtain ⟨P, hP⟩ := piece_of_interpolant hlt hg.1
    have hPa : 0 < P p.2.lowerBound := by rw [hP.lower]; exact ha
    -- The piece has no root.
    have cont : (∀ t, p.2.lowerBound ≤ t → t ≤ p.2.upperBound → P t ≠ 0) → stop eigenvalues none p = some (none, false) →
        ∃ r, feedUntil (stop eigenvalues) none (p :: l) = some r ∧
          ((r = (none, false) ∧ 0 < height b ∧ ∀ t, p.2.lowerBound ≤ t → t ≤ b → p.2.lowerBound < b → -maxError < height t) ∨
           ∃ t, r = (some t, true) ∧ p.2.lowerBound ≤ t ∧ t ≤ b ∧ |height t| ≤ maxError ∧ ∀ t', p.2.lowerBound ≤ t' → t' < t → -maxError < height t') := by
      intro hno hstop
      have hpos : ∀ t, p.2.lowerBound ≤ t → t ≤ p.2.upperBound → 0 < P t := fun t h1 h2 => pos_of_no_root hP.continuous hPa hno h1 h2
      have hab : ∀ t, p.2.lowerBound ≤ t → t ≤ p.2.upperBound → -maxError < height t := fun t h1 h2 => above hm hP hg hh h1 h2 (hpos t h1 h2)
      have hb : 0 < height p.2.upperBound := by rw [← hP.upper]; exact hpos _ hlt.le le_rfl
      obtain ⟨r, hr, hr'⟩ := ih _ _ ht' (fun q hq => hall q (List.mem_cons_of_mem _ hq)) hb
      refine ⟨r, by rw [feedUntil, hstop, Option.bind_some, if_neg (by simp)]; exact hr, ?_⟩
      rcases hr' with ⟨rfl, h1, h2⟩ | ⟨t, rfl, h1, h2, h3, h4⟩
      · refine .inl ⟨rfl, h1, fun t ht1 ht2 _ => ?_⟩
        by_cases c : t ≤ p.2.upperBound
        · exact hab t ht1 c
        · exact h2 t (not_le.1 c).le ht2 ((not_le.1 c).trans_le ht2)
      · refine .inr ⟨t, rfl, hlt.le.trans h1, h2, h3, fun t' ht1 ht2 => ?_⟩
        by_cases c : t' ≤ p.2.upperBound
        · exact hab t' ht1 c
        · exact h4 t' (not_le.1 c).le ht2
    obtain ⟨bm, hbm⟩ := mayHaveRealRoots_some p.2 le_rfl
    cases bm with
    | false =>
      refine cont (fun t h1 h2 h0 => ?_) (by rw [stop, hbm]; rfl)
      have := hP.mayHaveRealRoots 0 t h1 h2 (by rw [h0, abs_zero])
      rw [hbm] at this
      simp at this
    | true =>
      obtain ⟨h2, hc⟩ := hs hbm
      obtain ⟨roots, hr, hmem⟩ := hP.realRoots h2 hc (eigenvalues p.1) (he p.1)
      by_cases hne : roots.Nonempty
      · have hst : stop eigenvalues none p = some (some (roots.min' hne), true) := by
          rw [stop, hbm, Option.bind_some, if_pos rfl, hr, Option.bind_some, dif_pos hne]
        obtain ⟨t1, t2, t3⟩ := (hmem _).1 (roots.min'_mem hne)
        refine ⟨_, by rw [feedUntil, hst, Option.bind_some, if_pos rfl], .inr ⟨roots.min' hne, rfl, t1, t2.trans ht'.le, ?_, ?_⟩⟩
        · have hd := hh error hg.1 _ _ t1 t2 (hP.evaluate _ t1 t2)
          rw [t3, sub_zero] at hd
          rcases hg.2 with c | c
          · exact hd.trans c
          · have := hP.mayHaveRealRoots error _ t1 t2 (by rw [t3, abs_zero]; exact hP.nonneg)
            rw [subdivide, this] at c
            simp at c
        · intro t' h1' h2'
          refine above hm hP hg hh h1' (h2'.le.trans t2) (pos_of_no_root hP.continuous hPa (fun t h1 h2 h0 => ?_) h1' le_rfl)
          have := roots.min'_le t ((hmem t).2 ⟨h1, h2.trans (h2'.le.trans t2), h0⟩)
          linarith
      · refine cont (fun t h1 h2 h0 => hne ⟨t, (hmem t).2 ⟨h1, h2, h0⟩⟩) ?_
        rw [stop, hbm, Option.bind_some, if_pos rfl, hr, Option.bind_some, dif_neg hne]

/-- C62.  Consider a trajectory that starts above the terrain, and the interpolants of its height.  If their estimates of the error are honest, and if those that may have roots have degree 2 at least,
then:
- if a collision is found, at that time the height is zero, within the given error, and the trajectory doesn't go below the terrain (by more than the given error) before that time;
- if no collision is found, the trajectory never goes below the terrain (by more than the given error). -/
theorem C62_first_collision (he : ∀ n, IsRealEigenvalues (n := n) (eigenvalues n)) (min max : ℝ) (hmm : min < max) (fuel : ℕ) (l : List Interpolant) (e : ℝ)
    (hl : adaptive height min max maxError 8 subdivide fuel = some (l, e)) (hp : ∀ p ∈ l, Honest height maxError p ∧ Solvable p) (h0 : 0 < height min) :
    ∃ r, computeFirstCollision eigenvalues height min max maxError fuel = some r ∧
      (∀ t, r = some t → min ≤ t ∧ t ≤ max ∧ |height t| ≤ maxError ∧ ∀ t', min ≤ t' → t' < t → -maxError < height t') ∧
      (r = none → ∀ t, min ≤ t → t ≤ max → -maxError < height t) := by
  have hm : 0 < maxError := by
    by_contra hneg
    rw [adaptive, C61_positive_error _ _ _ _ (not_lt.1 hneg)] at hl
    simp at hl
  obtain ⟨htiles, hgood, -⟩ := C61_adaptive _ _ _ _ _ _ _ hmm _ _ hl
  obtain ⟨r, hr, hr'⟩ := feedUntil_spec eigenvalues hm he l min max htiles (fun p hp' => ⟨by obtain ⟨er, hg, -⟩ := hgood p hp'; exact ⟨er, hg⟩, hp p hp'⟩) h0
  have hs := C61_streaming_adaptive _ _ _ _ _ _ _ _ _ hl (stop eigenvalues) none
  rw [hr] at hs
  obtain ⟨⟨s, b, e'⟩, hs1, hs2⟩ := Option.map_eq_some_iff.1 hs
  subst hs2
  refine ⟨s, ?_, ?_⟩
  · rw [computeFirstCollision, maxChebyshevDegree, hs1]
    rfl
  · rcases hr' with ⟨hrr, -, h2⟩ | ⟨t, hrr, h1, h2, h3, h4⟩
    · obtain ⟨rfl, -⟩ := Prod.mk.inj hrr
      exact ⟨fun t ht => by simp at ht, fun _ t ht1 ht2 => h2 t ht1 ht2 hmm⟩
    · obtain ⟨rfl, -⟩ := Prod.mk.inj hrr
      refine ⟨fun t' ht' => ?_, fun h => by simp at h⟩
      obtain rfl := Option.some.inj ht'
      exact ⟨h1, h2, h3, h4⟩

theorem subdivide_some (p : Interpolant) (e : ℝ) (he : 0 ≤ e) : ∃ b, subdivide p e = some b := mayHaveRealRoots_some p.2 he

/-- C62.  There are such interpolants if the height is continuous. -/
theorem C62_termination (min max : ℝ) (hmm : min < max) (hh : ContinuousOn height (Set.Icc min max)) (he : 0 < maxError) : ∃ n l e, ∀ fuel, n ≤ fuel →
    adaptive height min max maxError 8 subdivide fuel = some (l, e) := by
  obtain ⟨n, ⟨l, b, e⟩, h⟩ := C61_termination height min max maxError hmm hh he 8 subdivide (fun (l : List Interpolant) p => some (l ++ [p], false)) subdivide_some (fun _ _ => ⟨_, rfl⟩) []
  refine ⟨n, l, e, fun fuel hf => ?_⟩
  rw [adaptive, h fuel hf]
  rfl

/-! ## Examples -/

theorem estimate_exact {f : ℝ → ℝ} {a b : ℝ} (h : a < b) {d M : ℕ} (hd : d ≤ M) (hM : 0 < M) (c : Fin (d + 1) → ℝ) (hf : ∀ t, a ≤ t → t ≤ b → f t = series c a b t) : estimate f a b M = 0 := by
  rw [estimate, errorEstimate, Nat.mul_div_cancel_left _ two_pos]
  rw [Finset.sum_eq_zero, Finset.sum_eq_zero, add_zero]
  · intro j hj
    rw [Finset.mem_Ico] at hj
    rw [exact_of_series h (by omega : d ≤ 2 * M) (by omega) c hf (by omega : j ≤ 2 * M), Numerics.Chebyshev.ext, dif_neg (by omega), abs_zero]
  · intro j hj
    rw [Finset.mem_range] at hj
    rw [exact_of_series h (by omega : d ≤ 2 * M) (by omega) c hf (by omega : j ≤ 2 * M), exact_of_series h hd hM c hf (by omega : j ≤ M), sub_self, abs_zero]

/-- A quadratic function with a large second derivative is interpolated exactly, with degree 2. -/
theorem quadratic_pieces {f : ℝ → ℝ} {a b : ℝ} (h : a < b) (hm : 0 < maxError) (c : Fin 3 → ℝ) (hf : ∀ t, a ≤ t → t ≤ b → f t = series (degree := 2) c a b t)
    (hest : maxError < |f a - 2 * f ((a + b) / 2) + f b| / 2) :
    ∃ p : Poly ℝ 2, construct (degree := 2) c a b = some p ∧ interpolant f a b maxError 8 = some (⟨2, p⟩, 0) ∧ adaptive f a b maxError 8 subdivide 1 = some ([⟨2, p⟩], 0) := by
  obtain ⟨m, q, hi, h2, h3, h4, h5⟩ := interpolant_eq f a b maxError h 8
  have hm1 : m = 1 := by
    rcases Nat.lt_trichotomy m 1 with k | k | k
    · obtain rfl : m = 0 := by omega
      rw [pow_zero, estimate_one] at h4
      exfalso
      rcases h4 with h4 | h4
      · linarith
      · omega
    · exact k
    · have := h5 1 k
      rw [pow_one, estimate_exact h le_rfl two_pos c hf] at this
      linarith
  subst hm1
  rw [estimate_exact h (M := 2 ^ 1) le_rfl two_pos c hf] at hi
  have hc : (fun j : Fin (2 + 1) => exact f a b 2 j) = c := by
    funext j
    rw [exact_of_series h le_rfl two_pos c hf (by omega), Numerics.Chebyshev.ext, dif_pos j.2]
  refine ⟨q, by rw [← hc]; exact h2, hi, ?_⟩
  have hsp : splits maxError subdivide a b ⟨2, q⟩ 0 = some false := by rw [splits, if_pos (.inl hm.le)]
  have hi' : interpolant f a b maxError 8 = some (⟨2, q⟩, 0) := hi
  rw [adaptive, streaming, if_neg (not_not.2 hm), hi']
  simp only [Option.bind_eq_bind, Option.bind_some, Option.pure_def, hsp]
  rfl

/-- C62: the hypotheses are met, and a collision is found, for the height `t² - 1/4` between -1 and 1: the first collision is at time -1/2. -/
example (he : ∀ n, IsRealEigenvalues (n := n) (eigenvalues n)) : ∃ l e, adaptive (fun t => t ^ 2 - 1 / 4) (-1) 1 (1 / 100) 8 subdivide 1 = some (l, e) ∧
    (∀ p ∈ l, Honest (fun t => t ^ 2 - 1 / 4) (1 / 100) p ∧ Solvable p) ∧ computeFirstCollision eigenvalues (fun t => t ^ 2 - 1 / 4) (-1) 1 (1 / 100) 1 = some (some (-1 / 2)) := by
  have hf : ∀ t : ℝ, -1 ≤ t → t ≤ 1 → t ^ 2 - 1 / 4 = series (degree := 2) ![1 / 4, 0, 1 / 2] (-1) 1 t := by
    intro t _ _
    have e : scale (-1) 1 t = t := by rw [scale]; ring
    rw [series, e, Fin.sum_univ_three]
    simp [Chebyshev.T_two]
    ring
  obtain ⟨p, hp, hi, ha⟩ := quadratic_pieces (maxError := 1 / 100) (f := fun t => t ^ 2 - 1 / 4) (by norm_num : (-1 : ℝ) < 1) (by norm_num) ![1 / 4, 0, 1 / 2] hf (by norm_num)
  obtain ⟨p', hp', hco, hl, hu, -⟩ := construct_spec (degree := 2) ![(1 / 4 : ℝ), 0, 1 / 2] (by norm_num : (-1 : ℝ) < 1)
  obtain rfl : p = p' := by rw [hp] at hp'; exact Option.some.inj hp'
  refine ⟨_, _, ha, ?_, ?_⟩
  · intro q hq
    rw [List.mem_singleton] at hq
    subst hq
    refine ⟨fun error he' t v h1 h2 hv => ?_, fun _ => ⟨le_rfl, by simp [hco, Fin.last]⟩⟩
    rw [hl] at h1
    rw [hu] at h2
    rw [hl, hu, hi] at he'
    obtain ⟨-, rfl⟩ := Prod.mk.inj (Option.some.inj he')
    obtain ⟨p', hp'', hv'⟩ := C39_value (degree := 2) ![(1 / 4 : ℝ), 0, 1 / 2] (-1) 1 t (by norm_num) h1 h2
    obtain rfl : p = p' := by rw [hp] at hp''; exact Option.some.inj hp''
    rw [hv] at hv'
    rw [Option.some.inj hv', ← hf t h1 h2]
    simp
  · obtain ⟨p', roots, hp'', hr, hmem⟩ := C39_real_roots (n := 0) (eigenvalues 2) (he 2) ![(1 / 4 : ℝ), 0, 1 / 2] (-1) 1 (by norm_num) (by simp [Fin.last])
    obtain rfl : p = p' := by rw [hp] at hp''; exact Option.some.inj hp''
    have hmem' : ∀ t, t ∈ roots ↔ t = -1 / 2 ∨ t = 1 / 2 := by
      intro t
      rw [hmem]
      constructor
      · rintro ⟨h1, h2, h3⟩
        rw [← hf t h1 h2] at h3
        have : (t + 1 / 2) * (t - 1 / 2) = 0 := by linarith
        rcases mul_eq_zero.1 this with k | k
        · left; linarith
        · right; linarith
      · rintro (rfl | rfl)
        · refine ⟨by norm_num, by norm_num, ?_⟩
          rw [← hf _ (by norm_num) (by norm_num)]; norm_num
        · refine ⟨by norm_num, by norm_num, ?_⟩
          rw [← hf _ (by norm_num) (by norm_num)]; norm_num
    have hne : roots.Nonempty := ⟨-1 / 2, (hmem' _).2 (.inl rfl)⟩
    have hmin : roots.min' hne = -1 / 2 := by
      refine le_antisymm (roots.min'_le _ ((hmem' _).2 (.inl rfl))) ?_
      rcases (hmem' _).1 (roots.min'_mem hne) with k | k <;> rw [k]
      norm_num
    have hmay : p.mayHaveRealRoots 0 = some true := by
      obtain ⟨p', hp'', h'⟩ := C39_may_have_real_roots (degree := 2) ![(1 / 4 : ℝ), 0, 1 / 2] (-1) 1 0 (by norm_num) (fun t => series (degree := 2) ![1 / 4, 0, 1 / 2] (-1) 1 t)
        (fun t _ _ => by rw [sub_self, abs_zero]) (-1 / 2) (by norm_num) (by norm_num) (by rw [← hf _ (by norm_num) (by norm_num)]; norm_num)
      obtain rfl : p = p' := by rw [hp] at hp''; exact Option.some.inj hp''
      exact h'
    have hst : stop eigenvalues none ⟨2, p⟩ = some (some (-1 / 2), true) := by
      rw [stop, hmay, Option.bind_some, if_pos rfl, hr, Option.bind_some, dif_pos hne, hmin]
    have hs := C61_streaming_adaptive _ _ _ _ _ _ _ _ _ ha (stop eigenvalues) none
    rw [feedUntil, hst, Option.bind_some, if_pos rfl] at hs
    obtain ⟨⟨s, b, e'⟩, hs1, hs2⟩ := Option.map_eq_some_iff.1 hs
    obtain ⟨rfl, -⟩ := Prod.mk.inj hs2
    rw [computeFirstCollision, maxChebyshevDegree, hs1]
    rfl

/-- C62.  If the height is close to a linear function, its interpolant has degree 1, and the time of the collision is wrong.  For instance, a trajectory that falls at the constant speed 2 and whose height is
1 at time 0, hence 0 at time 1/2, is said to hit the ground at time 1/4, when its height is 1/2. -/
theorem C62_linear_counterexample (he : ∀ n, IsRealEigenvalues (n := n) (eigenvalues n)) :
    computeFirstCollision eigenvalues (fun t => 1 - 2 * t) (-1) 1 (1 / 100) 1 = some (some (1 / 4)) := by
  have hf : ∀ t : ℝ, -1 ≤ t → t ≤ 1 → 1 - 2 * t = series (degree := 1) ![1, -2] (-1) 1 t := by
    intro t _ _
    have e : scale (-1) 1 t = t := by rw [scale]; ring
    rw [series, e, Fin.sum_univ_two]
    simp
    ring
  obtain ⟨m, p, hi, h2, h3, h4, h5⟩ := interpolant_eq (fun t => 1 - 2 * t) (-1) 1 (1 / 100) (by norm_num) 8
  obtain rfl : m = 0 := by
    by_contra hne
    have := h5 0 (Nat.pos_of_ne_zero hne)
    rw [pow_zero, estimate_exact (by norm_num) le_rfl one_pos _ hf] at this
    norm_num at this
  rw [estimate_exact (by norm_num) (M := 2 ^ 0) le_rfl one_pos _ hf] at hi
  have hcc : (fun j : Fin (1 + 1) => exact (fun t => 1 - 2 * t) (-1) 1 1 j) = ![(1 : ℝ), -2] := by
    funext j
    rw [exact_of_series (by norm_num) le_rfl one_pos _ hf (by omega), Numerics.Chebyshev.ext, dif_pos j.2]
  obtain ⟨p', hp', hc, hl, hu, -⟩ := construct_spec (degree := 1) ![(1 : ℝ), -2] (by norm_num : (-1 : ℝ) < 1)
  obtain rfl : p = p' := by
    rw [← hcc] at hp'
    exact Option.some.inj (h2.symm.trans hp')
  have hroots : Poly.realRoots (degree := 1) (eigenvalues 1) p = some {1 / 4} := by
    have he1 := he 1
    unfold IsRealEigenvalues at he1
    obtain ⟨A, hA, hA0⟩ : ∃ A : Matrix (Fin 1) (Fin 1) ℝ, Poly.frobeniusCompanionMatrix (degree := 1) p = some A ∧ A 0 0 = 1 / 4 := by
      rw [Poly.frobeniusCompanionMatrix, hc, if_neg (by simp [Fin.last])]
      refine ⟨_, rfl, ?_⟩
      simp [Poly.companionLast, hc, kroneckerDelta, Fin.last]
      norm_num
    rw [Poly.realRoots, hA]
    show some _ = _
    rw [hl, hu]
    refine congrArg some (Finset.ext fun t => ?_)
    simp only [Finset.mem_image, Finset.mem_filter, he1, Finset.mem_singleton]
    constructor
    · rintro ⟨x, ⟨⟨v, hv, hx⟩, -⟩, rfl⟩
      have hv0 : v 0 ≠ 0 := fun h0 => hv (by funext k; fin_cases k; exact h0)
      have := congrFun hx 0
      simp [Matrix.mulVec, dotProduct, hA0] at this
      have : x = 1 / 4 := by
        rcases this with k | k
        · rw [← k]; norm_num
        · exact absurd k hv0
      rw [this]; norm_num
    · rintro rfl
      refine ⟨1 / 4, ⟨⟨fun _ => 1, ?_, ?_⟩, by norm_num, by norm_num⟩, by norm_num⟩
      · intro h; have := congrFun h 0; simp at this
      · funext j; fin_cases j; simp [Matrix.mulVec, dotProduct, hA0]
  have hmay : Poly.mayHaveRealRoots (degree := 1) p 0 = some true := by
    obtain ⟨p', hp'', h'⟩ := C39_may_have_real_roots (degree := 1) ![(1 : ℝ), -2] (-1) 1 0 (by norm_num) (fun t => series (degree := 1) ![1, -2] (-1) 1 t)
      (fun t _ _ => by rw [sub_self, abs_zero]) (1 / 2) (by norm_num) (by norm_num) (by rw [← hf _ (by norm_num) (by norm_num)]; norm_num)
    obtain rfl : p = p' := by rw [hp'] at hp''; exact Option.some.inj hp''
    exact h'
  have hst : stop eigenvalues none ⟨1, p⟩ = some (some (1 / 4), true) := by
    rw [stop, hmay, Option.bind_some, if_pos rfl, hroots, Option.bind_some, dif_pos (Finset.singleton_nonempty _), Finset.min'_singleton]
  have hsp : splits (1 / 100) subdivide (-1) 1 ⟨1, p⟩ 0 = some false := by rw [splits, if_pos (.inl (by norm_num))]
  have hi' : interpolant (fun t => 1 - 2 * t) (-1) 1 (1 / 100) 8 = some (⟨1, p⟩, 0) := hi
  rw [computeFirstCollision, maxChebyshevDegree, streaming, if_neg (by norm_num), hi']
  simp only [Option.bind_eq_bind, Option.bind_some, Option.pure_def, hsp, hst]
  rfl

end

end Principia.Physics.FirstCollision
