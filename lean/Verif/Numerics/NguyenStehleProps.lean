import Verif.Numerics.NguyenStehleReduced
import Verif.Numerics.LatticeProps

/-!
C74: the reduction of lattices (algorithm of Nguyễn and Stehlé).
-/

set_option linter.unusedSimpArgs false
set_option linter.unusedVariables false
set_option linter.unusedSectionVars false

namespace Principia.Numerics.Lattices

open Principia.Numerics.Matrices Finset

/-- The result generates the same lattice as the argument, for any floating-point arithmetic and any choice of the bounds. -/
theorem C74_ns_lattice {F : Type} (fl : Floats F) (inner fuel n d : ℕ) (u : Mat ℤ) (r μ : Mat F) (s : Vec F) (L B : Mat ℤ) (h : nguyenStehle fl inner fuel n d u r μ s L = some B) :
    lattice (matrix n d fun i j => (B i j : ℚ)) = lattice (matrix n d fun i j => (L i j : ℚ)) := by
  unfold nguyenStehle at h
  simp only at h
  rw [Option.map_eq_some_iff] at h
  obtain ⟨t, ht, rfl⟩ := h
  exact (Tracks.nsLoop fl fuel 1 0 _ t ⟨gramMatrix_spec n d L u, rfl⟩ ht).lattice

/-- If the columns of the argument are linearly independent, so are those of the result, for any floating-point arithmetic. -/
theorem C74_ns_basis {F : Type} (fl : Floats F) (inner fuel n d : ℕ) (u : Mat ℤ) (r μ : Mat F) (s : Vec F) (L B : Mat ℤ) (h : nguyenStehle fl inner fuel n d u r μ s L = some B)
    (hL : Independent (matrix n d fun i j => (L i j : ℚ))) : Independent (matrix n d fun i j => (B i j : ℚ)) :=
  independent_of_lattice (C74_ns_lattice fl inner fuel n d u r μ s L B h) hL

/-! ## Exact arithmetic -/

/-- The first columns are reduced. -/
def GoodWith (δ η : ℚ) (n d k : ℕ) (b : Mat ℤ) : Prop :=
  ∀ s, GS n d (rational b) s → (∀ i j, i < j → j < k → j < d → |s.2 i j| ≤ η) ∧ ∀ j, 0 < j → j < k → j < d → (δ - s.2 (j - 1) j ^ 2) * squares n s.1 (j - 1) ≤ squares n s.1 j

theorem GoodWith.reduced {δ η : ℚ} {n d : ℕ} {b : Mat ℤ} (h : GoodWith δ η n d d b) : ReducedWith δ η (matrix n d (rational b)) := by
  have hs := unitriangularGramSchmidt_gs n d (rational b) (fun _ _ => 0) (fun _ _ => 0)
  obtain ⟨h1, h2⟩ := h _ hs
  obtain ⟨h3, h4, h5⟩ := C73_unitriangular_gram_schmidt n d (rational b) (fun _ _ => 0) (fun _ _ => 0)
  generalize unitriangularGramSchmidt n d (rational b) (fun _ _ => 0) (fun _ _ => 0) = s at hs h1 h2 h3 h4 h5
  have hn : ∀ j : Fin d, norm2 (fun l => matrix n d s.1 l j) = squares n s.1 j := fun j => by
    unfold norm2 dotProduct squares columnProduct matrix
    simp only [Matrix.of_apply]
    exact Fin.sum_univ_eq_sum_range (fun l => s.1 l j * s.1 l j) n
  refine ⟨matrix n d s.1, upper d s.2, h3, h5, fun i j hij => ?_, fun j => ?_, fun i j hij => ?_, fun i j hij => ?_⟩
  · exact if_neg (not_le.2 hij)
  · exact (if_pos (le_refl j)).trans (h4 j)
  · rw [show upper d s.2 i j = s.2 i j from if_pos hij.le]
    exact h1 i j hij j.2 j.2
  · rw [hn, hn, show upper d s.2 i j = s.2 i j from if_pos (Fin.le_def.2 (by omega))]
    have := h2 j (by omega) j.2 j.2
    rw [← hij, Nat.add_sub_cancel] at this
    rw [← hij]
    exact this

theorem insertionIndex_spec {F : Type} (fl : Floats F) (t : NS F) : ∀ κ,
    (0 < insertionIndex fl 0 t κ → ¬fl.lovász (t.r (insertionIndex fl 0 t κ - 1) (insertionIndex fl 0 t κ - 1)) (t.s (insertionIndex fl 0 t κ - 1)) = true) ∧
      ∀ p, insertionIndex fl 0 t κ < p → p ≤ κ → fl.lovász (t.r (p - 1) (p - 1)) (t.s (p - 1)) = true
  | 0 => ⟨fun h => by simp [insertionIndex] at h, fun p h1 h2 => by simp [insertionIndex] at h1; omega⟩
  | κ + 1 => by
    rw [insertionIndex]
    by_cases hc : κ + 1 ≥ 0 + 1 ∧ fl.lovász (t.r κ κ) (t.s κ) = true
    · rw [if_pos hc]
      obtain ⟨h1, h2⟩ := insertionIndex_spec fl t κ
      refine ⟨h1, fun p hp hpκ => ?_⟩
      rcases Nat.lt_or_eq_of_le hpκ with hlt | rfl
      · exact h2 p hp (by omega)
      · exact hc.2
    · rw [if_neg hc]
      refine ⟨fun _ h => hc ⟨by omega, h⟩, fun p hp hpκ => by omega⟩

/-- What an iteration does after the reduction of the column. -/
theorem step_exact {δ η : ℚ} (toInt : ℚ → ℤ) {n d κ : ℕ} (hκ0 : 0 < κ) (hκ : κ < d) {L : Mat ℤ} (hL : Independent (matrix n d (rational L))) {t t' : NS ℚ}
    (hg : GoodWith δ η n d κ t.b) (hr : SizeReduced η n d L κ t t') :
    let a := insertionStep (exactFloats δ η toInt) n d κ 0 t';
    ∃ k ≤ κ, a.1 = k + 1 ∧ a.2.1 = 0 ∧ Ready n d L (k + 1) a.2.2 ∧ GoodWith δ η n d (k + 1) a.2.2.b ∧ (∀ l q, l < n → a.2.2.b l q = t'.b l (rot κ k q)) ∧
      ∀ s, GS n d (rational t'.b) s → ∀ p, k < p → p ≤ κ → rem n (rational t'.b) s κ (p - 1) ≤ δ * squares n s.1 (p - 1) := by
  have htr := hr.tracks.insertionStep (exactFloats δ η toInt) (ζ := 0) hκ
  simp only
  obtain ⟨hi1, hi2⟩ := insertionIndex_spec (exactFloats δ η toInt) t' κ
  have hle := insertionIndex_le (exactFloats δ η toInt) 0 t' κ
  obtain ⟨k, hk⟩ : ∃ k, k = insertionIndex (exactFloats δ η toInt) 0 t' κ := ⟨_, rfl⟩
  have hb : ∀ l q, l < n → (insertionStep (exactFloats δ η toInt) n d κ 0 t').2.2.b l q = t'.b l (rot κ k q) := by
    intro l q hl
    unfold insertionStep
    simp only
    rw [← hk]
    by_cases hne : κ ≠ k
    · rw [if_pos hne]
      exact rotateColumns_apply n (by omega) _ l q hl
    · rw [if_neg hne]
      have : rot κ k q = q := by unfold rot; split_ifs <;> omega
      rw [this]
  have hrμ : (insertionStep (exactFloats δ η toInt) n d κ 0 t').2.2.μ = sweep 0 k (fun i (μ : Mat ℚ) => μ.set i k (μ i κ)) t'.μ ∧
      (insertionStep (exactFloats δ η toInt) n d κ 0 t').2.2.r = (sweep 0 k (fun i (r : Mat ℚ) => r.set i k (r i κ)) t'.r).set k k (t'.s k) := by
    unfold insertionStep
    simp only
    rw [← hk]
    by_cases hne : κ ≠ k
    · rw [if_pos hne]; exact ⟨rfl, rfl⟩
    · rw [if_neg hne]; exact ⟨rfl, rfl⟩
  rw [← hk] at hi1 hi2 hle
  have hcopy : ∀ (v : Mat ℚ) p q, sweep 0 k (fun i (μ : Mat ℚ) => μ.set i k (μ i κ)) v p q = if p < k ∧ q = k then v p κ else v p q := by
    intro v
    refine sweep_inv (fun i (w : Mat ℚ) => ∀ p q, w p q = if p < i ∧ q = k then v p κ else v p q) 0 k _ (Nat.zero_le _) (fun i w _ hi hw p q => ?_) (fun p q => by rw [if_neg (by omega)])
    unfold Mat.set
    by_cases h : p = i ∧ q = k
    · rw [if_pos h, if_pos (by omega), hw i κ, if_neg (by omega), h.1]
    · rw [if_neg h, hw p q]
      by_cases h2 : p < i ∧ q = k
      · rw [if_pos h2, if_pos (by omega)]
      · rw [if_neg h2, if_neg (by omega)]
  -- The orthogonalization.
  have hins : ∀ s s', GS n d (rational t'.b) s → GS n d (rational (insertionStep (exactFloats δ η toInt) n d κ 0 t').2.2.b) s' →
      ((∀ q < k, ∀ l < n, s'.1 l q = s.1 l q) ∧ ∀ i j, i < j → j < k → s'.2 i j = s.2 i j) ∧ (∀ i < k, s'.2 i k = s.2 i κ) ∧ squares n s'.1 k = rem n (rational t'.b) s κ k := by
    intro s s' hs hs'
    refine hs.insert hs' hle hκ (fun q hq l hl => ?_) (fun l hl => ?_)
    · unfold rational
      rw [hb l q hl]
      unfold rot
      rw [if_neg (by omega), if_neg (by omega)]
    · unfold rational
      rw [hb l k hl]
      unfold rot
      rw [if_pos rfl]
  have hs := unitriangularGramSchmidt_gs n d (rational t'.b) (fun _ _ => 0) (fun _ _ => 0)
  have hs0 := unitriangularGramSchmidt_gs n d (rational t.b) (fun _ _ => 0) (fun _ _ => 0)
  generalize unitriangularGramSchmidt n d (rational t'.b) (fun _ _ => 0) (fun _ _ => 0) = s at hs
  generalize unitriangularGramSchmidt n d (rational t.b) (fun _ _ => 0) (fun _ _ => 0) = s0 at hs0
  have hf := hr.factored s hs
  refine ⟨k, hle, ?_, ?_, ⟨htr, fun s' hs' => ?_⟩, fun s' hs' => ?_, hb, fun s1 hs1 p hp1 hp2 => ?_⟩
  rotate_left
  rotate_left
  · -- The coefficients.
    obtain ⟨⟨h1, h2⟩, h3, h4⟩ := hins s s' hs hs'
    rw [hrμ.1, hrμ.2]
    refine ⟨fun i j hij hj => ?_, fun j hj => ?_⟩
    · rw [mset_ne _ _ (by omega), hcopy, hcopy, show squares n s'.1 i = squares n s.1 i from squares_congr fun l hl => h1 i (by omega) l hl]
      by_cases hjk : j = k
      · subst hjk
        rw [if_pos ⟨hij, rfl⟩, if_pos ⟨hij, rfl⟩, h3 i hij]
        exact hf.computed.1 i κ (by omega) (by omega)
      · rw [if_neg (by omega), if_neg (by omega), h2 i j hij (by omega)]
        exact hf.computed.1 i j hij (by omega)
    · by_cases hjk : j = k
      · subst hjk
        rw [mset_eq, h4]
        exact hf.rest j hle
      · rw [mset_ne _ _ (by omega), hcopy, if_neg (by omega), show squares n s'.1 j = squares n s.1 j from squares_congr fun l hl => h1 j (by omega) l hl]
        exact hf.computed.2 j (by omega)
  · -- The reduction.
    obtain ⟨⟨h1, h2⟩, h3, h4⟩ := hins s s' hs hs'
    obtain ⟨g1, g2⟩ := hg s0 hs0
    obtain ⟨e1, e2⟩ := hs0.prefix_columns hs (c := κ) hκ.le (fun q hq l hl => by unfold rational; rw [hr.others l q (by omega)])
    have hsq : ∀ j < k, squares n s'.1 j = squares n s0.1 j := fun j hj =>
      (squares_congr fun l hl => h1 j hj l hl).trans (squares_congr fun l hl => e1 j (by omega) l hl)
    refine ⟨fun i j hij hj hjd => ?_, fun j hj0 hj hjd => ?_⟩
    · by_cases hjk : j = k
      · subst hjk
        rw [h3 i hij]
        exact hr.small s hs i (by omega)
      · rw [h2 i j hij (by omega), e2 i j hij (by omega)]
        exact g1 i j hij (by omega) hjd
    · by_cases hjk : j = k
      · subst hjk
        have h5 := hi1 hj0
        simp only [exactFloats, decide_eq_true_eq, not_le, ge_iff_le] at h5
        rw [hf.computed.2 (j - 1) (by omega), hf.rest (j - 1) (by omega)] at h5
        have h6 : rem n (rational t'.b) s κ (j - 1) = rem n (rational t'.b) s κ j + s.2 (j - 1) κ * (s.2 (j - 1) κ * squares n s.1 (j - 1)) := by
          unfold rem
          obtain ⟨c, rfl⟩ := Nat.exists_eq_succ_of_ne_zero (by omega : j ≠ 0)
          rw [Nat.succ_eq_add_one, Nat.add_sub_cancel, Finset.sum_range_succ]
          ring
        rw [h3 (j - 1) (by omega), h4, show squares n s'.1 (j - 1) = squares n s.1 (j - 1) from squares_congr fun l hl => h1 (j - 1) (by omega) l hl]
        linarith
      · rw [h2 (j - 1) j (by omega) (by omega), e2 (j - 1) j (by omega) (by omega), hsq j (by omega), hsq (j - 1) (by omega)]
        exact g2 j hj0 (by omega) hjd
  · have hf1 := hr.factored s1 hs1
    have h5 := hi2 p hp1 hp2
    simp only [exactFloats, decide_eq_true_eq, ge_iff_le] at h5
    rw [hf1.computed.2 (p - 1) (by omega), hf1.rest (p - 1) (by omega)] at h5
    exact h5
  all_goals
    -- The inserted column is not 0.
    have hs' := unitriangularGramSchmidt_gs n d (rational (insertionStep (exactFloats δ η toInt) n d κ 0 t').2.2.b) (fun _ _ => 0) (fun _ _ => 0)
    have hpos := htr.squares_pos hL hs' k (by omega)
    have hent := hs'.entry (le_refl k) (by omega : k < d)
    rw [if_neg (lt_irrefl k)] at hent
    generalize unitriangularGramSchmidt n d (rational (insertionStep (exactFloats δ η toInt) n d κ 0 t').2.2.b) (fun _ _ => 0) (fun _ _ => 0) = s' at hs' hpos hent
    have hsum : 0 ≤ ∑ x ∈ range k, s'.2 x k * (s'.2 x k * squares n s'.1 x) := Finset.sum_nonneg fun i _ => by
      rw [← mul_assoc]
      exact mul_nonneg (mul_self_nonneg _) (squares_nonneg _ _ _)
    have hnz : ¬((List.range n).all fun i => decide ((insertionStep (exactFloats δ η toInt) n d κ 0 t').2.2.b i k = 0)) = true := by
      intro hall
      rw [List.all_eq_true] at hall
      have h0 : columnProduct n (rational (insertionStep (exactFloats δ η toInt) n d κ 0 t').2.2.b) (rational (insertionStep (exactFloats δ η toInt) n d κ 0 t').2.2.b) k k = 0 :=
        Finset.sum_eq_zero fun l hl => by
          have := hall l (List.mem_range.2 (Finset.mem_range.1 hl))
          simp only [decide_eq_true_eq] at this
          unfold rational
          rw [this]
          simp
      rw [h0] at hent
      linarith
    unfold insertionStep at hnz ⊢
    simp only at hnz ⊢
    rw [← hk] at hnz ⊢
    rw [if_neg hnz]
  omega

theorem nsLoop_good {δ η : ℚ} (toInt : ℚ → ℤ) {n d inner : ℕ} {L : Mat ℤ} (hL : Independent (matrix n d (rational L))) : ∀ (fuel κ : ℕ) (t t' : NS ℚ), 0 < κ → (κ < d → Ready n d L κ t) →
    GoodWith δ η n d κ t.b → nsLoop (exactFloats δ η toInt) n d inner fuel κ 0 t = some t' → GoodWith δ η n d d t'.b
  | 0, κ, t, t', _, _, _, h => by simp [nsLoop] at h
  | fuel + 1, κ, t, t', hκ0, hR, hg, h => by
    rw [nsLoop] at h
    by_cases hκ : κ < d
    · rw [if_pos hκ, Option.bind_eq_some_iff] at h
      obtain ⟨u, hu, h⟩ := h
      have hr := sizeReduce_exact δ η toInt hκ0 hκ hL inner t u (hR hκ) hu
      obtain ⟨k, hk, h1, h2, h3, h4, -⟩ := step_exact toInt hκ0 hκ hL hg hr
      simp only at h
      rw [h1, h2] at h
      exact nsLoop_good toInt hL fuel (k + 1) _ t' (by omega) (fun _ => h3) h4 h
    · rw [if_neg hκ] at h
      simp only [Option.some.injEq] at h
      subst h
      intro s hs
      obtain ⟨h1, h2⟩ := hg s hs
      exact ⟨fun i j hij hj hjd => h1 i j hij (by omega) hjd, fun j hj0 hj hjd => h2 j hj0 (by omega) hjd⟩

theorem ready_start {n d : ℕ} (L u : Mat ℤ) (r μ : Mat ℚ) (s : Vec ℚ) (hd : 0 < d) : Ready n d L 1 ⟨L, gramMatrix n d L u, r.set 0 0 (gramMatrix n d L u 0 0 : ℚ), μ, s⟩ := by
  refine ⟨⟨gramMatrix_spec n d L u, rfl⟩, fun s hs => ⟨fun i j hij hj => by omega, fun j hj => ?_⟩⟩
  obtain rfl : j = 0 := by omega
  simp only
  rw [mset_eq, gramMatrix_spec n d L u 0 0 hd hd, dot_cast]
  have := hs.entry (le_refl 0) hd
  rw [if_neg (lt_irrefl 0), Finset.sum_range_zero, zero_add] at this
  exact this

/-- In exact arithmetic, the result for linearly independent columns is reduced, with the parameters used in the code. -/
theorem C74_ns_reduced (δ η : ℚ) (toInt : ℚ → ℤ) (inner fuel n d : ℕ) (u : Mat ℤ) (r μ : Mat ℚ) (s : Vec ℚ) (L B : Mat ℤ)
    (h : nguyenStehle (exactFloats δ η toInt) inner fuel n d u r μ s L = some B) (hL : Independent (matrix n d fun i j => (L i j : ℚ))) :
    ReducedWith δ η (matrix n d fun i j => (B i j : ℚ)) := by
  unfold nguyenStehle at h
  simp only at h
  rw [Option.map_eq_some_iff] at h
  obtain ⟨t, ht, rfl⟩ := h
  exact (nsLoop_good toInt (inner := inner) hL fuel 1 _ t Nat.one_pos (fun hd => ready_start L u r μ s (by omega))
    (fun s hs => ⟨fun i j h1 h2 => by omega, fun j h1 h2 => by omega⟩) ht).reduced

theorem nsLoop_terminates {δ η : ℚ} (hδ : δ < 1) (hη : 1 / 2 ≤ η) {toInt : ℚ → ℤ} (hround : ∀ x, |x - toInt x| ≤ 1 / 2) {n d inner : ℕ} {L : Mat ℤ} (hL : Independent (matrix n d (rational L)))
    (N : ℕ) : ∀ (c κ : ℕ) (t : NS ℚ), d - κ ≤ c → 0 < κ → (κ < d → Ready n d L κ t) → GoodWith δ η n d κ t.b → potential n d (rational t.b) = N →
    ∃ fuel t', nsLoop (exactFloats δ η toInt) n d (inner + 2) fuel κ 0 t = some t' := by
  induction N using Nat.strong_induction_on with
  | _ N ihN =>
    intro c
    induction c with
    | zero =>
      intro κ t hc hκ0 _ _ _
      exact ⟨1, t, by rw [nsLoop, if_neg (by omega)]⟩
    | succ c ih =>
      intro κ t hc hκ0 hR hg hN
      by_cases hκ : κ < d
      · obtain ⟨v, hv⟩ := sizeReduce_terminates δ hη hround hκ0 hκ hL inner t (hR hκ)
        have hr := sizeReduce_exact δ η toInt hκ0 hκ hL (inner + 2) t v (hR hκ) hv
        obtain ⟨k, hk, h1, h2, h3, h4, hb, h5⟩ := step_exact toInt hκ0 hκ hL hg hr
        have hs := unitriangularGramSchmidt_gs n d (rational t.b) (fun _ _ => 0) (fun _ _ => 0)
        have hs' := unitriangularGramSchmidt_gs n d (rational v.b) (fun _ _ => 0) (fun _ _ => 0)
        have hpv : potential n d (rational v.b) = N := by
          rw [← hN]
          refine Finset.prod_congr rfl fun i hi => ?_
          rw [Finset.mem_range] at hi
          rw [det_gram hs' (by omega), det_gram hs (by omega)]
          exact Finset.prod_congr rfl fun j hj => by rw [Finset.mem_range] at hj; exact squares_congr fun l hl => hr.same _ _ hs hs' j (by omega) l hl
        have hpos := hr.tracks.squares_pos hL hs'
        obtain ⟨-, hp1, hp2⟩ := potential_insert hs' hκ (hr.tracks.ne_zero hL) (κ - k) (by omega) (fun p hp1 hp2 => by
          have := h5 _ hs' p (by omega) hp2
          have hq := hpos (p - 1) (by omega)
          calc _ ≤ _ := this
            _ < 1 * _ := mul_lt_mul_of_pos_right hδ hq
            _ = _ := one_mul _)
        rw [show κ - (κ - k) = k by omega] at hp1 hp2
        have hpe : potential n d (rational (insertionStep (exactFloats δ η toInt) n d κ 0 v).2.2.b) = potential n d (fun l q => rational v.b l (rot κ k q)) := by
          refine Finset.prod_congr rfl fun i hi => ?_
          congr 1
          ext p q
          rw [gram_apply, gram_apply]
          refine Finset.sum_congr rfl fun l hl => ?_
          rw [Finset.mem_range] at hl
          unfold rational
          rw [hb l p hl, hb l q hl]
        have hrun : ∀ fuel, nsLoop (exactFloats δ η toInt) n d (inner + 2) (fuel + 1) κ 0 t =
            nsLoop (exactFloats δ η toInt) n d (inner + 2) fuel (k + 1) 0 (insertionStep (exactFloats δ η toInt) n d κ 0 v).2.2 := fun fuel => by
          rw [nsLoop, if_pos hκ, hv, Option.bind_some]
          simp only
          rw [h1, h2]
        by_cases hkκ : k = κ
        · -- No insertion.
          obtain ⟨fuel, t', h6⟩ := ih (k + 1) (insertionStep (exactFloats δ η toInt) n d κ 0 v).2.2 (by omega) (by omega) (fun _ => h3) h4 (by
            rw [hpe, ← hpv]
            have : (fun l q => rational v.b l (rot κ k q)) = rational v.b := by
              funext l q
              congr 1
              unfold rot
              split_ifs <;> omega
            rw [this])
          exact ⟨fuel + 1, t', by rw [hrun]; exact h6⟩
        · have hlt : potential n d (rational (insertionStep (exactFloats δ η toInt) n d κ 0 v).2.2.b) < N := by
            rw [hpe, ← hpv]
            rcases hp1 with h | h
            · omega
            · exact h
          obtain ⟨N', hN'⟩ := potential_natural (h3.tracks.ne_zero hL) (fun l q _ _ => ⟨_, rfl⟩)
          rw [hN', Nat.cast_lt] at hlt
          obtain ⟨fuel, t', h6⟩ := ihN N' hlt d (k + 1) (insertionStep (exactFloats δ η toInt) n d κ 0 v).2.2 (by omega) (by omega) (fun _ => h3) h4 hN'
          exact ⟨fuel + 1, t', by rw [hrun]; exact h6⟩
      · exact ⟨1, t, by rw [nsLoop, if_neg hκ]⟩

/-- In exact arithmetic, and if the conversion to an integer does not saturate, the algorithm terminates for linearly independent columns without failing, and each reduction of a column
takes at most two passes. -/
theorem C74_ns_terminates (δ η : ℚ) (hδ : δ < 1) (hη : 1 / 2 ≤ η) (toInt : ℚ → ℤ) (hround : ∀ x, |x - toInt x| ≤ 1 / 2) (inner n d : ℕ) (hinner : 2 ≤ inner) (u : Mat ℤ) (r μ : Mat ℚ)
    (s : Vec ℚ) (L : Mat ℤ) (hL : Independent (matrix n d fun i j => (L i j : ℚ))) : ∃ fuel B, nguyenStehle (exactFloats δ η toInt) inner fuel n d u r μ s L = some B := by
  obtain ⟨i, rfl⟩ := Nat.exists_eq_add_of_le' hinner
  have hd := det_gram_ne_zero hL
  obtain ⟨N, hN⟩ := potential_natural hd (fun l q _ _ => ⟨L l q, rfl⟩)
  obtain ⟨fuel, t', h⟩ := nsLoop_terminates hδ hη hround (inner := i) hL N d 1 ⟨L, gramMatrix n d L u, r.set 0 0 (gramMatrix n d L u 0 0 : ℚ), μ, s⟩ (by omega) Nat.one_pos
    (fun hd => ready_start L u r μ s (by omega)) (fun s hs => ⟨fun i j h1 h2 => by omega, fun j h1 h2 => by omega⟩) hN
  refine ⟨fuel, t'.b, ?_⟩
  unfold nguyenStehle
  simp only
  rw [Option.map_eq_some_iff]
  exact ⟨t', h, rfl⟩

/-- In exact arithmetic, the first vector of the result is at most `2 ^ ((d - 1) / 2)` times longer than any vector of the lattice except 0. -/
theorem C74_ns_short (δ η : ℚ) (hδ : 1 / 2 ≤ δ - η ^ 2) (toInt : ℚ → ℤ) (inner fuel n d : ℕ) (u : Mat ℤ) (r μ : Mat ℚ) (s : Vec ℚ) (L B : Mat ℤ)
    (h : nguyenStehle (exactFloats δ η toInt) inner fuel n (d + 1) u r μ s L = some B) (hL : Independent (matrix n (d + 1) fun i j => (L i j : ℚ))) (x : Fin n → ℚ)
    (hx : x ∈ lattice (matrix n (d + 1) fun i j => (L i j : ℚ))) (hx0 : x ≠ 0) : norm2 (fun l => matrix n (d + 1) (fun i j => (B i j : ℚ)) l 0) ≤ 2 ^ d * norm2 x := by
  rw [← C74_ns_lattice (exactFloats δ η toInt) inner fuel n (d + 1) u r μ s L B h] at hx
  exact short_vector _ (C74_ns_reduced δ η toInt inner fuel n (d + 1) u r μ s L B h hL) (by norm_num) (by linarith) x hx hx0

/-- The parameters of the code. -/
example : (1 : ℚ) / 2 ≤ 7 / 8 - (21 / 40) ^ 2 := by norm_num

/-- A case where the algorithm terminates. -/
example : ∃ fuel B, nguyenStehle (exactFloats (7 / 8) (21 / 40) round) 2 fuel 2 2 0 0 0 0 (fun i j => if i = j then 2 else if i < j then 3 else 5) = some B := by
  refine C74_ns_terminates (7 / 8) (21 / 40) (by norm_num) (by norm_num) round abs_sub_round 2 2 2 (le_refl 2) 0 0 0 0 _ (fun x hx => ?_)
  have h0 := congrFun hx 0
  have h1 := congrFun hx 1
  simp [Matrix.mulVec, dotProduct, matrix, Fin.sum_univ_two] at h0 h1
  funext i
  fin_cases i
  · change x 0 = 0; linarith
  · change x 1 = 0; linarith

end Principia.Numerics.Lattices
