import Verif.Numerics.NguyenStehleExact

/-!
The algorithm of Nguyễn and Stehlé in exact arithmetic: the factorization, the reduction of a column, the insertion.
-/

set_option linter.unusedSimpArgs false
set_option linter.unusedVariables false
set_option linter.unusedSectionVars false

namespace Principia.Numerics.Lattices

open Principia.Numerics.Matrices Finset

theorem dot_cast (n : ℕ) (b : Mat ℤ) (i j : ℕ) : ((dot n b i j : ℤ) : ℚ) = columnProduct n (rational b) (rational b) i j := by
  unfold dot columnProduct rational
  push_cast
  rfl

/-- The coefficients of the first columns are correct. -/
def ComputedAt (n k : ℕ) (s : Mat ℚ × Mat ℚ) (r μ : Mat ℚ) : Prop :=
  (∀ i j, i < j → j < k → r i j = s.2 i j * squares n s.1 i ∧ μ i j = s.2 i j) ∧ ∀ j < k, r j j = squares n s.1 j

theorem ComputedAt.congr {n k : ℕ} {s s' : Mat ℚ × Mat ℚ} {r μ r' μ' : Mat ℚ} (h : ComputedAt n k s r μ) (h1 : ∀ q < k, ∀ l < n, s'.1 l q = s.1 l q)
    (h2 : ∀ i j, i < j → j < k → s'.2 i j = s.2 i j) (hr : ∀ i j, i ≤ j → j < k → r' i j = r i j) (hμ : ∀ i j, i < j → j < k → μ' i j = μ i j) : ComputedAt n k s' r' μ' := by
  refine ⟨fun i j hij hj => ?_, fun j hj => ?_⟩
  · rw [hr i j hij.le hj, hμ i j hij hj, h2 i j hij hj, show squares n s'.1 i = squares n s.1 i from squares_congr fun l hl => h1 i (by omega) l hl]
    exact h.1 i j hij hj
  · rw [hr j j (le_refl j) hj, show squares n s'.1 j = squares n s.1 j from squares_congr fun l hl => h1 j hj l hl]
    exact h.2 j hj

/-- The state after a correct factorization. -/
structure Factored (n κ : ℕ) (s : Mat ℚ × Mat ℚ) (t : NS ℚ) : Prop where
  computed : ComputedAt n (κ + 1) s t.r t.μ
  rest : ∀ j ≤ κ, t.s j = rem n (rational t.b) s κ j

theorem cholesky_exact (δ η : ℚ) (toInt : ℚ → ℤ) {n d κ : ℕ} (hκ0 : 0 < κ) (hκ : κ < d) {t : NS ℚ} (hG : IsGram n d t.b t.G) {s : Mat ℚ × Mat ℚ} (hs : GS n d (rational t.b) s)
    (hne : ∀ j < d, squares n s.1 j ≠ 0) (hC : ComputedAt n κ s t.r t.μ) : Factored n κ s (choleskyFactorization (exactFloats δ η toInt) κ t) := by
  have hb := (choleskyFactorization_same (exactFloats δ η toInt) κ t).1
  suffices h : (choleskyFactorization (exactFloats δ η toInt) κ t).G = t.G ∧ ComputedAt n κ s (choleskyFactorization (exactFloats δ η toInt) κ t).r (choleskyFactorization (exactFloats δ η toInt) κ t).μ ∧
      (∀ i < κ, (choleskyFactorization (exactFloats δ η toInt) κ t).r i κ = s.2 i κ * squares n s.1 i ∧ (choleskyFactorization (exactFloats δ η toInt) κ t).μ i κ = s.2 i κ) ∧
      (κ = κ → (choleskyFactorization (exactFloats δ η toInt) κ t).r κ κ = squares n s.1 κ ∧
        ∀ p ≤ κ, (choleskyFactorization (exactFloats δ η toInt) κ t).s p = rem n (rational t.b) s κ p) by
    obtain ⟨-, h1, h2, h3⟩ := h
    obtain ⟨h3, h4⟩ := h3 rfl
    refine ⟨⟨fun i j hij hj => ?_, fun j hj => ?_⟩, fun j hj => by rw [hb]; exact h4 j hj⟩
    · rcases Nat.lt_or_eq_of_le (Nat.le_of_lt_succ hj) with hj | rfl
      · exact h1.1 i j hij hj
      · exact h2 i hij
    · rcases Nat.lt_or_eq_of_le (Nat.le_of_lt_succ hj) with hj | rfl
      · exact h1.2 j hj
      · exact h3
  unfold choleskyFactorization
  refine sweep_inv (fun j (u : NS ℚ) => u.G = t.G ∧ ComputedAt n κ s u.r u.μ ∧ (∀ i < j, u.r i κ = s.2 i κ * squares n s.1 i ∧ u.μ i κ = s.2 i κ) ∧
    (j = κ → u.r κ κ = squares n s.1 κ ∧ ∀ p ≤ κ, u.s p = rem n (rational t.b) s κ p)) 0 κ _ (Nat.zero_le _) (fun j u _ hj ⟨hu1, hu2, hu3, _⟩ => ?_)
    ⟨rfl, hC, fun i hi => by omega, fun h => by omega⟩
  simp only [exactFloats]
  -- The element of `r`.
  have hr : ∀ p q, sweep 0 j (fun k (r : Mat ℚ) => r.set j κ (r j κ - u.μ k j * r k κ)) (u.r.set j κ (u.G κ j : ℚ)) p q =
      if p = j ∧ q = κ then s.2 j κ * squares n s.1 j else u.r p q := by
    have h := sweep_inv (fun k (r : Mat ℚ) => ∀ p q, r p q = if p = j ∧ q = κ then (u.G κ j : ℚ) - ∑ k ∈ range k, u.μ k j * u.r k κ else u.r p q) 0 j
      (fun k (r : Mat ℚ) => r.set j κ (r j κ - u.μ k j * r k κ)) (Nat.zero_le _) (fun k r _ hk hr p q => ?_) (s := u.r.set j κ (u.G κ j : ℚ)) (fun p q => ?_)
    · intro p q
      rw [h p q]
      by_cases hpq : p = j ∧ q = κ
      · rw [if_pos hpq, if_pos hpq, hu1, hG κ j hκ (by omega), dot_comm, dot_cast, hs.entry hj.le hκ, if_pos hj]
        have : ∑ k ∈ range j, u.μ k j * u.r k κ = ∑ k ∈ range j, s.2 k j * (s.2 k κ * squares n s.1 k) := Finset.sum_congr rfl fun k hk => by
          rw [Finset.mem_range] at hk
          rw [(hu2.1 k j hk hj).2, (hu3 k hk).1]
        rw [this]
        ring
      · rw [if_neg hpq, if_neg hpq]
    · unfold Mat.set
      by_cases hpq : p = j ∧ q = κ
      · rw [if_pos hpq, if_pos hpq, hr j κ, if_pos ⟨rfl, rfl⟩, hr k κ, if_neg (by omega), Finset.sum_range_succ]
        ring
      · rw [if_neg hpq, if_neg hpq, hr p q, if_neg hpq]
    · unfold Mat.set
      rw [Finset.sum_range_zero, sub_zero]
  generalize sweep 0 j (fun k (r : Mat ℚ) => r.set j κ (r j κ - u.μ k j * r k κ)) (u.r.set j κ (u.G κ j : ℚ)) = r at hr
  have hrj : r j κ / r j j = s.2 j κ := by
    rw [hr j κ, if_pos ⟨rfl, rfl⟩, hr j j, if_neg (by omega), hu2.2 j hj, mul_div_assoc, div_self (hne j (by omega)), mul_one]
  rw [hrj]
  -- The rest.
  have hS := sweep_inv (fun p (S : Vec ℚ) => ∀ q < p, S q = (u.G κ κ : ℚ) - ∑ i ∈ range q, u.μ.set j κ (s.2 j κ) i κ * r i κ) 1 (κ + 1)
    (fun j_1 (S : Vec ℚ) => S.set j_1 (S (j_1 - 1) - u.μ.set j κ (s.2 j κ) (j_1 - 1) κ * r (j_1 - 1) κ)) (by omega) (fun p S hp1 hp2 hS q hq => ?_) (s := u.s.set 0 (u.G κ κ : ℚ)) (fun q hq => ?_)
  · generalize sweep 1 (κ + 1) (fun j_1 (S : Vec ℚ) => S.set j_1 (S (j_1 - 1) - u.μ.set j κ (s.2 j κ) (j_1 - 1) κ * r (j_1 - 1) κ)) (u.s.set 0 (u.G κ κ : ℚ)) = S at hS
    have h3 : ∀ i < j + 1, (r.set κ κ (S κ)) i κ = s.2 i κ * squares n s.1 i ∧ u.μ.set j κ (s.2 j κ) i κ = s.2 i κ := fun i hi => by
      rw [mset_ne _ _ (by omega)]
      by_cases hij : i = j
      · subst hij
        rw [mset_eq, hr, if_pos ⟨rfl, rfl⟩]
        exact ⟨rfl, rfl⟩
      · rw [mset_ne _ _ (by omega), hr, if_neg (by omega)]
        exact hu3 i (by omega)
    refine ⟨hu1, ?_, h3, fun hjκ => ?_⟩
    · refine hu2.congr (fun _ _ _ _ => rfl) (fun _ _ _ _ => rfl) (fun p q hpq hq => ?_) (fun p q hpq hq => ?_)
      · rw [mset_ne _ _ (by omega), hr, if_neg (by omega)]
      · rw [mset_ne _ _ (by omega)]
    · have hrem : ∀ p ≤ κ, S p = rem n (rational t.b) s κ p := fun p hp => by
        rw [hS p (by omega)]
        unfold rem
        rw [hu1, hG κ κ hκ hκ, dot_cast]
        congr 1
        refine Finset.sum_congr rfl fun i hi => ?_
        rw [Finset.mem_range] at hi
        obtain ⟨h5, h6⟩ := h3 i (by omega)
        rw [mset_ne _ _ (by omega)] at h5
        rw [h5, h6]
      refine ⟨?_, hrem⟩
      rw [mset_eq, hrem κ (le_refl κ), rem_last hs hκ]
  · unfold Vec.set
    by_cases hqp : q = p
    · subst hqp
      rw [if_pos rfl, hS (q - 1) (by omega)]
      obtain ⟨c, rfl⟩ := Nat.exists_eq_succ_of_ne_zero (by omega : q ≠ 0)
      rw [Nat.succ_eq_add_one, Nat.add_sub_cancel, Finset.sum_range_succ]
      ring
    · rw [if_neg hqp]
      exact hS q (by omega)
  · obtain rfl : q = 0 := by omega
    rw [vset_eq, Finset.sum_range_zero, sub_zero]

/-! ## The reduction of a column -/

theorem coefficients_spec (δ η : ℚ) (toInt : ℚ → ℤ) (κ : ℕ) (μ : Mat ℚ) :
    ∀ i < κ, (coefficients (exactFloats δ η toInt) κ μ).1 i = toInt (μ i κ - ∑ j ∈ Ico (i + 1) κ, ((coefficients (exactFloats δ η toInt) κ μ).1 j : ℚ) * μ i j) := by
  have h : ∀ i < κ, 0 ≤ i → (coefficients (exactFloats δ η toInt) κ μ).1 i = toInt (μ i κ - ∑ j ∈ Ico (i + 1) κ, ((coefficients (exactFloats δ η toInt) κ μ).1 j : ℚ) * μ i j) := by
    have := down_inv (fun p (a : Vec ℤ × Mat ℚ) => (∀ i < κ, p ≤ i → a.1 i = toInt (μ i κ - ∑ j ∈ Ico (i + 1) κ, (a.1 j : ℚ) * μ i j)) ∧
        (∀ i < p, a.2 i κ = μ i κ - ∑ j ∈ Ico p κ, (a.1 j : ℚ) * μ i j) ∧ ∀ i j, j ≠ κ → a.2 i j = μ i j) κ
      (fun (a : Vec ℤ × Mat ℚ) i =>
        (a.1.set i (toInt (a.2 i κ)), sweep 0 i (fun j (μ : Mat ℚ) => μ.set j κ (μ j κ - ((toInt (a.2 i κ) : ℤ) : ℚ) * μ j i)) a.2)) (fun p a hp ⟨h1, h2, h3⟩ => ?_) (s := (fun _ => 0, μ))
      ⟨fun i hi h => by omega, fun i hi => by simp, fun i j _ => rfl⟩
    · exact this.1
    · simp only
      have hx : toInt (a.2 p κ) = toInt (μ p κ - ∑ j ∈ Ico (p + 1) κ, (a.1 j : ℚ) * μ p j) := by rw [h2 p (by omega)]
      have hin := sweep_inv (fun q (v : Mat ℚ) => ∀ i j, v i j = if i < q ∧ j = κ then a.2 i κ - (toInt (a.2 p κ) : ℚ) * a.2 i p else a.2 i j) 0 p
        (fun j (μ : Mat ℚ) => μ.set j κ (μ j κ - ((toInt (a.2 p κ) : ℤ) : ℚ) * μ j p)) (Nat.zero_le _) (fun q v _ hq hv i j => ?_) (s := a.2) (fun i j => by rw [if_neg (by omega)])
      · refine ⟨fun i hi hpi => ?_, fun i hi => ?_, fun i j hj => ?_⟩
        · have hsum : ∑ j ∈ Ico (i + 1) κ, ((a.1.set p (toInt (a.2 p κ)) j : ℤ) : ℚ) * μ i j = ∑ j ∈ Ico (i + 1) κ, (a.1 j : ℚ) * μ i j := Finset.sum_congr rfl fun j hj => by
            rw [Finset.mem_Ico] at hj; rw [vset_ne _ _ (by omega)]
          rw [hsum]
          by_cases hip : i = p
          · subst hip; rw [vset_eq, hx]
          · rw [vset_ne _ _ hip]; exact h1 i hi (by omega)
        · rw [hin i κ, if_pos ⟨hi, rfl⟩, h2 i (by omega), h3 i p (by omega), Finset.sum_eq_sum_Ico_succ_bot hp, vset_eq]
          have hsum : ∑ j ∈ Ico (p + 1) κ, ((a.1.set p (toInt (a.2 p κ)) j : ℤ) : ℚ) * μ i j = ∑ j ∈ Ico (p + 1) κ, (a.1 j : ℚ) * μ i j := Finset.sum_congr rfl fun j hj => by
            rw [Finset.mem_Ico] at hj; rw [vset_ne _ _ (by omega)]
          rw [hsum]
          ring
        · rw [hin i j, if_neg (by omega)]; exact h3 i j hj
      · unfold Mat.set
        by_cases hij : i = q ∧ j = κ
        · rw [if_pos hij, if_pos (by omega), hv q κ, if_neg (by omega), hv q p, if_neg (by omega), hij.1]
        · rw [if_neg hij, hv i j]
          by_cases h5 : i < q ∧ j = κ
          · rw [if_pos h5, if_pos (by omega)]
          · rw [if_neg h5, if_neg (by omega)]
  exact fun i hi => h i hi (Nat.zero_le i)

theorem coefficients_columns (δ η : ℚ) (toInt : ℚ → ℤ) (κ : ℕ) (μ : Mat ℚ) : ∀ i j, j ≠ κ → (coefficients (exactFloats δ η toInt) κ μ).2 i j = μ i j := by
  refine down_inv (fun p (a : Vec ℤ × Mat ℚ) => ∀ i j, j ≠ κ → a.2 i j = μ i j) κ _ (fun p a hp h => ?_) (fun i j _ => rfl)
  simp only
  refine sweep_inv (fun q (v : Mat ℚ) => ∀ i j, j ≠ κ → v i j = μ i j) 0 p _ (Nat.zero_le _) (fun q v _ hq hv i j hj => ?_) h
  rw [mset_ne _ _ (by omega)]
  exact hv i j hj

/-- What is true of a state before the column `κ` is treated. -/
structure Ready (n d : ℕ) (L : Mat ℤ) (κ : ℕ) (t : NS ℚ) : Prop where
  tracks : Tracks n d L t
  computed : ∀ s, GS n d (rational t.b) s → ComputedAt n κ s t.r t.μ

theorem Tracks.ne_zero {n d : ℕ} {L : Mat ℤ} {t : NS ℚ} (h : Tracks n d L t) (hL : Independent (matrix n d (rational L))) : (Lattices.gram n d (rational t.b)).det ≠ 0 :=
  det_gram_ne_zero (independent_of_lattice h.lattice hL)

theorem Tracks.squares_pos {n d : ℕ} {L : Mat ℤ} {t : NS ℚ} (h : Tracks n d L t) (hL : Independent (matrix n d (rational L))) {s : Mat ℚ × Mat ℚ} (hs : GS n d (rational t.b) s) :
    ∀ j < d, 0 < squares n s.1 j := fun j hj => Lattices.squares_pos hs (h.ne_zero hL) hj

/-- The state after the reduction of the column `κ`. -/
structure SizeReduced (η : ℚ) (n d : ℕ) (L : Mat ℤ) (κ : ℕ) (t t' : NS ℚ) : Prop where
  tracks : Tracks n d L t'
  factored : ∀ s, GS n d (rational t'.b) s → Factored n κ s t'
  small : ∀ s, GS n d (rational t'.b) s → ∀ i < κ, |s.2 i κ| ≤ η
  others : ∀ l q, q ≠ κ → t'.b l q = t.b l q
  same : ∀ s s', GS n d (rational t.b) s → GS n d (rational t'.b) s' → ∀ q < d, ∀ l < n, s'.1 l q = s.1 l q

theorem subtractColumns_gs {n d κ : ℕ} (hκ : κ < d) (X : Vec ℤ) (b : Mat ℤ) {s s' : Mat ℚ × Mat ℚ} (hs : GS n d (rational b) s) (hs' : GS n d (rational (subtractColumns n κ X b)) s') :
    (∀ q < d, ∀ l < n, s'.1 l q = s.1 l q) ∧ ∀ i < κ, squares n s.1 i ≠ 0 → s'.2 i κ = s.2 i κ - ∑ j ∈ Ico (i + 1) κ, (X j : ℚ) * s.2 i j - X i := by
  refine hs.subtract_all hs' hκ (fun j => (X j : ℚ)) fun l q hl hq => ?_
  unfold rational
  rw [subtractColumns_apply]
  by_cases h : q = κ
  · rw [if_pos ⟨hl, h⟩, if_pos h]
    push_cast
    rfl
  · rw [if_neg (by omega), if_neg h]

/-- The state after a pass of the reduction. -/
theorem Ready.pass (δ η : ℚ) (toInt : ℚ → ℤ) {n d κ : ℕ} (hκ : κ < d) {L : Mat ℤ} {t : NS ℚ} (ht : Tracks n d L t) (hf : ∀ s, GS n d (rational t.b) s → ComputedAt n κ s t.r t.μ) (X : Vec ℤ) :
    Ready n d L κ { t with b := subtractColumns n κ X t.b, G := updateGram d κ X t.G, μ := (coefficients (exactFloats δ η toInt) κ t.μ).2 } := by
  refine ⟨⟨updateGram_spec hκ ht.gram, (lattice_subtractColumns hκ _ _).trans ht.lattice⟩, fun s hs => ?_⟩
  have hs0 := unitriangularGramSchmidt_gs n d (rational t.b) (fun _ _ => 0) (fun _ _ => 0)
  obtain ⟨h1, h2⟩ := hs0.prefix_columns hs (c := κ) hκ.le (fun q hq l hl => by
    unfold rational
    simp only
    rw [subtractColumns_apply, if_neg (by omega)])
  exact (hf _ hs0).congr h1 h2 (fun _ _ _ _ => rfl) (fun i j hij hj => coefficients_columns δ η toInt κ t.μ i j (by omega))

theorem sizeReduce_exact (δ η : ℚ) (toInt : ℚ → ℤ) {n d κ : ℕ} (hκ0 : 0 < κ) (hκ : κ < d) {L : Mat ℤ} (hL : Independent (matrix n d (rational L))) :
    ∀ (fuel : ℕ) (t t' : NS ℚ), Ready n d L κ t → sizeReduce (exactFloats δ η toInt) n d κ fuel t = some t' → SizeReduced η n d L κ t t'
  | 0, t, t', _, h => by simp [sizeReduce] at h
  | fuel + 1, t, t', ht, h => by
    have hc := ht.tracks.cholesky (exactFloats δ η toInt) κ
    have hb := (choleskyFactorization_same (exactFloats δ η toInt) κ t).1
    have hf : ∀ s, GS n d (rational t.b) s → Factored n κ s (choleskyFactorization (exactFloats δ η toInt) κ t) := fun s hs =>
      cholesky_exact δ η toInt hκ0 hκ ht.tracks.gram hs (fun j hj => (ht.tracks.squares_pos hL hs j hj).ne') (ht.computed s hs)
    rw [sizeReduce] at h
    simp only at h
    generalize choleskyFactorization (exactFloats δ η toInt) κ t = c at hc hb hf h
    rw [← hb] at hf
    split_ifs at h with h1 h2
    · simp only [Option.some.injEq] at h
      subst h
      refine ⟨hc, hf, fun s hs i hi => ?_, fun l q _ => by rw [hb], fun s s' hs hs' q hq l hl => ?_⟩
      · rw [List.all_eq_true] at h1
        have := h1 i (List.mem_range.2 hi)
        simp only [exactFloats, Bool.not_eq_true', decide_eq_false_iff_not, not_lt, gt_iff_lt] at this
        rw [((hf s hs).computed.1 i κ hi (by omega)).2] at this
        exact this
      · rw [← hb] at hs
        exact (hs.prefix_columns hs' (le_refl d) (fun _ _ _ _ => rfl)).1 q hq l hl
    · have hp := Ready.pass δ η toInt hκ hc (fun s hs => (hf s hs).computed.congr (k := κ + 1) (fun _ _ _ _ => rfl) (fun _ _ _ _ => rfl) (fun _ _ _ _ => rfl) (fun _ _ _ _ => rfl) |>
        fun h => ⟨fun i j hij hj => h.1 i j hij (by omega), fun j hj => h.2 j (by omega)⟩) (coefficients (exactFloats δ η toInt) κ c.μ).1
      obtain ⟨g1, g2, g3, g4, g5⟩ := sizeReduce_exact δ η toInt hκ0 hκ hL fuel _ t' hp h
      refine ⟨g1, g2, g3, fun l q hq => ?_, fun s s' hs hs' q hq l hl => ?_⟩
      · rw [g4 l q hq]
        simp only
        rw [subtractColumns_apply, if_neg (by omega), hb]
      · rw [← hb] at hs
        have hm := unitriangularGramSchmidt_gs n d (rational (subtractColumns n κ (coefficients (exactFloats δ η toInt) κ c.μ).1 c.b)) (fun _ _ => 0) (fun _ _ => 0)
        rw [g5 _ s' hm hs' q hq l hl]
        exact (subtractColumns_gs hκ _ _ hs hm).1 q hq l hl

theorem sizeReduce_terminates (δ : ℚ) {η : ℚ} (hη : 1 / 2 ≤ η) {toInt : ℚ → ℤ} (hround : ∀ x, |x - toInt x| ≤ 1 / 2) {n d κ : ℕ} (hκ0 : 0 < κ) (hκ : κ < d) {L : Mat ℤ}
    (hL : Independent (matrix n d (rational L))) (fuel : ℕ) (t : NS ℚ) (ht : Ready n d L κ t) : ∃ t', sizeReduce (exactFloats δ η toInt) n d κ (fuel + 2) t = some t' := by
  have hc := ht.tracks.cholesky (exactFloats δ η toInt) κ
  have hb := (choleskyFactorization_same (exactFloats δ η toInt) κ t).1
  have hf : ∀ s, GS n d (rational t.b) s → Factored n κ s (choleskyFactorization (exactFloats δ η toInt) κ t) := fun s hs =>
    cholesky_exact δ η toInt hκ0 hκ ht.tracks.gram hs (fun j hj => (ht.tracks.squares_pos hL hs j hj).ne') (ht.computed s hs)
  rw [sizeReduce]
  simp only
  generalize choleskyFactorization (exactFloats δ η toInt) κ t = c at hc hb hf
  rw [← hb] at hf
  by_cases h1 : ((List.range κ).all fun j => !(exactFloats δ η toInt).exceeds (c.μ j κ)) = true
  · rw [if_pos h1]; exact ⟨_, rfl⟩
  · rw [if_neg h1]
    obtain ⟨X, hX⟩ : ∃ X, X = (coefficients (exactFloats δ η toInt) κ c.μ).1 := ⟨_, rfl⟩
    have hXs := coefficients_spec δ η toInt κ c.μ
    rw [← hX] at hXs ⊢
    have hs0 := unitriangularGramSchmidt_gs n d (rational c.b) (fun _ _ => 0) (fun _ _ => 0)
    generalize unitriangularGramSchmidt n d (rational c.b) (fun _ _ => 0) (fun _ _ => 0) = s0 at hs0
    have hf0 := hf s0 hs0
    have hpos := hc.squares_pos hL hs0
    have hsmall : ∀ s', GS n d (rational (subtractColumns n κ X c.b)) s' → ∀ i < κ, |s'.2 i κ| ≤ 1 / 2 := fun s' hs' i hi => by
      rw [(subtractColumns_gs hκ X c.b hs0 hs').2 i hi (hpos i (by omega)).ne']
      have e := hXs i hi
      have e1 : c.μ i κ = s0.2 i κ := (hf0.computed.1 i κ hi (by omega)).2
      have e2 : ∑ j ∈ Ico (i + 1) κ, (X j : ℚ) * c.μ i j = ∑ j ∈ Ico (i + 1) κ, (X j : ℚ) * s0.2 i j := Finset.sum_congr rfl fun j hj => by
        rw [Finset.mem_Ico] at hj; rw [(hf0.computed.1 i j (by omega) (by omega)).2]
      rw [e1, e2] at e
      rw [e]
      exact hround _
    have h2 : ((List.range κ).any fun i => decide (X i ≠ 0)) = true := by
      by_contra hno
      rw [List.any_eq_true] at hno
      push Not at hno
      have hzero : ∀ i < κ, X i = 0 := fun i hi => by
        have := hno i (List.mem_range.2 hi)
        simpa using this
      refine h1 ?_
      rw [List.all_eq_true]
      intro i hi
      rw [List.mem_range] at hi
      have hs' := unitriangularGramSchmidt_gs n d (rational (subtractColumns n κ X c.b)) (fun _ _ => 0) (fun _ _ => 0)
      have h3 := hsmall _ hs' i hi
      rw [(subtractColumns_gs hκ X c.b hs0 hs').2 i hi (hpos i (by omega)).ne', hzero i hi, Finset.sum_eq_zero (fun j hj => by
        rw [Finset.mem_Ico] at hj; rw [hzero j (by omega)]; simp)] at h3
      simp only [exactFloats, Bool.not_eq_true', decide_eq_false_iff_not, not_lt, gt_iff_lt]
      rw [(hf0.computed.1 i κ hi (by omega)).2]
      simp only [Int.cast_zero, sub_zero] at h3
      linarith
    rw [if_pos h2]
    have hp := Ready.pass δ η toInt hκ hc (fun s hs => (hf s hs).computed.congr (k := κ + 1) (fun _ _ _ _ => rfl) (fun _ _ _ _ => rfl) (fun _ _ _ _ => rfl) (fun _ _ _ _ => rfl) |>
        fun h => ⟨fun i j hij hj => h.1 i j hij (by omega), fun j hj => h.2 j (by omega)⟩) X
    have hsmall' := hsmall
    -- The next pass stops.
    rw [sizeReduce]
    have hf' : ∀ s, GS n d (rational (subtractColumns n κ X c.b)) s →
        Factored n κ s (choleskyFactorization (exactFloats δ η toInt) κ { c with b := subtractColumns n κ X c.b, G := updateGram d κ X c.G, μ := (coefficients (exactFloats δ η toInt) κ c.μ).2 }) :=
      fun s hs => cholesky_exact δ η toInt hκ0 hκ hp.tracks.gram hs (fun j hj => (hp.tracks.squares_pos hL hs j hj).ne') (hp.computed s hs)
    simp only
    rw [if_pos]
    · exact ⟨_, rfl⟩
    · rw [List.all_eq_true]
      intro i hi
      rw [List.mem_range] at hi
      have hs' := unitriangularGramSchmidt_gs n d (rational (subtractColumns n κ X c.b)) (fun _ _ => 0) (fun _ _ => 0)
      have h3 := hsmall' _ hs' i hi
      have h4 := ((hf' _ hs').computed.1 i κ hi (by omega)).2
      simp only [exactFloats, Bool.not_eq_true', decide_eq_false_iff_not, not_lt, gt_iff_lt] at h4 ⊢
      rw [h4]
      linarith

end Principia.Numerics.Lattices
