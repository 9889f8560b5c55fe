import Verif.Physics.GeopotentialDamping

/-!
The thresholds of the damping.
-/

set_option linter.unusedSimpArgs false
set_option linter.unusedVariables false
set_option linter.unusedSectionVars false

namespace Principia.Geopotential

variable {V : Type*} [NormedAddCommGroup V] [InnerProductSpace ℝ V]

theorem after_iff (a b : Threshold) : after a b ↔ toLex (a.r, toLex (a.m, a.n)) < toLex (b.r, toLex (b.m, b.n)) := by
  unfold after
  rw [Prod.Lex.toLex_lt_toLex]
  simp only [Prod.Lex.toLex_lt_toLex]

theorem pops_perm (l : List Threshold) : (pops l).Perm l := by
  classical
  unfold pops
  exact List.perm_insertionSort _ l

theorem pops_sorted (l : List Threshold) : (pops l).Pairwise fun a b => b.r ≤ a.r := by
  classical
  unfold pops
  have ht : Std.Total fun a b : Threshold => ¬after a b := ⟨fun a b => by
    rw [after_iff, after_iff, not_lt, not_lt]
    exact le_total _ _⟩
  have htr : IsTrans Threshold fun a b => ¬after a b := ⟨fun a b c h1 h2 => by
    rw [after_iff, not_lt] at *
    exact h2.trans h1⟩
  refine (List.pairwise_insertionSort (fun a b : Threshold => ¬after a b) l).imp ?_
  intro a b h
  by_contra hlt
  exact h (.inl (not_le.1 hlt))

/-- What holds when the thresholds in `seen` have been popped. -/
structure Inv (r22 : WithTop ℝ) (d : Damping) (seen rest : List Threshold) : Prop where
  sorted : d.degrees.Pairwise fun a b => b ≤ a
  above : ∀ x ∈ d.degrees, ∀ t ∈ rest, t.r ≤ x
  covers : ∀ t ∈ seen, ∃ x, d.degrees[t.n]? = some x ∧ t.r ≤ x
  bounded : ∀ i < d.degrees.length, ∃ t ∈ seen, i ≤ t.n
  origin : ∀ (i : ℕ) x, d.degrees[i]? = some x → ∃ t ∈ seen, x = t.r ∧ i ≤ t.n
  sectoral_origin : (∃ t ∈ seen, t.n = 2 ∧ t.m = 2) → ∃ t ∈ seen, d.sectoral = t.r ∧ (3 ≤ t.n ∨ (t.n = 2 ∧ t.m = 2))
  sectoral : (∃ t ∈ seen, t.n = 2 ∧ t.m = 2) → r22 ≤ d.sectoral ∧ (∀ x, d.degrees[2]? = some x → d.sectoral ≤ x) ∧ (∀ n ≥ 3, ∀ x, d.degrees[n]? = some x → x ≤ d.sectoral) ∧ ∀ t ∈ rest, t.r ≤ d.sectoral
  default : (¬∃ t ∈ seen, t.n = 2 ∧ t.m = 2) → d.sectoral = ⊤

theorem getElem?_le {l : List (WithTop ℝ)} (h : l.Pairwise fun a b => b ≤ a) {i j : ℕ} (hij : i ≤ j) {x y : WithTop ℝ} (hx : l[i]? = some x) (hy : l[j]? = some y) : y ≤ x := by
  rcases hij.lt_or_eq with hlt | rfl
  · obtain ⟨h1, rfl⟩ := List.getElem?_eq_some_iff.1 hx
    obtain ⟨h2, rfl⟩ := List.getElem?_eq_some_iff.1 hy
    exact List.pairwise_iff_getElem.1 h i j h1 h2 hlt
  · rw [hx] at hy
    exact (Option.some.inj hy).ge

theorem Inv.step {r22 : WithTop ℝ} {d : Damping} {seen rest : List Threshold} {t : Threshold} (I : Inv r22 d seen (t :: rest)) (hs : ∀ u ∈ rest, u.r ≤ t.r) (ht : t.n = 2 ∧ t.m = 2 → t.r = r22) :
    Inv r22 (d.add t) (t :: seen) rest := by
  have hmem : ∀ x ∈ d.degrees ++ List.replicate (t.n + 1 - d.degrees.length) t.r, x ∈ d.degrees ∨ (x = t.r ∧ d.degrees.length ≤ t.n) := by
    intro x hx
    rcases List.mem_append.1 hx with h | h
    · exact .inl h
    · rw [List.mem_replicate] at h
      exact .inr ⟨h.2, by omega⟩
  have hat : t.r ∈ (t :: rest).map (·.r) := by simp
  have hta : ∀ x ∈ d.degrees, t.r ≤ x := fun x hx => I.above x hx t (List.mem_cons_self ..)
  have old : ∀ (n : ℕ) x, d.degrees[n]? = some x → (d.add t).degrees[n]? = some x := by
    intro n x h
    show (d.degrees ++ _)[n]? = some x
    rw [List.getElem?_append_left (List.getElem?_eq_some_iff.1 h).1, h]
  have new : ∀ (n : ℕ) x, (d.add t).degrees[n]? = some x → d.degrees[n]? = some x ∨ (d.degrees.length ≤ n ∧ n ≤ t.n ∧ x = t.r) := by
    intro n x h
    change (d.degrees ++ _)[n]? = some x at h
    by_cases hn : n < d.degrees.length
    · rw [List.getElem?_append_left hn] at h
      exact .inl h
    · rw [List.getElem?_append_right (by omega), List.getElem?_replicate] at h
      by_cases h2 : n - d.degrees.length < t.n + 1 - d.degrees.length
      · rw [if_pos h2] at h
        exact .inr ⟨by omega, by omega, (Option.some.inj h).symm⟩
      · rw [if_neg h2] at h; simp at h
  have atn : ∃ x, (d.add t).degrees[t.n]? = some x ∧ t.r ≤ x := by
    by_cases hn : t.n < d.degrees.length
    · exact ⟨_, old _ _ (List.getElem?_eq_getElem hn), hta _ (List.getElem_mem hn)⟩
    · refine ⟨t.r, ?_, le_rfl⟩
      show (d.degrees ++ _)[t.n]? = _
      rw [List.getElem?_append_right (by omega), List.getElem?_replicate, if_pos (by omega)]
  refine ⟨?_, ?_, ?_, ?_, ?_, ?_, ?_, ?_⟩
  · show (d.degrees ++ List.replicate _ _).Pairwise _
    rw [List.pairwise_append]
    refine ⟨I.sorted, ?_, fun a ha b hb => ?_⟩
    · rw [List.pairwise_replicate]; exact .inr le_rfl
    · rw [List.mem_replicate] at hb
      rw [hb.2]
      exact hta a ha
  · intro x hx u hu
    rcases hmem x hx with h | ⟨rfl, -⟩
    · exact I.above x h u (List.mem_cons_of_mem _ hu)
    · exact hs u hu
  · intro u hu
    rcases List.mem_cons.1 hu with rfl | hu
    · exact atn
    · obtain ⟨x, h1, h2⟩ := I.covers u hu
      exact ⟨x, old _ _ h1, h2⟩
  · intro i hi
    change i < (d.degrees ++ List.replicate _ _).length at hi
    rw [List.length_append, List.length_replicate] at hi
    by_cases h : i < d.degrees.length
    · obtain ⟨u, hu, hle⟩ := I.bounded i h
      exact ⟨u, List.mem_cons_of_mem _ hu, hle⟩
    · exact ⟨t, List.mem_cons_self .., by omega⟩
  · intro i x hx
    rcases new i x hx with h | ⟨-, h2, rfl⟩
    · obtain ⟨u, hu, e⟩ := I.origin i x h
      exact ⟨u, List.mem_cons_of_mem _ hu, e⟩
    · exact ⟨t, List.mem_cons_self .., rfl, h2⟩
  · intro hex
    by_cases h22 : t.n = 2 ∧ t.m = 2
    · have hsec : (d.add t).sectoral = if d.degrees.length > 3 then d.degrees.getD 3 ⊤ else t.r := by
        show (if t.n = 2 ∧ t.m = 2 then _ else _) = _
        rw [if_pos h22]
      by_cases h3 : d.degrees.length > 3
      · have e3 : d.degrees[3]? = some d.degrees[3] := List.getElem?_eq_getElem h3
        rw [if_pos h3, List.getD_eq_getElem?_getD, e3, Option.getD_some] at hsec
        obtain ⟨u, hu, e, hle⟩ := I.origin 3 _ e3
        exact ⟨u, List.mem_cons_of_mem _ hu, hsec.trans e, .inl hle⟩
      · rw [if_neg h3] at hsec
        exact ⟨t, List.mem_cons_self .., hsec, .inr h22⟩
    · have hsec : (d.add t).sectoral = d.sectoral := by
        show (if t.n = 2 ∧ t.m = 2 then _ else _) = _
        rw [if_neg h22]
      have hex' : ∃ t ∈ seen, t.n = 2 ∧ t.m = 2 := by
        obtain ⟨u, hu, hu2⟩ := hex
        rcases List.mem_cons.1 hu with rfl | hu
        · exact absurd hu2 h22
        · exact ⟨u, hu, hu2⟩
      obtain ⟨u, hu, e⟩ := I.sectoral_origin hex'
      exact ⟨u, List.mem_cons_of_mem _ hu, hsec ▸ e⟩
  · intro hex
    by_cases h22 : t.n = 2 ∧ t.m = 2
    · have hsec : (d.add t).sectoral = if d.degrees.length > 3 then d.degrees.getD 3 ⊤ else t.r := by
        show (if t.n = 2 ∧ t.m = 2 then _ else _) = _
        rw [if_pos h22]
      by_cases h3 : d.degrees.length > 3
      · have e3 : d.degrees[3]? = some d.degrees[3] := List.getElem?_eq_getElem h3
        rw [if_pos h3, List.getD_eq_getElem?_getD, e3, Option.getD_some] at hsec
        rw [hsec, ← ht h22]
        have hl : ∀ (n : ℕ) x, (d.add t).degrees[n]? = some x → d.degrees[n]? = some x := by
          intro n x h
          rcases new n x h with h | ⟨h1, h2, -⟩
          · exact h
          · omega
        refine ⟨hta _ (List.getElem_mem h3), fun x hx => getElem?_le I.sorted (by omega) (hl _ _ hx) e3, fun n hn x hx => getElem?_le I.sorted hn e3 (hl _ _ hx), fun u hu => I.above _ (List.getElem_mem h3) u (List.mem_cons_of_mem _ hu)⟩
      · rw [if_neg h3] at hsec
        rw [hsec, ht h22]
        refine ⟨le_rfl, fun x hx => ?_, fun n hn x hx => ?_, fun u hu => by rw [← ht h22]; exact hs u hu⟩
        · rw [← ht h22]
          rcases new 2 x hx with h | ⟨-, -, rfl⟩
          · exact hta x (List.mem_of_getElem? h)
          · exact le_rfl
        · rcases new n x hx with h | ⟨h1, h2, -⟩
          · have := (List.getElem?_eq_some_iff.1 h).1
            omega
          · omega
    · have hsec : (d.add t).sectoral = d.sectoral := by
        show (if t.n = 2 ∧ t.m = 2 then _ else _) = _
        rw [if_neg h22]
      rw [hsec]
      have hex' : ∃ t ∈ seen, t.n = 2 ∧ t.m = 2 := by
        obtain ⟨u, hu, hu2⟩ := hex
        rcases List.mem_cons.1 hu with rfl | hu
        · exact absurd hu2 h22
        · exact ⟨u, hu, hu2⟩
      obtain ⟨s1, s2, s3, s4⟩ := I.sectoral hex'
      refine ⟨s1, fun x hx => ?_, fun n hn x hx => ?_, fun u hu => s4 u (List.mem_cons_of_mem _ hu)⟩
      · rcases new 2 x hx with h | ⟨h1, -, rfl⟩
        · exact s2 x h
        · obtain ⟨u, hu, hu2, -⟩ := hex'
          obtain ⟨y, hy, -⟩ := I.covers u hu
          rw [hu2] at hy
          have := (List.getElem?_eq_some_iff.1 hy).1
          omega
      · rcases new n x hx with h | ⟨-, -, rfl⟩
        · exact s3 n hn x h
        · exact s4 t (List.mem_cons_self ..)
  · intro hno
    have h22 : ¬(t.n = 2 ∧ t.m = 2) := fun h => hno ⟨t, List.mem_cons_self .., h⟩
    show (if t.n = 2 ∧ t.m = 2 then _ else _) = _
    rw [if_neg h22]
    exact I.default fun ⟨u, hu, h⟩ => hno ⟨u, List.mem_cons_of_mem _ hu, h⟩

theorem Inv.fold {r22 : WithTop ℝ} {rest : List Threshold} : ∀ {d : Damping} {seen : List Threshold}, Inv r22 d seen rest → (rest.Pairwise fun a b => b.r ≤ a.r) → (∀ t ∈ rest, t.n = 2 ∧ t.m = 2 → t.r = r22) →
    Inv r22 (rest.foldl Damping.add d) (rest.reverse ++ seen) [] := by
  induction rest with
  | nil => intro d seen I _ _; exact I
  | cons t rest ih =>
    intro d seen I hp h22
    rw [List.pairwise_cons] at hp
    have := ih (I.step hp.1 (h22 t (List.mem_cons_self ..))) hp.2 (fun u hu => h22 u (List.mem_cons_of_mem _ hu))
    rw [List.foldl_cons, List.reverse_cons, List.append_assoc]
    exact this

theorem mem_thresholds (maxAbs : ℕ → ℕ → ℝ) (b : OblateBody V) (ε : ℝ) (t : Threshold) :
    t ∈ thresholds maxAbs b ε ↔ (2 ≤ t.n ∧ t.n ≤ b.degree ∧ t.m ≤ t.n ∧ t.r = harmonicThreshold maxAbs b ε t.n t.m) ∨ (t.r = ⊤ ∧ t.n ≤ 1 ∧ t.m = 0) := by
  obtain ⟨r, n, m⟩ := t
  unfold thresholds
  simp only [List.mem_append, List.mem_flatMap, List.mem_map, List.mem_range, List.mem_range'_1, List.mem_cons, List.not_mem_nil, or_false, Threshold.mk.injEq]
  constructor
  · rintro (⟨n', h1, m', h2, rfl, rfl, rfl⟩ | ⟨rfl, rfl, rfl⟩ | ⟨rfl, rfl, rfl⟩)
    · exact .inl ⟨by omega, by omega, by omega, rfl⟩
    · exact .inr ⟨rfl, by omega, rfl⟩
    · exact .inr ⟨rfl, le_rfl, rfl⟩
  · rintro (⟨h1, h2, h3, rfl⟩ | ⟨rfl, h, rfl⟩)
    · exact .inl ⟨n, by omega, m, by omega, rfl, rfl, rfl⟩
    · rcases Nat.le_one_iff_eq_zero_or_eq_one.1 h with rfl | rfl
      · exact .inr (.inl ⟨rfl, rfl, rfl⟩)
      · exact .inr (.inr ⟨rfl, rfl, rfl⟩)

theorem harmonicThreshold_nonneg {maxAbs : ℕ → ℕ → ℝ} {b : OblateBody V} {ε : ℝ} (hmax : ∀ n m, 0 ≤ maxAbs n m) (hR : 0 ≤ b.referenceRadius) (hε : 0 ≤ ε) (n m : ℕ) : 0 ≤ harmonicThreshold maxAbs b ε n m := by
  unfold harmonicThreshold
  by_cases h1 : b.cos n m = 0 ∧ b.sin n m = 0
  · rw [if_pos h1]
  · rw [if_neg h1]
    by_cases h2 : ε = 0
    · rw [if_pos h2]; exact le_top
    · rw [if_neg h2]
      have := hmax n m
      exact_mod_cast mul_nonneg hR (Real.rpow_nonneg (by positivity) _)

/-- What a user of the thresholds needs to know. -/
structure Thresholds (maxAbs : ℕ → ℕ → ℝ) (b : OblateBody V) (ε : ℝ) (d : Damping) : Prop where
  length : d.degrees.length = max b.degree 1 + 1
  sorted : ∀ i j, i ≤ j → j ≤ max b.degree 1 → d.degrees.getD j ⊤ ≤ d.degrees.getD i ⊤
  low : d.degrees.getD 0 ⊤ = ⊤ ∧ d.degrees.getD 1 ⊤ = ⊤
  degree : ∀ n m, 2 ≤ n → n ≤ b.degree → m ≤ n → harmonicThreshold maxAbs b ε n m ≤ d.degrees.getD n ⊤
  degree_exact : ∀ n, 2 ≤ n → n ≤ b.degree → ∃ k j, n ≤ k ∧ k ≤ b.degree ∧ j ≤ k ∧ d.degrees.getD n ⊤ = harmonicThreshold maxAbs b ε k j
  sectoral_exact : 2 ≤ b.degree → ∃ k j, (3 ≤ k ∨ (k = 2 ∧ j = 2)) ∧ k ≤ b.degree ∧ j ≤ k ∧ d.sectoral = harmonicThreshold maxAbs b ε k j
  sectoral : 2 ≤ b.degree → harmonicThreshold maxAbs b ε 2 2 ≤ d.sectoral ∧ d.sectoral ≤ d.degrees.getD 2 ⊤ ∧ ∀ n, 3 ≤ n → n ≤ b.degree → d.degrees.getD n ⊤ ≤ d.sectoral

theorem construct_inv (maxAbs : ℕ → ℕ → ℝ) (b : OblateBody V) (ε : ℝ) : Inv (harmonicThreshold maxAbs b ε 2 2) (construct maxAbs b ε) ((pops (thresholds maxAbs b ε)).reverse ++ []) [] := by
  unfold construct
  refine Inv.fold ⟨by simp, by simp, by simp, by simp, by simp, by simp, by simp, fun _ => rfl⟩ (pops_sorted _) fun t ht h22 => ?_
  have := (mem_thresholds maxAbs b ε t).1 ((pops_perm _).mem_iff.1 ht)
  rcases this with ⟨-, -, -, e⟩ | ⟨-, h, -⟩
  · rw [e, h22.1, h22.2]
  · omega

theorem construct_thresholds (maxAbs : ℕ → ℕ → ℝ) (b : OblateBody V) (ε : ℝ) : Thresholds maxAbs b ε (construct maxAbs b ε) := by
  have I := construct_inv maxAbs b ε
  generalize construct maxAbs b ε = d at *
  have hseen : ∀ t, t ∈ (pops (thresholds maxAbs b ε)).reverse ++ [] ↔ _ := fun t => by
    rw [List.append_nil, List.mem_reverse, (pops_perm _).mem_iff, mem_thresholds]
  have covers : ∀ n m, 2 ≤ n → n ≤ b.degree → m ≤ n → ∃ x, d.degrees[n]? = some x ∧ harmonicThreshold maxAbs b ε n m ≤ x := fun n m h1 h2 h3 =>
    I.covers ⟨harmonicThreshold maxAbs b ε n m, n, m⟩ ((hseen _).2 (.inl ⟨h1, h2, h3, rfl⟩))
  have low : ∀ n ≤ 1, d.degrees[n]? = some ⊤ := fun n hn => by
    obtain ⟨x, h1, h2⟩ := I.covers ⟨⊤, n, 0⟩ ((hseen _).2 (.inr ⟨rfl, hn, rfl⟩))
    rw [h1, top_le_iff.1 h2]
  have len : d.degrees.length = max b.degree 1 + 1 := by
    apply le_antisymm
    · by_contra hlt
      obtain ⟨t, ht, hle⟩ := I.bounded (max b.degree 1 + 1) (by omega)
      rcases (hseen t).1 ht with ⟨-, h, -⟩ | ⟨-, h, -⟩ <;> omega
    · rcases le_total b.degree 1 with h | h
      · have := (List.getElem?_eq_some_iff.1 (low 1 le_rfl)).1
        omega
      · rcases Nat.lt_or_ge b.degree 2 with h2 | h2
        · have := (List.getElem?_eq_some_iff.1 (low 1 le_rfl)).1
          omega
        · obtain ⟨x, hx, -⟩ := covers b.degree 0 h2 le_rfl (by omega)
          have := (List.getElem?_eq_some_iff.1 hx).1
          omega
  have get : ∀ n ≤ max b.degree 1, d.degrees[n]? = some (d.degrees.getD n ⊤) := fun n hn => by
    rw [List.getD_eq_getElem?_getD, List.getElem?_eq_getElem (by omega)]
    rfl
  refine ⟨len, fun i j hij hj => getElem?_le I.sorted hij (get i (by omega)) (get j hj), ⟨?_, ?_⟩, fun n m h1 h2 h3 => ?_, fun n h1 h2 => ?_, fun h2 => ?_, fun h2 => ?_⟩
  · rw [List.getD_eq_getElem?_getD, low 0 (by omega)]; rfl
  · rw [List.getD_eq_getElem?_getD, low 1 le_rfl]; rfl
  · obtain ⟨x, hx, hle⟩ := covers n m h1 h2 h3
    rw [List.getD_eq_getElem?_getD, hx]
    exact hle
  · obtain ⟨t, ht, e, hle⟩ := I.origin n _ (get n (by omega))
    rcases (hseen t).1 ht with ⟨-, h4, h5, h6⟩ | ⟨-, h4, -⟩
    · exact ⟨t.n, t.m, hle, h4, h5, e.trans h6⟩
    · omega
  · obtain ⟨t, ht, e, hle⟩ := I.sectoral_origin ⟨⟨harmonicThreshold maxAbs b ε 2 2, 2, 2⟩, (hseen _).2 (.inl ⟨le_rfl, h2, le_rfl, rfl⟩), rfl, rfl⟩
    rcases (hseen t).1 ht with ⟨-, h4, h5, h6⟩ | ⟨-, h4, -⟩
    · exact ⟨t.n, t.m, hle, h4, h5, e.trans h6⟩
    · omega
  · obtain ⟨s1, s2, s3, -⟩ := I.sectoral ⟨⟨harmonicThreshold maxAbs b ε 2 2, 2, 2⟩, (hseen _).2 (.inl ⟨le_rfl, h2, le_rfl, rfl⟩), rfl, rfl⟩
    exact ⟨s1, s2 _ (get 2 (by omega)), fun n h3 hn => s3 n h3 _ (get n (by omega))⟩

theorem construct_nonneg {maxAbs : ℕ → ℕ → ℝ} {b : OblateBody V} {ε : ℝ} (hmax : ∀ n m, 0 ≤ maxAbs n m) (hR : 0 ≤ b.referenceRadius) (hε : 0 ≤ ε) :
    (∀ n, 0 ≤ (construct maxAbs b ε).degrees.getD n ⊤) ∧ 0 ≤ (construct maxAbs b ε).sectoral := by
  have I := construct_inv maxAbs b ε
  have T := construct_thresholds maxAbs b ε
  generalize construct maxAbs b ε = d at *
  constructor
  · intro n
    rw [List.getD_eq_getElem?_getD]
    cases h : d.degrees[n]? with
    | none => exact le_top
    | some x =>
      obtain ⟨t, ht, e, -⟩ := I.origin n x h
      rw [List.append_nil, List.mem_reverse, (pops_perm _).mem_iff, mem_thresholds] at ht
      simp only [Option.getD_some]
      rw [e]
      rcases ht with ⟨-, -, -, h⟩ | ⟨h, -, -⟩
      · rw [h]; exact harmonicThreshold_nonneg hmax hR hε _ _
      · rw [h]; exact le_top
  · by_cases h2 : 2 ≤ b.degree
    · exact (harmonicThreshold_nonneg hmax hR hε _ _).trans (T.sectoral h2).1
    · rw [I.default]
      · exact le_top
      · rintro ⟨t, ht, h⟩
        rw [List.append_nil, List.mem_reverse, (pops_perm _).mem_iff, mem_thresholds] at ht
        omega

end Principia.Geopotential
