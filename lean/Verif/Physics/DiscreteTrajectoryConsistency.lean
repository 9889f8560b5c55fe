import Verif.Physics.DiscreteTrajectorySpec

/-!
# `ConsistencyStatus` decides consistency
-/

set_option linter.unusedSimpArgs false
set_option linter.unusedVariables false
set_option linter.unusedSectionVars false

namespace Principia.DiscreteTrajectory

open Principia.SortedMap

variable {T D H E : Type} [LinearOrder T] [DecidableEq D] [AddCommGroup E] [LinearOrder E]

theorem hd_of_getElem? {segs : List (Seg T D H E)} {i : Nat} {s : Seg T D H E} (h : segs[i]? = some s) :
    hd segs i = s.timeline.head?.map point := by simp [hd, h]

theorem lst_of_getElem? {segs : List (Seg T D H E)} {i : Nat} {s : Seg T D H E} (h : segs[i]? = some s) :
    lst segs i = s.timeline.getLast?.map point := by simp [lst, h]

theorem hd_lt_length {segs : List (Seg T D H E)} {i : Nat} {p : T × D} (h : hd segs i = some p) : i < segs.length := by
  by_contra hc
  have : segs[i]? = none := List.getElem?_eq_none (by omega)
  simp [hd, this] at h

theorem lst_lt_length {segs : List (Seg T D H E)} {i : Nat} {p : T × D} (h : lst segs i = some p) : i < segs.length := by
  by_contra hc
  have : segs[i]? = none := List.getElem?_eq_none (by omega)
  simp [lst, this] at h

theorem tm_lt_length {segs : List (Seg T D H E)} {i : Nat} {t : T} (h : tm segs i = some t) : i < segs.length := by
  unfold tm at h
  cases hh : hd segs i with
  | none => simp [hh] at h
  | some p => exact hd_lt_length hh

theorem isEmpty_iff {s : Seg T D H E} : s.isEmpty = true ↔ s.timeline = [] := by simp [Seg.isEmpty]

theorem isEmpty_false_iff {s : Seg T D H E} : s.isEmpty = false ↔ s.timeline ≠ [] := by
  cases h : s.timeline <;> simp [Seg.isEmpty, h]

theorem hd_eq_none_iff {segs : List (Seg T D H E)} {i : Nat} {s : Seg T D H E} (h : segs[i]? = some s) :
    hd segs i = none ↔ s.timeline = [] := by
  rw [hd_of_getElem? h]
  cases s.timeline <;> simp

theorem lst_eq_none_iff {segs : List (Seg T D H E)} {i : Nat} {s : Seg T D H E} (h : segs[i]? = some s) :
    lst segs i = none ↔ s.timeline = [] := by
  rw [lst_of_getElem? h]
  simp

theorem tm_eq_none_iff {segs : List (Seg T D H E)} {i : Nat} {s : Seg T D H E} (h : segs[i]? = some s) :
    tm segs i = none ↔ s.timeline = [] := by
  unfold tm
  rw [Option.map_eq_none_iff, hd_eq_none_iff h]

/-- A segment has a first point if and only if it has a last one, and the latter is not before the former. -/
theorem lst_of_hd {segs : List (Seg T D H E)} (hs : ∀ s ∈ segs, SegInv s) {i : Nat} {p : T × D} (h : hd segs i = some p) :
    ∃ q, lst segs i = some q ∧ p.1 ≤ q.1 ∧ (p.1 = q.1 → p = q) := by
  have hi := hd_lt_length h
  have hg : segs[i]? = some segs[i] := List.getElem?_eq_getElem hi
  have hinv := hs _ (List.getElem_mem hi)
  rw [hd_of_getElem? hg] at h
  rw [lst_of_getElem? hg]
  cases htl : (segs[i]).timeline with
  | nil => simp [htl] at h
  | cons a l =>
    rw [htl] at h
    simp only [List.head?_cons, Option.map_some, Option.some.injEq] at h
    subst h
    cases hl : (a :: l).getLast? with
    | none => simp at hl
    | some b =>
      refine ⟨point b, rfl, ?_⟩
      have hb : b ∈ a :: l := List.mem_of_getLast? hl
      have hsort := hinv.sorted
      rw [htl] at hsort
      rcases List.mem_cons.1 hb with rfl | hb'
      · exact ⟨le_refl _, fun _ => rfl⟩
      · have := (List.pairwise_cons.1 hsort).1 b hb'
        exact ⟨this.le, fun e => absurd e this.ne⟩

theorem hd_of_lst {segs : List (Seg T D H E)} {i : Nat} {p : T × D} (h : lst segs i = some p) : ∃ q, hd segs i = some q := by
  have hi := lst_lt_length h
  have hg : segs[i]? = some segs[i] := List.getElem?_eq_getElem hi
  cases hh : hd segs i with
  | some q => exact ⟨q, rfl⟩
  | none =>
    rw [(hd_eq_none_iff hg).1 hh |> (lst_eq_none_iff hg).2] at h
    simp at h

theorem hd_of_tm {segs : List (Seg T D H E)} {i : Nat} {t : T} (h : tm segs i = some t) : ∃ d, hd segs i = some (t, d) := by
  unfold tm at h
  cases hh : hd segs i with
  | none => simp [hh] at h
  | some p =>
    simp only [hh, Option.map_some, Option.some.injEq] at h
    exact ⟨p.2, by rw [← h]⟩

theorem tm_of_hd {segs : List (Seg T D H E)} {i : Nat} {p : T × D} (h : hd segs i = some p) : tm segs i = some p.1 := by
  simp [tm, h]

/-- A segment that starts and ends at the same time has a single point, and conversely. -/
theorem length_eq_one_iff {segs : List (Seg T D H E)} (hs : ∀ s ∈ segs, SegInv s) {i : Nat} {s : Seg T D H E} (hg : segs[i]? = some s)
    {p q : T × D} (hp : hd segs i = some p) (hq : lst segs i = some q) : s.timeline.length = 1 ↔ p.1 = q.1 := by
  rw [hd_of_getElem? hg] at hp
  rw [lst_of_getElem? hg] at hq
  have hinv := hs _ (List.mem_of_getElem? hg)
  cases htl : s.timeline with
  | nil => simp [htl] at hp
  | cons a l =>
    rw [htl] at hp hq
    have hsort := hinv.sorted
    rw [htl] at hsort
    simp only [List.head?_cons, Option.map_some, Option.some.injEq] at hp
    subst hp
    cases l with
    | nil =>
      simp at hq
      simp [← hq]
    | cons b l =>
      cases hl : (a :: b :: l).getLast? with
      | none => simp at hl
      | some c =>
        rw [hl] at hq
        simp only [Option.map_some, Option.some.injEq] at hq
        subst hq
        have hc : c ∈ b :: l := by
          have : (b :: l).getLast? = some c := by simpa [List.getLast?_cons_cons] using hl
          exact List.mem_of_getLast? this
        have := (List.pairwise_cons.1 hsort).1 c hc
        simp only [List.length_cons]
        constructor
        · intro h; omega
        · intro h; exact absurd h this.ne

/-- The segments that follow a non-empty one are non-empty, and start no earlier than it ends. -/
theorem mono_lst {segs : List (Seg T D H E)} (hs : ∀ s ∈ segs, SegInv s) (hc : Chain segs) {i j : Nat} (hij : i < j)
    (hj : j < segs.length) {p : T × D} (h : lst segs i = some p) : ∃ q, hd segs j = some q ∧ p.1 ≤ q.1 := by
  induction j with
  | zero => omega
  | succ j ih =>
    rcases Nat.eq_or_lt_of_le (Nat.le_of_lt_succ hij) with e | hlt
    · subst e
      exact ⟨p, hc i hj p h, le_refl _⟩
    · obtain ⟨q, hq, hpq⟩ := ih hlt (by omega)
      obtain ⟨r, hr, hqr, _⟩ := lst_of_hd hs hq
      exact ⟨r, hc j hj r hr, hpq.trans hqr⟩

theorem mono_hd {segs : List (Seg T D H E)} (hs : ∀ s ∈ segs, SegInv s) (hc : Chain segs) {i j : Nat} (hij : i ≤ j)
    (hj : j < segs.length) {p : T × D} (h : hd segs i = some p) : ∃ q, hd segs j = some q ∧ p.1 ≤ q.1 := by
  rcases Nat.eq_or_lt_of_le hij with rfl | hlt
  · exact ⟨p, h, le_refl _⟩
  · obtain ⟨q, hq, hpq, _⟩ := lst_of_hd hs h
    obtain ⟨r, hr, hqr⟩ := mono_lst hs hc hlt hj hq
    exact ⟨r, hr, hpq.trans hqr⟩

theorem mono_tm {segs : List (Seg T D H E)} (hs : ∀ s ∈ segs, SegInv s) (hc : Chain segs) {i j : Nat} (hij : i ≤ j)
    {t u : T} (h : tm segs i = some t) (h' : tm segs j = some u) : t ≤ u := by
  obtain ⟨d, hd1⟩ := hd_of_tm h
  obtain ⟨q, hq, hle⟩ := mono_hd hs hc hij (tm_lt_length h') hd1
  rw [tm_of_hd hq] at h'
  simp only [Option.some.injEq] at h'
  rw [← h']; exact hle

/-- If a segment starts at some time, there is a last segment that starts at that time. -/
theorem exists_last {segs : List (Seg T D H E)} {t : T} {j : Nat} (h : tm segs j = some t) : ∃ i, j ≤ i ∧ IsLastAt segs t i := by
  suffices hs : ∀ n j, segs.length - j = n → tm segs j = some t → ∃ i, j ≤ i ∧ IsLastAt segs t i from hs _ j rfl h
  intro n
  induction n using Nat.strongRecOn with
  | ind n ih =>
    intro j hn hj
    by_cases hex : ∃ k, j < k ∧ tm segs k = some t
    · obtain ⟨k, hjk, hk⟩ := hex
      have := tm_lt_length hk
      obtain ⟨i, hi, hl⟩ := ih (segs.length - k) (by omega) k rfl hk
      exact ⟨i, by omega, hl⟩
    · exact ⟨j, le_refl _, hj, fun k hk e => hex ⟨k, hk, e⟩⟩

theorem isLastAt_unique {segs : List (Seg T D H E)} {t : T} {i j : Nat} (hi : IsLastAt segs t i) (hj : IsLastAt segs t j) : i = j := by
  rcases Nat.lt_trichotomy i j with h | h | h
  · exact absurd hj.1 (hi.2 j h)
  · exact h
  · exact absurd hi.1 (hj.2 i h)

/-- In a chain, it is sufficient to look at the next segment. -/
theorem isLastAt_iff {segs : List (Seg T D H E)} (hs : ∀ s ∈ segs, SegInv s) (hc : Chain segs) {t : T} {i : Nat} :
    IsLastAt segs t i ↔ tm segs i = some t ∧ tm segs (i + 1) ≠ some t := by
  constructor
  · rintro ⟨h1, h2⟩
    exact ⟨h1, h2 _ (Nat.lt_succ_self i)⟩
  · rintro ⟨h1, h2⟩
    refine ⟨h1, ?_⟩
    intro j hij hj
    have hjl := tm_lt_length hj
    obtain ⟨d, hh⟩ := hd_of_tm h1
    obtain ⟨q, hq, hle⟩ := mono_hd hs hc (Nat.le_succ i) (by omega) hh
    have h3 := tm_of_hd hq
    have h4 := mono_tm hs hc (show i + 1 ≤ j from hij) h3 hj
    apply h2
    rw [h3, le_antisymm h4 hle]

/-- The last segment of a trajectory is the last one at its time. -/
theorem isLastAt_last {segs : List (Seg T D H E)} {t : T} {i : Nat} (hi : i + 1 = segs.length) (h : tm segs i = some t) :
    IsLastAt segs t i := ⟨h, fun j hj e => by have := tm_lt_length e; omega⟩

/-- The map is canonical as soon as its entries are correct and the last segments are there. -/
theorem canon_of {tr : Trajectory T D H E} (hm : Sorted tr.map) (h1 : ∀ t i, (t, i) ∈ tr.map → tm tr.segs i = some t)
    (h2 : ∀ t i, IsLastAt tr.segs t i → (t, i) ∈ tr.map) : Canon tr := by
  refine ⟨hm, fun t i => ⟨fun h => ?_, h2 t i⟩⟩
  obtain ⟨j, _, hj⟩ := exists_last (h1 t i h)
  have := eq_of_key hm h (h2 t j hj) rfl
  simp only [Prod.mk.injEq, true_and] at this
  rw [this]; exact hj

theorem map_eq {tr tr' : Trajectory T D H E} (h : Canon tr) (h' : Canon tr') (e : tr.segs = tr'.segs) : tr.map = tr'.map := by
  apply ext_mem h.sorted h'.sorted
  rintro ⟨t, i⟩
  rw [h.mem, h'.mem, e]

/-! ## `chained` -/

theorem hd_cons_succ (s : Seg T D H E) (segs : List (Seg T D H E)) (i : Nat) : hd (s :: segs) (i + 1) = hd segs i := rfl

theorem lst_cons_succ (s : Seg T D H E) (segs : List (Seg T D H E)) (i : Nat) : lst (s :: segs) (i + 1) = lst segs i := rfl

theorem chained_iff (segs : List (Seg T D H E)) : chained segs = true ↔ Chain segs := by
  induction segs with
  | nil => simp [chained, Chain]
  | cons s rest ih =>
    cases rest with
    | nil => simp [chained, Chain]
    | cons s' rest =>
      have hfirst : (match s.timeline.getLast?, s'.timeline.head? with
         | none, _ => true
         | some _, none => false
         | some a, some b => decide (point a = point b)) = true ↔
          ∀ p, lst (s :: s' :: rest) 0 = some p → hd (s :: s' :: rest) 1 = some p := by
        have e1 : lst (s :: s' :: rest) 0 = s.timeline.getLast?.map point := rfl
        have e2 : hd (s :: s' :: rest) 1 = s'.timeline.head?.map point := rfl
        rw [e1, e2]
        cases s.timeline.getLast? with
        | none => simp
        | some a =>
          cases s'.timeline.head? with
          | none => simp
          | some b => simp [eq_comm]
      have e : chained (s :: s' :: rest) = ((match s.timeline.getLast?, s'.timeline.head? with
         | none, _ => true
         | some _, none => false
         | some a, some b => decide (point a = point b)) && chained (s' :: rest)) := rfl
      rw [e, Bool.and_eq_true, hfirst, ih]
      constructor
      · rintro ⟨h0, h1⟩ i hi p hp
        cases i with
        | zero => exact h0 p hp
        | succ i =>
          rw [lst_cons_succ] at hp
          rw [hd_cons_succ]
          exact h1 i (by simpa using hi) p hp
      · intro h
        refine ⟨h 0 (by simp), ?_⟩
        intro i hi p hp
        have := h (i + 1) (by simpa using hi) p (by rw [lst_cons_succ]; exact hp)
        rwa [hd_cons_succ] at this

/-! ## `scan` -/

theorem scan_nil (segs : List (Seg T D H E)) (i : Nat) (rest : List (Seg T D H E)) :
    scan segs i rest [] = match rest with
      | [] => true
      | s :: _ => s.isEmpty := by cases rest <;> rfl

theorem scan_cons (segs : List (Seg T D H E)) (i : Nat) (s : Seg T D H E) (rest : List (Seg T D H E)) (t : T) (j : Nat)
    (map : List (T × Nat)) :
    scan segs i (s :: rest) ((t, j) :: map) = match segs[j]? with
    | none => false
    | some s2 =>
      if s2.isEmpty then false
      else if i = j then scan segs (i + 1) rest map
      else if s.isEmpty || s.timeline.length = 1 then scan segs (i + 1) rest ((t, j) :: map)
      else false := rfl

theorem scan_spec (segs : List (Seg T D H E)) : ∀ (rest : List (Seg T D H E)) (i : Nat) (map : List (T × Nat)), segs.drop i = rest →
    scan segs i rest map = true →
    (∀ t j, (t, j) ∈ map → i ≤ j ∧ tm segs j ≠ none) ∧
    (∀ k s, i ≤ k → segs[k]? = some s → (∃ t, (t, k) ∈ map) ∨ s.timeline.length ≤ 1 ∨ ∀ t j, (t, j) ∈ map → j < k) ∧
    (map ≠ [] → ∃ t j, (t, j) ∈ map ∧ ∀ s, segs[j + 1]? = some s → s.timeline = []) := by
  intro rest
  induction rest with
  | nil =>
    intro i map hdrop hscan
    cases map with
    | nil => exact ⟨by simp, fun k s hk hs => Or.inr (Or.inr (by simp)), by simp⟩
    | cons e map => cases e; simp [scan] at hscan
  | cons s rest ih =>
    intro i map hdrop hscan
    have hi : segs[i]? = some s := by rw [← List.head?_drop, hdrop]; rfl
    have hdrop' : segs.drop (i + 1) = rest := by
      rw [← List.tail_drop, hdrop]; rfl
    cases map with
    | nil => exact ⟨by simp, fun k s hk hs => Or.inr (Or.inr (by simp)), by simp⟩
    | cons e map =>
      obtain ⟨t, j⟩ := e
      rw [scan_cons] at hscan
      cases hj : segs[j]? with
      | none => simp [hj] at hscan
      | some s2 =>
        rw [hj] at hscan
        simp only at hscan
        cases hs2 : s2.isEmpty with
        | true => simp [hs2] at hscan
        | false =>
          have hne : tm segs j ≠ none := by
            rw [Ne, tm_eq_none_iff hj]; exact isEmpty_false_iff.1 hs2
          rw [hs2] at hscan
          simp only [Bool.false_eq_true, if_false] at hscan
          by_cases hij : i = j
          · rw [if_pos hij] at hscan
            obtain ⟨h1, h2, h3⟩ := ih (i + 1) map hdrop' hscan
            refine ⟨?_, ?_, ?_⟩
            · intro t' j' hm
              rcases List.mem_cons.1 hm with e | hm
              · simp only [Prod.mk.injEq] at e
                rw [e.2]; exact ⟨by omega, hne⟩
              · exact ⟨by have := (h1 t' j' hm).1; omega, (h1 t' j' hm).2⟩
            · intro k s' hk hs'
              rcases Nat.eq_or_lt_of_le hk with e | hk
              · exact Or.inl ⟨t, by rw [← e, hij]; exact List.mem_cons_self⟩
              · rcases h2 k s' hk hs' with ⟨t', h⟩ | h | h
                · exact Or.inl ⟨t', List.mem_cons_of_mem _ h⟩
                · exact Or.inr (Or.inl h)
                · refine Or.inr (Or.inr ?_)
                  intro t' j' hm
                  rcases List.mem_cons.1 hm with e | hm
                  · simp only [Prod.mk.injEq] at e; omega
                  · exact h t' j' hm
            · intro _
              cases map with
              | nil =>
                refine ⟨t, j, List.mem_cons_self, ?_⟩
                intro s' hs'
                rw [scan_nil] at hscan
                rw [← hij, ← List.head?_drop, hdrop'] at hs'
                cases rest with
                | nil => simp at hs'
                | cons s'' rest =>
                  simp only [List.head?_cons, Option.some.injEq] at hs'
                  subst hs'
                  exact isEmpty_iff.1 hscan
              | cons e map =>
                obtain ⟨t', j', hm, h⟩ := h3 (by simp)
                exact ⟨t', j', List.mem_cons_of_mem _ hm, h⟩
          · rw [if_neg hij] at hscan
            cases hone : (s.isEmpty || decide (s.timeline.length = 1)) with
            | false => simp [hone] at hscan
            | true =>
              rw [hone] at hscan
              simp only [if_true] at hscan
              obtain ⟨h1, h2, h3⟩ := ih (i + 1) _ hdrop' hscan
              refine ⟨fun t' j' hm => ⟨by have := (h1 t' j' hm).1; omega, (h1 t' j' hm).2⟩, ?_, h3⟩
              intro k s' hk hs'
              rcases Nat.eq_or_lt_of_le hk with e | hk
              · subst e
                rw [hi] at hs'
                simp only [Option.some.injEq] at hs'
                subst hs'
                refine Or.inr (Or.inl ?_)
                rw [Bool.or_eq_true, isEmpty_iff, decide_eq_true_eq] at hone
                rcases hone with h | h
                · simp [h]
                · omega
              · exact h2 k s' hk hs'

theorem scan_of (segs : List (Seg T D H E)) : ∀ (rest : List (Seg T D H E)) (i : Nat) (map : List (T × Nat)), segs.drop i = rest →
    (∀ t j, (t, j) ∈ map → i ≤ j ∧ tm segs j ≠ none) →
    (map.Pairwise fun a b => a.2 < b.2) →
    (∀ k s, i ≤ k → segs[k]? = some s → (∃ t, (t, k) ∈ map) ∨ s.timeline.length ≤ 1) →
    (∀ k s, k + 1 = segs.length → i ≤ k → segs[k]? = some s → s.timeline = [] ∨ ∃ t, (t, k) ∈ map) →
    (∀ k, i ≤ k → k + 1 < segs.length → tm segs k ≠ none → tm segs (k + 1) ≠ none) →
    scan segs i rest map = true := by
  intro rest
  induction rest with
  | nil =>
    intro i map hdrop h1 h2 h3 h4 h5
    cases map with
    | nil => rfl
    | cons e map =>
      obtain ⟨t, j⟩ := e
      have := h1 t j List.mem_cons_self
      have hl : segs.length ≤ i := by
        have := congrArg List.length hdrop
        simp at this; omega
      have hn : segs[j]? = none := List.getElem?_eq_none (by omega)
      exfalso
      apply this.2
      simp [tm, hd, hn]
  | cons s rest ih =>
    intro i map hdrop h1 h2 h3 h4 h5
    have hi : segs[i]? = some s := by rw [← List.head?_drop, hdrop]; rfl
    have hil : i < segs.length := by
      by_contra hc
      rw [List.getElem?_eq_none (by omega)] at hi
      simp at hi
    have hdrop' : segs.drop (i + 1) = rest := by
      rw [← List.tail_drop, hdrop]; rfl
    cases map with
    | nil =>
      rw [scan_nil]
      -- If `s` is not empty neither is the last segment.
      cases hs : s.isEmpty with
      | true => exact hs
      | false =>
        exfalso
        have hne : tm segs i ≠ none := by
          rw [Ne, tm_eq_none_iff hi]; exact isEmpty_false_iff.1 hs
        have hall : ∀ k, i ≤ k → k < segs.length → tm segs k ≠ none := by
          intro k hik
          induction k with
          | zero => intro hk; have : i = 0 := by omega
                    subst this; exact hne
          | succ k ihk =>
            intro hk
            rcases Nat.eq_or_lt_of_le hik with e | hlt
            · rw [← e]; exact hne
            · exact h5 k (by omega) hk (ihk (by omega) (by omega))
        have hlast := hall (segs.length - 1) (by omega) (by omega)
        have hg : segs[segs.length - 1]? = some segs[segs.length - 1] := List.getElem?_eq_getElem (by omega)
        rcases h4 (segs.length - 1) _ (by omega) (by omega) hg with h | ⟨t, h⟩
        · rw [Ne, tm_eq_none_iff hg] at hlast; exact hlast h
        · simp at h
    | cons e map =>
      obtain ⟨t, j⟩ := e
      rw [scan_cons]
      have hj1 := h1 t j List.mem_cons_self
      have hjl : j < segs.length := by
        cases htm : tm segs j with
        | none => exact absurd htm hj1.2
        | some u => exact tm_lt_length htm
      have hg : segs[j]? = some segs[j] := List.getElem?_eq_getElem hjl
      have hne := hj1.2
      rw [Ne, tm_eq_none_iff hg] at hne
      rw [hg]
      simp only
      rw [isEmpty_false_iff.2 hne]
      simp only [Bool.false_eq_true, if_false]
      have hc := List.pairwise_cons.1 h2
      by_cases hij : i = j
      · rw [if_pos hij]
        apply ih (i + 1) map hdrop'
        · intro t' j' hm
          have := hc.1 (t', j') hm
          exact ⟨by simp only at this; omega, (h1 t' j' (List.mem_cons_of_mem _ hm)).2⟩
        · exact hc.2
        · intro k s' hk hs'
          rcases h3 k s' (by omega) hs' with ⟨t', h⟩ | h
          · rcases List.mem_cons.1 h with e | h
            · simp only [Prod.mk.injEq] at e; omega
            · exact Or.inl ⟨t', h⟩
          · exact Or.inr h
        · intro k s' hk hik hs'
          rcases h4 k s' hk (by omega) hs' with h | ⟨t', h⟩
          · exact Or.inl h
          · rcases List.mem_cons.1 h with e | h
            · simp only [Prod.mk.injEq] at e; omega
            · exact Or.inr ⟨t', h⟩
        · intro k hk
          exact h5 k (by omega)
      · rw [if_neg hij]
        have hone : (s.isEmpty || decide (s.timeline.length = 1)) = true := by
          rcases h3 i s (le_refl i) hi with ⟨t', h⟩ | h
          · exfalso
            rcases List.mem_cons.1 h with e | h
            · simp only [Prod.mk.injEq] at e; omega
            · have := hc.1 _ h
              simp only at this; omega
          · rw [Bool.or_eq_true, isEmpty_iff, decide_eq_true_eq, ← List.length_eq_zero_iff]
            omega
        rw [hone]
        simp only [if_true]
        apply ih (i + 1) _ hdrop'
        · intro t' j' hm
          refine ⟨?_, (h1 t' j' hm).2⟩
          rcases List.mem_cons.1 hm with e | hm
          · simp only [Prod.mk.injEq] at e; omega
          · have := hc.1 _ hm
            simp only at this; omega
        · exact h2
        · intro k s' hk; exact h3 k s' (by omega)
        · intro k s' hk hik; exact h4 k s' hk (by omega)
        · intro k hk; exact h5 k (by omega)

/-- What the consistency check guarantees, for well-formed segments and maps. -/
theorem inv_of_consistencyStatus {tr : Trajectory T D H E} (hs : ∀ s ∈ tr.segs, SegInv s) (hm : Sorted tr.map)
    (h : consistencyStatus tr = true) : Inv tr := by
  unfold consistencyStatus at h
  simp only [Bool.and_eq_true, decide_eq_true_eq] at h
  obtain ⟨⟨⟨⟨_, h2⟩, h3⟩, h4⟩, h5⟩ := h
  have hc := (chained_iff _).1 h5
  refine ⟨hs, hc, ?_⟩
  obtain ⟨s1, s2, s3⟩ := scan_spec tr.segs tr.segs 0 tr.map (by simp) h4
  have htm : ∀ t i, (t, i) ∈ tr.map → tm tr.segs i = some t := by
    intro t i hti
    have h31 := List.all_eq_true.1 h3 (t, i) hti
    have hne := (s1 t i hti).2
    cases htm : tm tr.segs i with
    | none => exact absurd htm hne
    | some u =>
      have hil := tm_lt_length htm
      have hg : tr.segs[i]? = some tr.segs[i] := List.getElem?_eq_getElem hil
      simp only [hg] at h31
      unfold tm at htm
      rw [hd_of_getElem? hg] at htm
      cases hh : (tr.segs[i]).timeline.head? with
      | none => simp [hh] at htm
      | some a =>
        rw [hh] at h31 htm
        simp only [decide_eq_true_eq] at h31
        simp only [Option.map_some, Option.some.injEq] at htm
        rw [← htm, ← h31]; rfl
  apply canon_of hm htm
  intro t i hl
  have hil := tm_lt_length hl.1
  have hg : tr.segs[i]? = some tr.segs[i] := List.getElem?_eq_getElem hil
  by_cases hmap : tr.map = []
  · rw [hmap] at h2
    simp only [List.isEmpty_nil, Bool.not_true, Bool.false_or] at h2
    have := List.all_eq_true.1 h2 _ (List.getElem_mem hil)
    have h0 := (tm_eq_none_iff hg).2 (isEmpty_iff.1 this)
    rw [hl.1] at h0
    simp at h0
  · -- The last segment is in the map.
    obtain ⟨t', j, hm', hj⟩ := s3 hmap
    have hjtm := htm t' j hm'
    have hjlen : j + 1 = tr.segs.length := by
      have hjl := tm_lt_length hjtm
      by_contra hne
      have hlt : j + 1 < tr.segs.length := by omega
      obtain ⟨d, hhd⟩ := hd_of_tm hjtm
      obtain ⟨q, hq, _⟩ := mono_hd hs hc (Nat.le_succ j) hlt hhd
      have hg' : tr.segs[j + 1]? = some tr.segs[j + 1] := List.getElem?_eq_getElem hlt
      rw [(hd_eq_none_iff hg').2 (hj _ hg')] at hq
      simp at hq
    rcases s2 i _ (Nat.zero_le i) hg with ⟨t'', h⟩ | h | h
    · have := htm t'' i h
      rw [hl.1] at this
      simp only [Option.some.injEq] at this
      rw [this]; exact h
    · by_cases hi1 : i = j
      · subst hi1
        rw [hl.1] at hjtm
        simp only [Option.some.injEq] at hjtm
        rw [hjtm]; exact hm'
      · -- A 1-point segment that is not the last one is followed by one that starts at the same time.
        exfalso
        obtain ⟨d, hhd⟩ := hd_of_tm hl.1
        obtain ⟨q, hq, _, _⟩ := lst_of_hd hs hhd
        have hlen : (tr.segs[i]).timeline.length = 1 := by
          have : (tr.segs[i]).timeline ≠ [] := by
            intro e
            have := (hd_eq_none_iff hg).2 e
            rw [hhd] at this; simp at this
          have := List.length_pos_iff.2 this
          omega
        have := (length_eq_one_iff hs hg hhd hq).1 hlen
        have hnext := hc i (by omega) q hq
        apply hl.2 (i + 1) (Nat.lt_succ_self i)
        rw [tm_of_hd hnext, ← this]
    · have := h t' j hm'
      omega

/-- Conversely, the consistency check succeeds on consistent trajectories. -/
theorem consistencyStatus_of_inv {tr : Trajectory T D H E} (h : Inv tr) : consistencyStatus tr = true := by
  obtain ⟨hs, hc, hcan⟩ := h
  -- The indices increase with the times.
  have hidx : tr.map.Pairwise fun a b => a.2 < b.2 := by
    refine hcan.sorted.imp_of_mem ?_
    rintro ⟨t, i⟩ ⟨u, j⟩ hi hj htu
    simp only at htu ⊢
    have h1 := ((hcan.mem t i).1 hi).1
    have h2 := ((hcan.mem u j).1 hj).1
    by_contra hlt
    exact absurd (mono_tm hs hc (not_lt.1 hlt) h2 h1) (not_le.2 htu)
  have hlen : tr.map.length ≤ tr.segs.length := by
    have hnd : (tr.map.map Prod.snd).Nodup := by
      rw [List.Nodup, List.pairwise_map]
      exact hidx.imp fun h => by omega
    have hsub : (tr.map.map Prod.snd) ⊆ List.range tr.segs.length := by
      intro i hi
      obtain ⟨⟨t, j⟩, hm, rfl⟩ := List.mem_map.1 hi
      rw [List.mem_range]
      exact tm_lt_length ((hcan.mem t j).1 hm).1
    have := (List.subperm_of_subset hnd hsub).length_le
    simpa using this
  have hscan : scan tr.segs 0 tr.segs tr.map = true := by
    apply scan_of tr.segs tr.segs 0 tr.map (by simp)
    · intro t j hm
      refine ⟨Nat.zero_le j, ?_⟩
      rw [((hcan.mem t j).1 hm).1]; simp
    · exact hidx
    · intro k s _ hg
      cases htm : tm tr.segs k with
      | none => rw [tm_eq_none_iff hg] at htm; exact Or.inr (by simp [htm])
      | some t =>
        by_cases hl : IsLastAt tr.segs t k
        · exact Or.inl ⟨t, (hcan.mem t k).2 hl⟩
        · refine Or.inr ?_
          rw [isLastAt_iff hs hc] at hl
          have hnext : tm tr.segs (k + 1) = some t := by
            by_contra hne; exact hl ⟨htm, hne⟩
          obtain ⟨d, hhd⟩ := hd_of_tm htm
          obtain ⟨q, hq, hle, _⟩ := lst_of_hd hs hhd
          have h1 := hc k (tm_lt_length hnext) q hq
          rw [tm_of_hd h1] at hnext
          simp only [Option.some.injEq] at hnext
          rw [(length_eq_one_iff hs hg hhd hq).2 hnext.symm]
    · intro k s hk _ hg
      cases htm : tm tr.segs k with
      | none => rw [tm_eq_none_iff hg] at htm; exact Or.inl htm
      | some t => exact Or.inr ⟨t, (hcan.mem t k).2 (isLastAt_last hk htm)⟩
    · intro k _ hk hne
      cases htm : tm tr.segs k with
      | none => exact absurd htm hne
      | some t =>
        obtain ⟨d, hhd⟩ := hd_of_tm htm
        obtain ⟨q, hq, _⟩ := mono_hd hs hc (Nat.le_succ k) hk hhd
        rw [tm_of_hd hq]; simp
  unfold consistencyStatus
  simp only [Bool.and_eq_true, decide_eq_true_eq]
  refine ⟨⟨⟨⟨hlen, ?_⟩, ?_⟩, hscan⟩, (chained_iff _).2 hc⟩
  · cases hmap : tr.map with
    | cons => simp
    | nil =>
      simp only [List.isEmpty_nil, Bool.not_true, Bool.false_or, List.all_eq_true]
      intro s hsm
      obtain ⟨i, hi, rfl⟩ := List.mem_iff_getElem.1 hsm
      have hg : tr.segs[i]? = some tr.segs[i] := List.getElem?_eq_getElem hi
      rw [isEmpty_iff, ← tm_eq_none_iff hg]
      cases htm : tm tr.segs i with
      | none => rfl
      | some t =>
        obtain ⟨j, _, hj⟩ := exists_last htm
        have := (hcan.mem t j).2 hj
        rw [hmap] at this; simp at this
  · rw [List.all_eq_true]
    rintro ⟨t, i⟩ hm
    have htm := ((hcan.mem t i).1 hm).1
    have hil := tm_lt_length htm
    have hg : tr.segs[i]? = some tr.segs[i] := List.getElem?_eq_getElem hil
    simp only [hg]
    unfold tm at htm
    rw [hd_of_getElem? hg] at htm
    cases hh : (tr.segs[i]).timeline.head? with
    | none => rfl
    | some a =>
      rw [hh] at htm
      simp only [Option.map_some, Option.some.injEq] at htm
      simp only [decide_eq_true_eq]
      exact htm

theorem check_eq_some {tr tr' : Trajectory T D H E} : check tr = some tr' ↔ tr = tr' ∧ consistencyStatus tr = true := by
  unfold check
  cases consistencyStatus tr <;> simp

theorem check_of_inv {tr : Trajectory T D H E} (h : Inv tr) : check tr = some tr := check_eq_some.2 ⟨rfl, consistencyStatus_of_inv h⟩

end Principia.DiscreteTrajectory
