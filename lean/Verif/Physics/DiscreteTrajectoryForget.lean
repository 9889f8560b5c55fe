import Verif.Physics.DiscreteTrajectoryPreservation
import Mathlib.Data.List.Induction

/-!
# `ForgetAfter`, `ForgetBefore`, `DeleteSegments`
-/

set_option linter.unusedSimpArgs false
set_option linter.unusedVariables false
set_option linter.unusedSectionVars false

namespace Principia.DiscreteTrajectory

open Principia.SortedMap

variable {T D H E : Type} [LinearOrder T] [DecidableEq D] [AddCommGroup E] [LinearOrder E]

/-- The point `p` belongs to the segment with index `i`. -/
def pt (segs : List (Seg T D H E)) (i : Nat) (p : T × D) : Prop := ∃ s, segs[i]? = some s ∧ p ∈ s.points

theorem isPoint_iff {tr : Trajectory T D H E} {t : T} {d : D} : IsPoint tr t d ↔ ∃ i, pt tr.segs i (t, d) := by
  unfold IsPoint pt
  constructor
  · rintro ⟨s, hs, hp⟩
    obtain ⟨i, hi, rfl⟩ := List.mem_iff_getElem.1 hs
    exact ⟨i, _, List.getElem?_eq_getElem hi, hp⟩
  · rintro ⟨i, s, hs, hp⟩
    exact ⟨s, List.mem_of_getElem? hs, hp⟩

theorem pt_lt_length {segs : List (Seg T D H E)} {i : Nat} {p : T × D} (h : pt segs i p) : i < segs.length := by
  obtain ⟨s, hs, _⟩ := h
  exact (List.getElem?_eq_some_iff.1 hs).1

theorem pt_hd {segs : List (Seg T D H E)} {i : Nat} {p : T × D} (h : hd segs i = some p) : pt segs i p := by
  have hi := hd_lt_length h
  have hg : segs[i]? = some segs[i] := List.getElem?_eq_getElem hi
  rw [hd_of_getElem? hg] at h
  cases hh : (segs[i]).timeline.head? with
  | none => simp [hh] at h
  | some a =>
    rw [hh] at h
    simp only [Option.map_some, Option.some.injEq] at h
    exact ⟨_, hg, mem_points_iff.2 ⟨a, List.mem_of_head? hh, h⟩⟩

theorem pt_lst {segs : List (Seg T D H E)} {i : Nat} {p : T × D} (h : lst segs i = some p) : pt segs i p := by
  have hi := lst_lt_length h
  have hg : segs[i]? = some segs[i] := List.getElem?_eq_getElem hi
  rw [lst_of_getElem? hg] at h
  cases hh : (segs[i]).timeline.getLast? with
  | none => simp [hh] at h
  | some a =>
    rw [hh] at h
    simp only [Option.map_some, Option.some.injEq] at h
    exact ⟨_, hg, mem_points_iff.2 ⟨a, List.mem_of_getLast? hh, h⟩⟩

theorem points_unique {s : Seg T D H E} (hs : SegInv s) {p q : T × D} (hp : p ∈ s.points) (hq : q ∈ s.points) (e : p.1 = q.1) : p = q :=
  eq_of_key (sorted_iff_points.1 hs.sorted) hp hq e

theorem pt_bounds {segs : List (Seg T D H E)} (hs : ∀ s ∈ segs, SegInv s) {i : Nat} {p : T × D} (h : pt segs i p) :
    ∃ a b, hd segs i = some a ∧ lst segs i = some b ∧ a.1 ≤ p.1 ∧ p.1 ≤ b.1 ∧ (p.1 = a.1 → p = a) ∧ (p.1 = b.1 → p = b) := by
  obtain ⟨s, hg, hp⟩ := h
  have hinv := hs s (List.mem_of_getElem? hg)
  obtain ⟨x, hx, rfl⟩ := mem_points_iff.1 hp
  cases hh : s.timeline.head? with
  | none => simp at hh; rw [hh] at hx; simp at hx
  | some a =>
    cases hl : s.timeline.getLast? with
    | none => simp at hl; rw [hl] at hx; simp at hx
    | some b =>
      refine ⟨point a, point b, by rw [hd_of_getElem? hg, hh]; rfl, by rw [lst_of_getElem? hg, hl]; rfl,
        head?_min hinv.sorted hh x hx, getLast?_max hinv.sorted hl x hx, ?_, ?_⟩
      · intro e
        exact points_unique hinv hp (mem_points_iff.2 ⟨a, List.mem_of_head? hh, rfl⟩) e
      · intro e
        exact points_unique hinv hp (mem_points_iff.2 ⟨b, List.mem_of_getLast? hl, rfl⟩) e

/-- If a segment ends at the time where a later one starts, it is with the same degrees of freedom. -/
theorem lst_eq_hd {segs : List (Seg T D H E)} (hs : ∀ s ∈ segs, SegInv s) (hc : Chain segs) {i j : Nat} (hij : i < j) {p q : T × D}
    (hp : lst segs i = some p) (hq : hd segs j = some q) (e : p.1 = q.1) : p = q := by
  induction j generalizing q with
  | zero => omega
  | succ j ih =>
    have hj := hd_lt_length hq
    rcases Nat.eq_or_lt_of_le (Nat.le_of_lt_succ hij) with e' | hlt
    · subst e'
      have := hc i hj p hp
      rw [hq] at this
      simp only [Option.some.injEq] at this
      exact this.symm
    · obtain ⟨r, hr, hpr⟩ := mono_lst hs hc hlt (by omega) hp
      obtain ⟨u, hu, hru, hru'⟩ := lst_of_hd hs hr
      have h1 := hc j hj u hu
      rw [hq] at h1
      simp only [Option.some.injEq] at h1
      rw [h1] at e ⊢
      have e2 : r.1 = u.1 := le_antisymm hru (by rw [← e]; exact hpr)
      rw [ih hlt hr (by rw [e, e2]), hru' e2]

/-- A trajectory has at most one point at each time. -/
theorem pt_unique {segs : List (Seg T D H E)} (hs : ∀ s ∈ segs, SegInv s) (hc : Chain segs) {i j : Nat} {p q : T × D}
    (hp : pt segs i p) (hq : pt segs j q) (e : p.1 = q.1) : p = q := by
  have key : ∀ {i j : Nat} {p q : T × D}, i < j → pt segs i p → pt segs j q → p.1 = q.1 → p = q := by
    intro i j p q hij hp hq e
    obtain ⟨a, b, ha, hb, hap, hpb, hpa', hpb'⟩ := pt_bounds hs hp
    obtain ⟨a', b', ha', hb', hap', hpb2, hqa', hqb'⟩ := pt_bounds hs hq
    obtain ⟨r, hr, hle⟩ := mono_lst hs hc hij (hd_lt_length ha') hb
    rw [ha'] at hr
    simp only [Option.some.injEq] at hr
    subst hr
    have e1 : p.1 = b.1 := le_antisymm hpb (hle.trans (hap'.trans e.ge))
    have e2 : q.1 = a'.1 := le_antisymm (by rw [← e]; exact hpb.trans hle) hap'
    rw [hpb' e1, hqa' e2]
    exact lst_eq_hd hs hc hij hb ha' (by rw [← e1, ← e2, e])
  rcases Nat.lt_trichotomy i j with h | h | h
  · exact key h hp hq e
  · subst h
    obtain ⟨s, hg, hp⟩ := hp
    obtain ⟨s', hg', hq⟩ := hq
    rw [hg] at hg'
    simp only [Option.some.injEq] at hg'
    subst hg'
    exact points_unique (hs s (List.mem_of_getElem? hg)) hp hq e
  · exact (key h hq hp e.symm).symm

/-- Points of earlier segments are not after those of later segments. -/
theorem pt_mono {segs : List (Seg T D H E)} (hs : ∀ s ∈ segs, SegInv s) (hc : Chain segs) {i j : Nat} {p q : T × D} (hij : i < j)
    (hp : pt segs i p) (hq : pt segs j q) : p.1 ≤ q.1 := by
  obtain ⟨a, b, ha, hb, hap, hpb, _, _⟩ := pt_bounds hs hp
  obtain ⟨a', b', ha', hb', hap', hpb2, _, _⟩ := pt_bounds hs hq
  obtain ⟨r, hr, hle⟩ := mono_lst hs hc hij (hd_lt_length ha') hb
  rw [ha'] at hr
  simp only [Option.some.injEq] at hr
  subst hr
  exact hpb.trans (hle.trans hap')

theorem hd_zero_min {segs : List (Seg T D H E)} (hs : ∀ s ∈ segs, SegInv s) (hc : Chain segs) {i j : Nat} {p q : T × D}
    (hij : i ≤ j) (hi : hd segs i = some p) (hq : pt segs j q) : p.1 ≤ q.1 := by
  obtain ⟨a, b, ha, hb, hap, _, _, _⟩ := pt_bounds hs hq
  exact (mono_tm hs hc hij (tm_of_hd hi) (tm_of_hd ha)).trans hap

/-! ## `ForgetAfter` -/

theorem skipBack_spec (segs : List (Seg T D H E)) (t : T) : ∀ i, skipBack segs t i ≤ i ∧
    (∀ k, skipBack segs t i ≤ k → k < i → tm segs k = some t) ∧ (skipBack segs t i = 0 ∨ tm segs (skipBack segs t i - 1) ≠ some t)
  | 0 => ⟨le_refl _, by omega, Or.inl rfl⟩
  | i + 1 => by
    have e : skipBack segs t (i + 1) = match segs[i]? with
      | none => i + 1
      | some previous => match previous.timeline.head? with
        | none => i + 1
        | some a => if a.1 ≠ t then i + 1 else skipBack segs t i := rfl
    have hstop : skipBack segs t (i + 1) = i + 1 → tm segs i ≠ some t →
        skipBack segs t (i + 1) ≤ i + 1 ∧ (∀ k, skipBack segs t (i + 1) ≤ k → k < i + 1 → tm segs k = some t) ∧
        (skipBack segs t (i + 1) = 0 ∨ tm segs (skipBack segs t (i + 1) - 1) ≠ some t) := by
      intro h1 h2
      rw [h1]
      exact ⟨le_refl _, by omega, Or.inr (by simpa using h2)⟩
    cases hg : segs[i]? with
    | none =>
      rw [hg] at e
      exact hstop e (by simp [tm, hd, hg])
    | some previous =>
      rw [hg] at e
      simp only at e
      cases hh : previous.timeline.head? with
      | none =>
        rw [hh] at e
        exact hstop e (by simp [tm, hd, hg, hh])
      | some a =>
        rw [hh] at e
        simp only at e
        have htm : tm segs i = some a.1 := by simp [tm, hd, hg, hh, point]
        split at e
        · rename_i hne
          exact hstop e (by rw [htm]; simpa using hne)
        · rename_i hne
          have hat : a.1 = t := by simpa using hne
          obtain ⟨h1, h2, h3⟩ := skipBack_spec segs t i
          rw [e]
          refine ⟨by omega, ?_, h3⟩
          intro k hk hki
          rcases Nat.eq_or_lt_of_le (Nat.le_of_lt_succ hki) with e' | hlt
          · rw [e', htm, hat]
          · exact h2 k hk hlt

/-- If the segments with indices `k` and above start at or after `t`, and those below before `t`, the map of the latter. -/
theorem canon_take_lt {tr : Trajectory T D H E} (h : Inv tr) {t : T} {k : Nat} (h1 : ∀ j u, j < k → tm tr.segs j = some u → u < t)
    (h2 : ∀ j u, k ≤ j → tm tr.segs j = some u → t ≤ u) :
    Canon { segs := tr.segs.take k, map := tr.map.take (lowerBound tr.map t) } := by
  refine ⟨h.canon.sorted.sublist (List.take_sublist _ _), ?_⟩
  intro u i
  simp only
  rw [mem_take_lowerBound h.canon.sorted, h.canon.mem]
  simp only [IsLastAt, tm_take]
  constructor
  · rintro ⟨⟨ht, hl⟩, hlt⟩
    have hik : i < k := by
      by_contra hc
      exact absurd (h2 i u (by omega) ht) (not_le.2 hlt)
    rw [if_pos hik]
    refine ⟨ht, ?_⟩
    intro j hj
    split
    · exact hl j hj
    · simp
  · rintro ⟨ht, hl⟩
    split at ht
    · rename_i hik
      have hlt := h1 i u hik ht
      refine ⟨⟨ht, ?_⟩, hlt⟩
      intro j hj e
      by_cases hjk : j < k
      · have := hl j hj
        rw [if_pos hjk] at this
        exact this e
      · exact absurd (h2 j u (by omega) e) (not_le.2 hlt)
    · simp at ht

/-- `ForgetAfter`. -/
theorem forgetAfter_spec {tr : Trajectory T D H E} (hinv : Inv tr) (hne : tr.segs ≠ []) (t : T) :
    ∃ tr', tr.forgetAfter t = some tr' ∧ Inv tr' ∧ tr'.segs ≠ [] ∧
      ∀ p d, IsPoint tr' p d ↔ IsPoint tr p d ∧ (p < t ∨ (p = t ∧ (∃ i, tm tr.segs i = some t) ∧ ∃ q e, IsPoint tr q e ∧ q < t)) := by
  unfold Trajectory.forgetAfter
  cases hf : findSegment tr.map t with
  | none =>
    simp only
    obtain ⟨tr', htr'⟩ := Option.isSome_iff_exists.1 (clear_isSome.2 hne)
    refine ⟨tr', htr', inv_clear htr', ?_, ?_⟩
    · unfold Trajectory.clear at htr'
      cases hs : tr.segs with
      | nil => exact absurd hs hne
      | cons s l => simp only [hs, Option.some.injEq] at htr'; rw [← htr']; simp
    · intro p d
      have hall : ∀ q e, IsPoint tr q e → t < q := by
        intro q e hq
        obtain ⟨i, hi⟩ := isPoint_iff.1 hq
        obtain ⟨a, b, ha, _, hle, _⟩ := pt_bounds hinv.segs hi
        exact ((findSegment_none hinv).1 hf i _ (tm_of_hd ha)).trans_le hle
      unfold Trajectory.clear at htr'
      cases hs : tr.segs with
      | nil => exact absurd hs hne
      | cons s l =>
        simp only [hs, Option.some.injEq] at htr'
        rw [← htr']
        constructor
        · rintro ⟨x, hx, hp⟩
          simp at hx; subst hx
          simp [Seg.points, Seg.clear] at hp
        · rintro ⟨hp, h1 | ⟨h1, _⟩⟩
          · exact absurd (hall p d hp) (not_lt.2 h1.le)
          · exact absurd (hall p d hp) (not_lt.2 h1.le)
  | some leit =>
    obtain ⟨t0, i, hg, hub, hlb, hle, hlast, hmax, hafter⟩ := findSegment_spec hinv hf
    simp only [hg, Option.bind_eq_bind, Option.bind_some]
    obtain ⟨sk1, sk2, sk3⟩ := skipBack_spec tr.segs t i
    have hil := tm_lt_length hlast.1
    rcases lt_or_eq_of_le hle with hlt | heq
    · -- The segment starts before `t`.
      have hsit : skipBack tr.segs t i = i := by
        by_contra hc
        have h1 := sk2 (i - 1) (by omega) (by omega)
        have h2 := mono_tm hinv.segs hinv.chain (Nat.sub_le i 1) h1 hlast.1
        exact absurd hlt (not_lt.2 h2)
      rw [hsit]
      have hgi : tr.segs[i]? = some tr.segs[i] := List.getElem?_eq_getElem hil
      have hsi := hinv.segs _ (List.getElem_mem hil)
      simp only [hgi, Option.bind_some]
      obtain ⟨d0, hhd0⟩ := hd_of_tm hlast.1
      -- The truncated segment has the same beginning.
      have hhead : (((tr.segs[i]).forgetAfter t).timeline.head?).map point = some (t0, d0) := by
        rw [forgetAfter_timeline hsi]
        rw [hd_of_getElem? hgi] at hhd0
        cases htl : (tr.segs[i]).timeline with
        | nil => simp [htl] at hhd0
        | cons a l =>
          rw [htl] at hhd0
          simp only [List.head?_cons, Option.map_some, Option.some.injEq] at hhd0
          have : a.1 = t0 := congrArg Prod.fst hhd0
          rw [List.filter_cons_of_pos (by simpa [this] using hlt)]
          simp [hhd0]
      have hemp : ((tr.segs[i]).forgetAfter t).isEmpty = false := by
        rw [isEmpty_false_iff]; intro e; simp [e] at hhead
      rw [hemp]
      simp only [Bool.false_eq_true, if_false]
      generalize hs' : (tr.segs[i]).forgetAfter t = s' at *
      have hs'i : SegInv s' := by rw [← hs']; exact segInv_forgetAfter hsi t
      have htake : (tr.segs.take i).length = i := by rw [List.length_take]; omega
      have hfront : ∀ j, hd (tr.segs.take i ++ [s']) j = if j ≤ i then hd tr.segs j else none := by
        intro j
        rw [hd_append, htake]
        split
        · rename_i h1
          rw [hd_take, if_pos h1, if_pos (by omega)]
        · rename_i h1
          split
          · have : j = i := by omega
            subst this
            rw [Nat.sub_self, hhd0]
            exact hhead
          · have : ([s'] : List (Seg T D H E))[j - i]? = none := List.getElem?_eq_none (by simp; omega)
            simp [hd, this]
      have htm : ∀ j, tm (tr.segs.take i ++ [s']) j = if j ≤ i then tm tr.segs j else none := by
        intro j
        unfold tm
        rw [hfront]
        split <;> rfl
      have hInv : Inv { segs := tr.segs.take i ++ [s'], map := tr.map.take (leit + 1) } := by
        refine ⟨?_, ?_, ⟨hinv.canon.sorted.sublist (List.take_sublist _ _), ?_⟩⟩
        · exact segInv_appendList (segInv_take hinv.segs i) (by simp only [List.mem_singleton]; rintro s rfl; exact hs'i)
        · apply chain_append (chain_take hinv.chain i)
          · intro j hj; simp at hj
          · intro _ p hp
            rw [htake, lst_take] at hp
            split at hp
            · rename_i hi0
              have := hinv.chain (i - 1) (by omega) p hp
              rw [show i - 1 + 1 = i by omega, hhd0] at this
              rw [← this]; exact hhead
            · simp at hp
        · intro u j
          simp only
          rw [hub, mem_take_upperBound hinv.canon.sorted, hinv.canon.mem]
          simp only [IsLastAt, htm]
          constructor
          · rintro ⟨⟨h1, h2⟩, h3⟩
            have hji : j ≤ i := by
              by_contra hc
              exact absurd (hafter j u (by omega) h1) (not_lt.2 h3)
            rw [if_pos hji]
            refine ⟨h1, ?_⟩
            intro k hk
            split
            · exact h2 k hk
            · simp
          · rintro ⟨h1, h2⟩
            split at h1
            · rename_i hji
              have hut : u ≤ t := (mono_tm hinv.segs hinv.chain hji h1 hlast.1).trans hle
              refine ⟨⟨h1, ?_⟩, hut⟩
              intro k hk e
              by_cases hki : k ≤ i
              · have := h2 k hk
                rw [if_pos hki] at this
                exact this e
              · exact absurd (hafter k u (by omega) e) (not_lt.2 hut)
            · simp at h1
      refine ⟨_, check_of_inv hInv, hInv, by simp, ?_⟩
      intro p d
      simp only [isPoint_iff]
      constructor
      · rintro ⟨j, s, hsj, hp⟩
        rw [List.getElem?_append, htake] at hsj
        split at hsj
        · rename_i hji
          rw [List.getElem?_take, if_pos hji] at hsj
          have hpt : pt tr.segs j (p, d) := ⟨s, hsj, hp⟩
          refine ⟨⟨j, hpt⟩, Or.inl ?_⟩
          have := pt_mono hinv.segs hinv.chain hji hpt (pt_hd hhd0)
          exact this.trans_lt hlt
        · rename_i hji
          rw [List.getElem?_singleton] at hsj
          split at hsj
          · simp only [Option.some.injEq] at hsj
            subst hsj
            rw [← hs', forgetAfter_points hsi, List.mem_filter] at hp
            exact ⟨⟨i, _, hgi, hp.1⟩, Or.inl (by simpa using hp.2)⟩
          · simp at hsj
      · rintro ⟨⟨j, hpt⟩, hcase⟩
        have hnb : ¬ (p = t ∧ (∃ i, tm tr.segs i = some t)) := by
          rintro ⟨_, k, hk⟩
          have := hmax k t hk (le_refl t)
          exact absurd hlt (not_lt.2 this)
        have hpt' : p < t := by
          rcases hcase with h | ⟨h1, h2, _⟩
          · exact h
          · exact absurd ⟨h1, h2⟩ hnb
        have hji : j ≤ i := by
          by_contra hc
          obtain ⟨a, b, ha, _, hap, _⟩ := pt_bounds hinv.segs hpt
          have := hafter j _ (by omega) (tm_of_hd ha)
          exact absurd (this.trans_le hap) (not_lt.2 hpt'.le)
        obtain ⟨s, hsj, hp⟩ := hpt
        rcases Nat.eq_or_lt_of_le hji with e | hji
        · subst e
          rw [hgi] at hsj
          simp only [Option.some.injEq] at hsj
          subst hsj
          refine ⟨j, s', ?_, ?_⟩
          · rw [List.getElem?_append, htake, if_neg (lt_irrefl _), Nat.sub_self]; rfl
          · rw [← hs', forgetAfter_points hsi, List.mem_filter]
            exact ⟨hp, by simpa using hpt'⟩
        · refine ⟨j, s, ?_, hp⟩
          rw [List.getElem?_append, htake, if_pos hji, List.getElem?_take, if_pos hji]
          exact hsj
    · -- The segment starts at `t`.
      subst heq
      generalize hsit : skipBack tr.segs t0 i = sit at *
      have hsit_tm : ∀ k, sit ≤ k → k ≤ i → tm tr.segs k = some t0 := by
        intro k h1 h2
        rcases Nat.eq_or_lt_of_le h2 with e | h2
        · rw [e]; exact hlast.1
        · exact sk2 k h1 h2
      have hbelow : ∀ j u, j < sit → tm tr.segs j = some u → u < t0 := by
        intro j u hj hu
        have hle' : u ≤ t0 := mono_tm hinv.segs hinv.chain (show j ≤ i by omega) hu hlast.1
        refine lt_of_le_of_ne hle' ?_
        rintro rfl
        rcases sk3 with h0 | h0
        · omega
        · apply h0
          obtain ⟨d, hhd⟩ := hd_of_tm hu
          obtain ⟨q, hq, hqle⟩ := mono_hd hinv.segs hinv.chain (show j ≤ sit - 1 by omega) (by omega) hhd
          have h1 := mono_tm hinv.segs hinv.chain (show sit - 1 ≤ i by omega) (tm_of_hd hq) hlast.1
          rw [tm_of_hd hq, le_antisymm h1 hqle]
      have habove : ∀ j u, sit ≤ j → tm tr.segs j = some u → t0 ≤ u := by
        intro j u hj hu
        exact mono_tm hinv.segs hinv.chain hj (hsit_tm sit (le_refl _) sk1) hu
      have hsl : sit < tr.segs.length := by omega
      have hgs : tr.segs[sit]? = some tr.segs[sit] := List.getElem?_eq_getElem hsl
      have hsi := hinv.segs _ (List.getElem_mem hsl)
      simp only [hgs, Option.bind_some]
      obtain ⟨d0, hhd0⟩ := hd_of_tm (hsit_tm sit (le_refl _) sk1)
      have htl0 : ((tr.segs[sit]).forgetAfter t0).timeline = [] := by
        rw [forgetAfter_timeline hsi, List.filter_eq_nil_iff]
        intro a ha
        have : pt tr.segs sit (point a) := ⟨_, hgs, mem_points_iff.2 ⟨a, ha, rfl⟩⟩
        have h1 := hd_zero_min hinv.segs hinv.chain (le_refl sit) hhd0 this
        have h2 : t0 ≤ a.1 := h1
        simpa using h2
      have hemp : ((tr.segs[sit]).forgetAfter t0).isEmpty = true := isEmpty_iff.2 htl0
      rw [hemp]
      simp only [if_true]
      have hcanon := canon_take_lt hinv hbelow habove
      rw [← hlb] at hcanon
      by_cases h0 : sit = 0
      · rw [if_pos h0]
        subst h0
        have hmap : tr.map.take leit = [] := by
          rw [List.eq_nil_iff_forall_not_mem]
          rintro ⟨u, j⟩ hm
          have h1 := ((hcanon.mem u j).1 hm).1
          simp [tm, hd] at h1
        rw [hmap]
        have hI : Inv ({ segs := [(tr.segs[0]).forgetAfter t0], map := [] } : Trajectory T D H E) := inv_of_empty htl0
        refine ⟨_, check_of_inv hI, hI, by simp, ?_⟩
        intro p d
        constructor
        · rintro ⟨x, hx, hp⟩
          simp only [List.mem_singleton] at hx
          subst hx
          rw [mem_points_iff, htl0] at hp
          simp at hp
        · rintro ⟨hp, hcase⟩
          exfalso
          have hall : ∀ q e, IsPoint tr q e → t0 ≤ q := by
            intro q e hq
            obtain ⟨j, hj⟩ := isPoint_iff.1 hq
            exact hd_zero_min hinv.segs hinv.chain (Nat.zero_le j) hhd0 hj
          rcases hcase with h | ⟨_, _, q, e, hq, hlt⟩
          · exact absurd (hall p d hp) (not_le.2 h)
          · exact absurd (hall q e hq) (not_le.2 hlt)
      · rw [if_neg h0]
        have hI : Inv ({ segs := tr.segs.take sit, map := tr.map.take leit } : Trajectory T D H E) :=
          ⟨segInv_take hinv.segs _, chain_take hinv.chain _, hcanon⟩
        refine ⟨_, check_of_inv hI, hI, ?_, ?_⟩
        · intro e
          have := congrArg List.length e
          rw [List.length_take, List.length_nil] at this
          omega
        intro p d
        simp only [isPoint_iff]
        constructor
        · rintro ⟨j, s, hsj, hp⟩
          rw [List.getElem?_take] at hsj
          split at hsj
          · rename_i hjs
            have hpt : pt tr.segs j (p, d) := ⟨s, hsj, hp⟩
            have hle' := pt_mono hinv.segs hinv.chain hjs hpt (pt_hd hhd0)
            refine ⟨⟨j, hpt⟩, ?_⟩
            rcases lt_or_eq_of_le hle' with h | h
            · exact Or.inl h
            · refine Or.inr ⟨h, ⟨i, hlast.1⟩, ?_⟩
              obtain ⟨a, b, ha, _⟩ := pt_bounds hinv.segs hpt
              exact ⟨a.1, a.2, ⟨j, pt_hd ha⟩, hbelow j _ hjs (tm_of_hd ha)⟩
          · simp at hsj
        · rintro ⟨⟨j, hpt⟩, hcase⟩
          rcases hcase with h | ⟨h1, _, q, e, ⟨k, hk⟩, hqt⟩
          · have hjs : j < sit := by
              by_contra hc
              have := hd_zero_min hinv.segs hinv.chain (show sit ≤ j by omega) hhd0 hpt
              exact absurd this (not_le.2 h)
            obtain ⟨s, hsj, hp⟩ := hpt
            exact ⟨j, s, by rw [List.getElem?_take, if_pos hjs]; exact hsj, hp⟩
          · -- The last point of the previous segment.
            subst h1
            have hks : k < sit := by
              by_contra hc
              have := hd_zero_min hinv.segs hinv.chain (show sit ≤ k by omega) hhd0 hk
              exact absurd this (not_le.2 hqt)
            obtain ⟨a, b, ha, _⟩ := pt_bounds hinv.segs hk
            obtain ⟨r, hr, _⟩ := mono_hd hinv.segs hinv.chain (show k ≤ sit - 1 by omega) (by omega) ha
            obtain ⟨u, hu, _⟩ := lst_of_hd hinv.segs hr
            have hnext := hinv.chain (sit - 1) (by omega) u hu
            rw [show sit - 1 + 1 = sit by omega, hhd0] at hnext
            simp only [Option.some.injEq] at hnext
            have := pt_unique hinv.segs hinv.chain hpt (pt_hd hhd0) rfl
            rw [this, hnext]
            obtain ⟨s, hsj, hp⟩ := pt_lst hu
            exact ⟨sit - 1, s, by rw [List.getElem?_take, if_pos (by omega)]; exact hsj, hp⟩

/-! ## `ForgetBefore` -/

/-- The segments after `ForgetBefore`, if `i` is the segment found. -/
def forgotten (segs : List (Seg T D H E)) (t : T) (i : Nat) (s : Seg T D H E) : List (Seg T D H E) :=
  (segs.take i).map (fun s => s.forgetBefore t) ++ s.forgetBefore t :: segs.drop (i + 1)

theorem forgotten_getElem? {segs : List (Seg T D H E)} {t : T} {i : Nat} {s : Seg T D H E} (hs : segs[i]? = some s) (j : Nat) :
    (forgotten segs t i s)[j]? = if j ≤ i then (segs[j]?).map (fun s => s.forgetBefore t) else segs[j]? := by
  have hi := (List.getElem?_eq_some_iff.1 hs).1
  have hl : ((segs.take i).map (fun s => s.forgetBefore t)).length = i := by simp; omega
  unfold forgotten
  rw [List.getElem?_append, hl]
  split
  · rename_i h1
    rw [if_pos (by omega), List.getElem?_map, List.getElem?_take, if_pos h1]
  · rename_i h1
    rcases Nat.eq_or_lt_of_le (Nat.le_of_not_lt h1) with e | h2
    · subst e
      simp [hs]
    · rw [if_neg (by omega), show j - i = (j - i - 1) + 1 by omega, List.getElem?_cons_succ, List.getElem?_drop]
      congr 1; omega

theorem forgotten_length {segs : List (Seg T D H E)} {t : T} {i : Nat} {s : Seg T D H E} (hs : segs[i]? = some s) :
    (forgotten segs t i s).length = segs.length := by
  have hi := (List.getElem?_eq_some_iff.1 hs).1
  simp [forgotten]; omega

theorem segInv_forgotten {segs : List (Seg T D H E)} (h : ∀ s ∈ segs, SegInv s) {t : T} {i : Nat} {s : Seg T D H E}
    (hs : segs[i]? = some s) : ∀ x ∈ forgotten segs t i s, SegInv x := by
  intro x hx
  unfold forgotten at hx
  rcases List.mem_append.1 hx with h1 | h1
  · obtain ⟨y, hy, rfl⟩ := List.mem_map.1 h1
    exact segInv_forgetBefore (h y (List.mem_of_mem_take hy)) t
  · rcases List.mem_cons.1 h1 with rfl | h1
    · exact segInv_forgetBefore (h s (List.mem_of_getElem? hs)) t
    · exact h x (List.mem_of_mem_drop h1)

theorem pt_forgotten {segs : List (Seg T D H E)} (h : ∀ s ∈ segs, SegInv s) {t : T} {i : Nat} {s : Seg T D H E}
    (hs : segs[i]? = some s) (j : Nat) (p : T × D) : pt (forgotten segs t i s) j p ↔ pt segs j p ∧ (j ≤ i → t ≤ p.1) := by
  unfold pt
  rw [forgotten_getElem? hs]
  by_cases hj : j ≤ i
  · rw [if_pos hj]
    constructor
    · rintro ⟨x, hx, hp⟩
      obtain ⟨y, hy, rfl⟩ := Option.map_eq_some_iff.1 hx
      rw [forgetBefore_points (h y (List.mem_of_getElem? hy)), List.mem_filter] at hp
      exact ⟨⟨y, hy, hp.1⟩, fun _ => by simpa using hp.2⟩
    · rintro ⟨⟨y, hy, hp⟩, hle⟩
      refine ⟨y.forgetBefore t, by rw [hy]; rfl, ?_⟩
      rw [forgetBefore_points (h y (List.mem_of_getElem? hy)), List.mem_filter]
      exact ⟨hp, by simpa using hle hj⟩
  · rw [if_neg hj]
    simp [hj]

theorem forgetBefore_getLast {s : Seg T D H E} (hs : SegInv s) (t : T) :
    (s.forgetBefore t).timeline.getLast?.map point = (s.timeline.getLast?.map point).filter fun p => t ≤ p.1 := by
  have h1 : (s.forgetBefore t).timeline.getLast?.map point = (s.forgetBefore t).points.getLast? := by
    unfold Seg.points; rw [List.getLast?_map]
  have h2 : s.timeline.getLast?.map point = s.points.getLast? := by
    unfold Seg.points; rw [List.getLast?_map]
  rw [h1, h2, forgetBefore_points hs]
  have hsort := sorted_iff_points.1 hs.sorted
  change Sorted s.points at hsort
  generalize s.points = l at hsort
  induction l using List.reverseRecOn with
  | nil => simp
  | append_singleton l a ih =>
    rw [List.filter_append, List.getLast?_append]
    by_cases hta : t ≤ a.1
    · simp [hta, Option.filter]
    · have : List.filter (fun a => decide (t ≤ a.1)) l = [] := by
        rw [List.filter_eq_nil_iff]
        intro b hb
        have := (List.pairwise_append.1 hsort).2.2 b hb a (by simp)
        have h3 : b.1 < t := this.trans (not_le.1 hta)
        simpa using h3
      rw [this]
      simp [hta, Option.filter]

theorem lst_forgotten {segs : List (Seg T D H E)} (h : ∀ s ∈ segs, SegInv s) {t : T} {i : Nat} {s : Seg T D H E}
    (hs : segs[i]? = some s) (j : Nat) :
    lst (forgotten segs t i s) j = if j ≤ i then (lst segs j).filter fun p => t ≤ p.1 else lst segs j := by
  unfold lst
  rw [forgotten_getElem? hs]
  split
  · cases hg : segs[j]? with
    | none => rfl
    | some y =>
      simp only [Option.map_some, Option.bind_some]
      exact forgetBefore_getLast (h y (List.mem_of_getElem? hg)) t
  · rfl

theorem hd_forgotten_of_le {segs : List (Seg T D H E)} (h : ∀ s ∈ segs, SegInv s) {t : T} {i : Nat} {s : Seg T D H E}
    (hs : segs[i]? = some s) {j : Nat} {p : T × D} (hp : hd segs j = some p) (ht : t ≤ p.1) : hd (forgotten segs t i s) j = some p := by
  by_cases hj : j ≤ i
  · have hjl := hd_lt_length hp
    have hg : segs[j]? = some segs[j] := List.getElem?_eq_getElem hjl
    have hinv := h _ (List.getElem_mem hjl)
    have hg' : (forgotten segs t i s)[j]? = some ((segs[j]).forgetBefore t) := by
      rw [forgotten_getElem? hs, if_pos hj, hg]; rfl
    rw [hd_of_getElem? hg'] 
    rw [hd_of_getElem? hg] at hp
    have h1 : ((segs[j]).forgetBefore t).timeline.head?.map point = ((segs[j]).forgetBefore t).points.head? := by
      unfold Seg.points; rw [List.head?_map]
    have h2 : (segs[j]).timeline.head?.map point = (segs[j]).points.head? := by
      unfold Seg.points; rw [List.head?_map]
    rw [h1, forgetBefore_points hinv]
    rw [h2] at hp
    cases hl : (segs[j]).points with
    | nil => simp [hl] at hp
    | cons a l =>
      rw [hl] at hp
      simp only [List.head?_cons, Option.some.injEq] at hp
      subst hp
      rw [List.filter_cons_of_pos (by simpa using ht)]
      rfl
  · unfold hd
    rw [forgotten_getElem? hs, if_neg hj]
    exact hp

theorem hd_forgotten_gt {segs : List (Seg T D H E)} {t : T} {i : Nat} {s : Seg T D H E}
    (hs : segs[i]? = some s) {j : Nat} (hj : i < j) : hd (forgotten segs t i s) j = hd segs j := by
  unfold hd
  rw [forgotten_getElem? hs, if_neg (by omega)]

theorem chain_forgotten {segs : List (Seg T D H E)} (h : ∀ s ∈ segs, SegInv s) (hc : Chain segs) {t : T} {i : Nat} {s : Seg T D H E}
    (hs : segs[i]? = some s) : Chain (forgotten segs t i s) := by
  intro k hk p hp
  rw [forgotten_length hs] at hk
  rw [lst_forgotten h hs] at hp
  split at hp
  · obtain ⟨h1, h2⟩ := Option.filter_eq_some_iff.1 hp
    exact hd_forgotten_of_le h hs (hc k hk p h1) (by simpa using h2)
  · rename_i hki
    rw [hd_forgotten_gt hs (by omega)]
    exact hc k hk p hp

/-- The time of the first point at or after `t` is strictly after `t` and a segment starts there, and there are points before. -/
def BetweenPointAndBoundary (tr : Trajectory T D H E) (t : T) : Prop :=
  (∃ q e, IsPoint tr q e ∧ q < t) ∧ ∃ p d i, t < p ∧ IsPoint tr p d ∧ tm tr.segs i = some p ∧ ∀ q e, IsPoint tr q e → q < t ∨ p ≤ q

/-- `ForgetBefore`. -/
theorem forgetBefore_spec {tr tr' : Trajectory T D H E} (hinv : Inv tr) {t : T} (hs : tr.forgetBefore t = some tr') :
    Inv tr' ∧ tr'.segs.length = tr.segs.length ∧ (∀ i p, pt tr'.segs i p ↔ pt tr.segs i p ∧ t ≤ p.1) ∧
      ∀ p d, IsPoint tr' p d ↔ IsPoint tr p d ∧ t ≤ p := by
  suffices hmain : Inv tr' ∧ tr'.segs.length = tr.segs.length ∧ ∀ i p, pt tr'.segs i p ↔ pt tr.segs i p ∧ t ≤ p.1 by
    refine ⟨hmain.1, hmain.2.1, hmain.2.2, ?_⟩
    intro p d
    simp only [isPoint_iff, hmain.2.2]
    constructor
    · rintro ⟨i, h1, h2⟩; exact ⟨⟨i, h1⟩, h2⟩
    · rintro ⟨⟨i, h1⟩, h2⟩; exact ⟨i, h1, h2⟩
  unfold Trajectory.forgetBefore at hs
  cases hf : findSegment tr.map t with
  | none =>
    simp only [hf, Option.some.injEq] at hs
    subst hs
    refine ⟨hinv, rfl, fun i p => ⟨fun h => ⟨h, ?_⟩, fun h => h.1⟩⟩
    obtain ⟨a, b, ha, _, hap, _⟩ := pt_bounds hinv.segs h
    exact (((findSegment_none hinv).1 hf i _ (tm_of_hd ha)).trans_le hap).le
  | some leit =>
    obtain ⟨t0, i, hg, hub, hlb, hle, hlast, hmax, hafter⟩ := findSegment_spec hinv hf
    have hil := tm_lt_length hlast.1
    have hgi : tr.segs[i]? = some tr.segs[i] := List.getElem?_eq_getElem hil
    simp only [hf, hg, hgi, Option.bind_eq_bind, Option.bind_some] at hs
    have hsi := segInv_forgotten hinv.segs (t := t) hgi
    have hsorted := hinv.canon.sorted.sublist (List.drop_sublist (leit + 1) tr.map)
    have key : tr'.segs = forgotten tr.segs t i tr.segs[i] ∧ Inv tr' := by
      split at hs
      · obtain ⟨rfl, hI⟩ := inv_of_check (tr := { segs := forgotten tr.segs t i tr.segs[i], map := tr.map.drop (leit + 1) })
          hsi hsorted hs
        exact ⟨rfl, hI⟩
      · rename_i a _
        obtain ⟨rfl, hI⟩ := inv_of_check
          (tr := ⟨forgotten tr.segs t i tr.segs[i], insertOrAssign (tr.map.drop (leit + 1)) a.1 i⟩) hsi (sorted_insertOrAssign hsorted _ _) hs
        exact ⟨rfl, hI⟩
    refine ⟨key.2, by rw [key.1, forgotten_length hgi], ?_⟩
    intro j p
    rw [key.1, pt_forgotten hinv.segs hgi]
    constructor
    · rintro ⟨h1, h2⟩
      refine ⟨h1, ?_⟩
      by_cases hj : j ≤ i
      · exact h2 hj
      · obtain ⟨a, b, ha, _, hap, _⟩ := pt_bounds hinv.segs h1
        exact ((hafter j _ (by omega) (tm_of_hd ha)).trans_le hap).le
    · rintro ⟨h1, h2⟩
      exact ⟨h1, fun _ => h2⟩

/-- `ForgetBefore` fails if and only if the time is strictly between the boundary of two segments and the preceding point. -/
theorem forgetBefore_isSome {tr : Trajectory T D H E} (hinv : Inv tr) (t : T) :
    (tr.forgetBefore t).isSome = true ↔ ¬ BetweenPointAndBoundary tr t := by
  cases hf : findSegment tr.map t with
  | none =>
    have e : tr.forgetBefore t = some tr := by unfold Trajectory.forgetBefore; simp [hf]
    rw [e]
    simp only [Option.isSome_some, true_iff]
    rintro ⟨⟨q, d, hq, hqt⟩, _⟩
    obtain ⟨i, hi⟩ := isPoint_iff.1 hq
    obtain ⟨a, b, ha, _, hap, _⟩ := pt_bounds hinv.segs hi
    exact absurd (((findSegment_none hinv).1 hf i _ (tm_of_hd ha)).trans_le hap) (not_lt.2 hqt.le)
  | some leit =>
    obtain ⟨t0, i, hg, hub, hlb, hle, hlast, hmax, hafter⟩ := findSegment_spec hinv hf
    have hil := tm_lt_length hlast.1
    have hgi : tr.segs[i]? = some tr.segs[i] := List.getElem?_eq_getElem hil
    obtain ⟨d0, hhd0⟩ := hd_of_tm hlast.1
    have hsi := segInv_forgotten hinv.segs (t := t) hgi
    have hch := chain_forgotten hinv.segs hinv.chain (t := t) hgi
    have hsorted := hinv.canon.sorted.sublist (List.drop_sublist (leit + 1) tr.map)
    have hgi' : (forgotten tr.segs t i tr.segs[i])[i]? = some ((tr.segs[i]).forgetBefore t) := by
      rw [forgotten_getElem? hgi, if_pos (le_refl _), hgi]; rfl
    have hmem : ∀ u j, (u, j) ∈ tr.map.drop (leit + 1) ↔ IsLastAt tr.segs u j ∧ t < u := by
      intro u j
      rw [hub, mem_drop_upperBound hinv.canon.sorted, hinv.canon.mem]
    have htmgt : ∀ j, i < j → tm (forgotten tr.segs t i tr.segs[i]) j = tm tr.segs j := by
      intro j hj; unfold tm; rw [hd_forgotten_gt hgi hj]
    -- Points at or after `t` are in segments at or after `i`, or at `t`.
    have hpre : ∀ j p, j < i → pt tr.segs j p → p.1 ≤ t := by
      intro j p hj hp
      exact (pt_mono hinv.segs hinv.chain hj hp (pt_hd hhd0)).trans hle
    unfold Trajectory.forgetBefore
    simp only [hf, hg, hgi, Option.bind_eq_bind, Option.bind_some]
    cases hh : ((tr.segs[i]).forgetBefore t).timeline.head? with
    | none =>
      simp only
      have hemp : ((tr.segs[i]).forgetBefore t).timeline = [] := by simpa using hh
      -- The segment is the last one.
      have hilt : ∀ p, pt tr.segs i p → p.1 < t := by
        intro p hp
        by_contra hc
        have := (pt_forgotten hinv.segs (t := t) hgi i p).2 ⟨hp, fun _ => not_lt.1 hc⟩
        obtain ⟨x, hx, hpx⟩ := this
        rw [hgi'] at hx
        simp only [Option.some.injEq] at hx
        subst hx
        rw [mem_points_iff, hemp] at hpx
        simp at hpx
      have hlasti : i + 1 = tr.segs.length := by
        by_contra hc
        obtain ⟨q, hq, _⟩ := lst_of_hd hinv.segs hhd0
        have h1 := hinv.chain i (by omega) q hq
        have h2 := hafter (i + 1) _ (Nat.lt_succ_self i) (tm_of_hd h1)
        exact absurd h2 (not_lt.2 (hilt q (pt_lst hq)).le)
      have hI : Inv { segs := forgotten tr.segs t i tr.segs[i], map := tr.map.drop (leit + 1) } := by
        refine ⟨hsi, hch, ?_⟩
        refine ⟨hsorted, ?_⟩
        intro u j
        simp only
        rw [hmem]
        constructor
        · rintro ⟨h1, h2⟩
          exfalso
          have h3 := tm_lt_length h1.1
          have h4 := mono_tm hinv.segs hinv.chain (show j ≤ i by omega) h1.1 hlast.1
          exact absurd h2 (not_lt.2 (h4.trans hle))
        · rintro ⟨h1, _⟩
          exfalso
          have h3 := tm_lt_length h1
          rw [forgotten_length hgi] at h3
          obtain ⟨d, hhd⟩ := hd_of_tm h1
          rcases Nat.eq_or_lt_of_le (show j ≤ i by omega) with e | hji
          · subst e
            rw [hd_of_getElem? hgi', hemp] at hhd
            simp at hhd
          · obtain ⟨q, hq, _⟩ := mono_hd hsi hch hji.le (by rw [forgotten_length hgi]; exact hil) hhd
            rw [hd_of_getElem? hgi', hemp] at hq
            simp at hq
      have := check_of_inv hI
      unfold forgotten at this
      rw [this]
      simp only [Option.isSome_some, true_iff]
      rintro ⟨_, p, d, k, htp, hp, hk, _⟩
      obtain ⟨j, hj⟩ := isPoint_iff.1 hp
      have hjl := pt_lt_length hj
      rcases Nat.eq_or_lt_of_le (show j ≤ i by omega) with e | hji
      · subst e; exact absurd (hilt _ hj) (not_lt.2 htp.le)
      · exact absurd (hpre j _ hji hj) (not_le.2 htp)
    | some a =>
      simp only
      have hhda : hd (forgotten tr.segs t i tr.segs[i]) i = some (point a) := by rw [hd_of_getElem? hgi', hh]; rfl
      have hpa : pt tr.segs i (point a) ∧ t ≤ a.1 := by
        have := (pt_forgotten hinv.segs hgi i (point a)).1 (pt_hd hhda)
        exact ⟨this.1, this.2 (le_refl _)⟩
      -- No point between `t` and `a`.
      have hfirst : ∀ j p, pt tr.segs j p → p.1 < t ∨ a.1 ≤ p.1 := by
        intro j p hp
        by_cases htp : t ≤ p.1
        · right
          rcases Nat.lt_trichotomy j i with hj | hj | hj
          · have h1 := hpre j p hj hp
            have h2 : p.1 = t := le_antisymm h1 htp
            have h3 := pt_mono hinv.segs hinv.chain hj hp (pt_hd hhd0)
            have h4 : t0 = t := le_antisymm hle (by rw [← h2]; exact h3)
            have h5 := hd_forgotten_of_le hinv.segs (t := t) hgi hhd0 h4.ge
            rw [hhda] at h5
            simp only [Option.some.injEq] at h5
            have h6 : a.1 = t0 := congrArg Prod.fst h5
            rw [h6, h4, h2]
          · subst hj
            have := (pt_forgotten hinv.segs hgi j p).2 ⟨hp, fun _ => htp⟩
            exact hd_zero_min hsi hch (le_refl _) hhda this
          · exact pt_mono hinv.segs hinv.chain hj hpa.1 hp
        · exact Or.inl (not_le.1 htp)
      have hbad : BetweenPointAndBoundary tr t ↔ t < a.1 ∧ ∃ j, i < j ∧ tm tr.segs j = some a.1 := by
        constructor
        · rintro ⟨_, p, d, k, htp, hp, hk, hmin⟩
          obtain ⟨j, hj⟩ := isPoint_iff.1 hp
          have h1 : a.1 ≤ p := (hfirst j _ hj).resolve_left (not_lt.2 htp.le)
          have h2 : p ≤ a.1 := (hmin a.1 a.2.dof (isPoint_iff.2 ⟨i, hpa.1⟩)).resolve_left (not_lt.2 hpa.2)
          have e : p = a.1 := le_antisymm h2 h1
          subst e
          refine ⟨htp, k, ?_, hk⟩
          by_contra hc
          have := mono_tm hinv.segs hinv.chain (not_lt.1 hc) hk hlast.1
          exact absurd htp (not_lt.2 (this.trans hle))
        · rintro ⟨hta, j, hij, hj⟩
          refine ⟨⟨t0, d0, isPoint_iff.2 ⟨i, pt_hd hhd0⟩, ?_⟩, a.1, a.2.dof, j, hta, isPoint_iff.2 ⟨i, hpa.1⟩, hj, ?_⟩
          · refine lt_of_le_of_ne hle ?_
            intro e
            rcases hfirst i _ (pt_hd hhd0) with h1 | h1
            · exact absurd e h1.ne
            · exact absurd hta (not_lt.2 (by rw [← e]; exact h1))
          · intro q e hq
            obtain ⟨k, hk⟩ := isPoint_iff.1 hq
            exact hfirst k _ hk
      rw [hbad]
      constructor
      · intro hsome
        obtain ⟨tr', htr'⟩ := Option.isSome_iff_exists.1 hsome
        obtain ⟨rfl, hI⟩ := inv_of_check
          (tr := ⟨forgotten tr.segs t i tr.segs[i], insertOrAssign (tr.map.drop (leit + 1)) a.1 i⟩) hsi (sorted_insertOrAssign hsorted _ _) htr'
        rintro ⟨hta, j, hij, hj⟩
        have h1 := (hI.canon.mem a.1 i).1 ((mem_insertOrAssign hsorted).2 (Or.inl rfl))
        apply h1.2 j hij
        simp only
        rw [htmgt j hij]
        exact hj
      · intro hnot
        have hI : Inv { segs := forgotten tr.segs t i tr.segs[i], map := insertOrAssign (tr.map.drop (leit + 1)) a.1 i } := by
          refine ⟨hsi, hch, canon_of (sorted_insertOrAssign hsorted _ _) ?_ ?_⟩
          · intro u j hm
            simp only
            rcases (mem_insertOrAssign hsorted).1 hm with e | ⟨h1, h2⟩
            · simp only [Prod.mk.injEq] at e
              rw [e.1, e.2, tm_of_hd hhda]; rfl
            · obtain ⟨h3, h4⟩ := (hmem u j).1 h1
              have hij : i < j := by
                by_contra hc
                have := mono_tm hinv.segs hinv.chain (not_lt.1 hc) h3.1 hlast.1
                exact absurd h4 (not_lt.2 (this.trans hle))
              rw [htmgt j hij]; exact h3.1
          · rintro u j ⟨h1, h2⟩
            simp only at h1 h2
            rw [mem_insertOrAssign hsorted]
            rcases Nat.lt_trichotomy j i with hj | hj | hj
            · exfalso
              -- Segments before `i` are empty or have a single point at `t`, where `i` starts too.
              obtain ⟨d, hhd⟩ := hd_of_tm h1
              have h3 := (pt_forgotten hinv.segs hgi j _).1 (pt_hd hhd)
              have h4 : u ≤ t := hpre j _ hj h3.1
              have h5 : u = t := le_antisymm h4 (h3.2 hj.le)
              have h6 := mono_tm hsi hch hj.le h1 (tm_of_hd hhda)
              have h7 := pt_mono hinv.segs hinv.chain hj h3.1 (pt_hd hhd0)
              have h8 : t0 = t := le_antisymm hle (by rw [← h5]; exact h7)
              have h9 := hd_forgotten_of_le hinv.segs (t := t) hgi hhd0 h8.ge
              apply h2 i hj
              rw [tm_of_hd h9, h5, h8]
            · subst hj
              left
              rw [tm_of_hd hhda] at h1
              simp only [Option.some.injEq] at h1
              rw [← h1]; rfl
            · right
              rw [htmgt j hj] at h1
              have h3 := hafter j u hj h1
              refine ⟨(hmem u j).2 ⟨⟨h1, ?_⟩, h3⟩, ?_⟩
              · intro k hk e
                apply h2 k hk
                rw [htmgt k (by omega)]; exact e
              · intro e
                simp only at e
                subst e
                exact hnot ⟨h3, j, hj, h1⟩
        have := check_of_inv hI
        unfold forgotten at this
        rw [this]
        rfl

/-! ## `DeleteSegments` -/

theorem getLast?_take {α : Type} {l : List α} {k : Nat} {a : α} (h : (l.take k).getLast? = some a) :
    l[(l.take k).length - 1]? = some a ∧ 0 < (l.take k).length := by
  have hne : l.take k ≠ [] := by intro e; simp [e] at h
  have hpos := List.length_pos_iff.2 hne
  rw [List.getLast?_eq_getElem?, List.getElem?_take] at h
  rw [List.length_take] at hpos ⊢
  rw [List.length_take] at h
  split at h
  · exact ⟨h, hpos⟩
  · simp at h

/-- `DeleteSegments`. -/
theorem deleteSegments_spec {tr : Trajectory T D H E} (hinv : Inv tr) (k : Nat) :
    ∃ tr', tr.deleteSegments k = some tr' ∧ Inv tr' ∧ tr'.segs = tr.segs.take k := by
  unfold Trajectory.deleteSegments
  simp only
  have hsi := segInv_take hinv.segs k
  have hch := chain_take hinv.chain k
  have hempty : (∀ i, tm (tr.segs.take k) i = none) → Inv { segs := tr.segs.take k, map := [] } := by
    intro hn
    refine ⟨hsi, hch, ⟨sorted_nil, ?_⟩⟩
    intro t i
    simp only [List.not_mem_nil, false_iff]
    rintro ⟨h1, _⟩
    rw [hn i] at h1
    simp at h1
  cases hl : (tr.segs.take k).getLast? with
  | none =>
    have he : tr.segs.take k = [] := by simpa using hl
    have hI := hempty (by rw [he]; simp [tm, hd])
    exact ⟨_, check_of_inv hI, hI, rfl⟩
  | some lastSegment =>
    simp only
    obtain ⟨hg0, hpos⟩ := getLast?_take hl
    have hg : (tr.segs.take k)[(tr.segs.take k).length - 1]? = some lastSegment := by rw [← List.getLast?_eq_getElem?]; exact hl
    generalize hn : (tr.segs.take k).length - 1 = n at *
    have hnk : n < k := by
      rw [List.length_take] at hn hpos
      omega
    have hlen : (tr.segs.take k).length = n + 1 := by omega
    cases hh : lastSegment.timeline.head? with
    | none =>
      simp only
      have he : lastSegment.timeline = [] := by simpa using hh
      have hI := hempty (by
        intro i
        cases htm : tm (tr.segs.take k) i with
        | none => rfl
        | some t =>
          obtain ⟨d, hhd⟩ := hd_of_tm htm
          obtain ⟨q, hq, _⟩ := mono_hd hsi hch (show i ≤ n by have := tm_lt_length htm; omega) (by omega) hhd
          rw [hd_of_getElem? hg, he] at hq
          simp at hq)
      exact ⟨_, check_of_inv hI, hI, rfl⟩
    | some a =>
      simp only
      have htmn : tm tr.segs n = some a.1 := by unfold tm; rw [hd_of_getElem? hg0, hh]; rfl
      have hsorted := sorted_insertOrAssign hinv.canon.sorted a.1 n
      have hI : Inv (⟨tr.segs.take k, (insertOrAssign tr.map a.1 n).take (upperBound (insertOrAssign tr.map a.1 n) a.1)⟩ :
          Trajectory T D H E) := by
        refine ⟨hsi, hch, canon_of (hsorted.sublist (List.take_sublist _ _)) ?_ ?_⟩
        · intro u j hm
          simp only
          rw [mem_take_upperBound hsorted, mem_insertOrAssign hinv.canon.sorted] at hm
          rcases hm with ⟨e | ⟨h1, h2⟩, h3⟩
          · simp only [Prod.mk.injEq] at e
            rw [e.1, e.2, tm_take, if_pos hnk]
            exact htmn
          · have h4 := ((hinv.canon.mem u j).1 h1).1
            have hjn : j < n := by
              by_contra hc
              have := mono_tm hinv.segs hinv.chain (not_lt.1 hc) htmn h4
              exact h2 (le_antisymm h3 this)
            rw [tm_take, if_pos (by omega)]
            exact h4
        · rintro u j ⟨h1, h2⟩
          simp only at h1 h2
          rw [mem_take_upperBound hsorted, mem_insertOrAssign hinv.canon.sorted]
          have hjl := tm_lt_length h1
          rw [tm_take, if_pos (by omega)] at h1
          rcases Nat.eq_or_lt_of_le (show j ≤ n by omega) with e | hjn
          · subst e
            rw [htmn] at h1
            simp only [Option.some.injEq] at h1
            rw [h1]
            exact ⟨Or.inl rfl, le_refl _⟩
          · have h3 := mono_tm hinv.segs hinv.chain hjn.le h1 htmn
            have hne : u ≠ a.1 := by
              intro e
              apply h2 n hjn
              rw [tm_take, if_pos hnk, e]
              exact htmn
            refine ⟨Or.inr ⟨?_, hne⟩, h3⟩
            rw [hinv.canon.mem]
            refine ⟨h1, ?_⟩
            intro m hm e
            by_cases hmn : m < n
            · apply h2 m hm
              rw [tm_take, if_pos (by omega)]; exact e
            · have := mono_tm hinv.segs hinv.chain (not_lt.1 hmn) htmn e
              exact hne (le_antisymm h3 this)
      exact ⟨_, check_of_inv hI, hI, rfl⟩

end Principia.DiscreteTrajectory
