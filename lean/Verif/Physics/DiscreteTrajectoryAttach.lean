import Verif.Physics.DiscreteTrajectoryMerge

/-!
# Every successful call of `AttachSegments`
-/

set_option linter.unusedSimpArgs false
set_option linter.unusedVariables false
set_option linter.unusedSectionVars false

namespace Principia.DiscreteTrajectory

open Principia.SortedMap

variable {T D H E : Type} [LinearOrder T] [DecidableEq D] [AddCommGroup E] [LinearOrder E]

theorem adjust_nil_spec {fromMap : List (T × Nat)} {dest : Trajectory T D H E} {b : Nat} {f : Nat → Nat}
    {r : Trajectory T D H E × Trajectory T D H E} (h : adjustAfterSplicing [] fromMap dest b f = some r) :
    ∃ front, frontFrom dest.segs b = some front ∧ r.2.segs = dest.segs ∧
      r.2.map = (fromMap.drop ((findSegment fromMap front.1).getD fromMap.length)).foldl (fun m e => insertOrAssign m e.1 (f e.2)) dest.map := by
  unfold adjustAfterSplicing at h
  cases hf : frontFrom dest.segs b with
  | none => simp [hf] at h
  | some front =>
    simp only [hf, Option.bind_eq_bind, Option.bind_some, Option.some.injEq] at h
    subst h
    exact ⟨front, rfl, rfl, rfl⟩

theorem prependPoint_segs {h : Hermite T D H E} {tj tj' : Trajectory T D H E} (hj : Inv tj) {t : T} {d : D} (hp : prependPoint h tj t d = some tj') :
    ∃ s s' rest leit map, tj.segs = s :: rest ∧ tj.map = leit :: map ∧ s.prepend h t d = some s' ∧ tj'.segs = s' :: rest ∧
      tj'.map = emplace map t leit.2 ∧ (∀ x ∈ tj'.segs, SegInv x) ∧ Sorted tj'.map := by
  unfold prependPoint at hp
  cases hs : tj.segs with
  | nil => simp [hs] at hp
  | cons s rest =>
    cases hm : tj.map with
    | nil => simp [hs, hm] at hp
    | cons leit map =>
      simp only [hs, hm, Option.bind_eq_bind] at hp
      cases hpr : s.prepend h t d with
      | none => simp [hpr] at hp
      | some s' =>
        simp only [hpr, Option.bind_some, Option.some.injEq] at hp
        subst hp
        have hsi := hj.segs s (by rw [hs]; exact List.mem_cons_self)
        have hsort := hj.canon.sorted
        rw [hm] at hsort
        refine ⟨s, s', rest, leit, map, rfl, rfl, hpr, rfl, rfl, ?_, sorted_emplace (List.pairwise_cons.1 hsort).2 _ _⟩
        intro x hx
        rcases List.mem_cons.1 hx with rfl | hx
        · exact (prepend_spec hsi hpr).1
        · exact hj.segs x (by rw [hs]; exact List.mem_cons_of_mem _ hx)

theorem attach_attachable {h : Hermite T D H E} {tr tj r : Trajectory T D H E} {n : Nat} (hinv : Inv tr) (hj : Inv tj)
    (ha : tr.attachSegments h tj = some (r, n)) : Attachable tr tj := by
  unfold Trajectory.attachSegments at ha
  cases hje : tj.isEmpty with
  | true => simp [hje] at ha
  | false =>
    refine ⟨hje, ?_⟩
    cases he : tr.isEmpty with
    | true => exact Or.inl rfl
    | false =>
      right
      obtain ⟨p, hp⟩ := back_isSome hinv he
      obtain ⟨f, hf⟩ := front_isSome hj hje
      have hpl := hp
      rw [back_eq_lst] at hpl
      have hn := lst_lt_length hpl
      simp only [hje, he, Bool.false_eq_true, if_false, hp, hf, Option.bind_eq_bind, Option.bind_some] at ha
      -- The junction.
      have hjunction : ∀ (tj' : Trajectory T D H E), (∀ x ∈ tj'.segs, SegInv x) →
          ((adjustAfterSplicing [] tj'.map { tr with segs := tr.segs ++ tj'.segs } tr.segs.length (fun i => i + tr.segs.length)).bind fun x =>
            (check x.2).bind fun tr' => some (tr', tr.segs.length)) = some (r, n) →
          Inv r ∧ r.segs = tr.segs ++ tj'.segs ∧ hd tj'.segs 0 = some p ∧ ∃ front, frontFrom (tr.segs ++ tj'.segs) tr.segs.length = some front ∧
            r.map = (tj'.map.drop ((findSegment tj'.map front.1).getD tj'.map.length)).foldl (fun m e => insertOrAssign m e.1 (e.2 + tr.segs.length)) tr.map := by
        intro tj' hsi hh
        cases hadj : adjustAfterSplicing [] tj'.map { tr with segs := tr.segs ++ tj'.segs } tr.segs.length (fun i => i + tr.segs.length) with
        | none => simp [hadj] at hh
        | some x =>
          obtain ⟨front, h1, h2, h3⟩ := adjust_nil_spec hadj
          simp only [hadj, Option.bind_some] at hh
          cases hck : check x.2 with
          | none => simp [hck] at hh
          | some y =>
            simp only [hck, Option.bind_some, Option.some.injEq, Prod.mk.injEq] at hh
            simp only at h1 h2 h3
            have hsx : ∀ s ∈ x.2.segs, SegInv s := by rw [h2]; exact segInv_appendList hinv.segs hsi
            have hmx : Sorted x.2.map := by rw [h3]; exact sorted_foldl_insertOrAssign hinv.canon.sorted _ (fun i => i + tr.segs.length)
            obtain ⟨e, hI⟩ := inv_of_check hsx hmx hck
            rw [hh.1] at hI e
            rw [← e] at h2 h3
            refine ⟨hI, h2, ?_, front, h1, h3⟩
            obtain ⟨m, hm, h4, _⟩ := frontFrom_some h1
            have hml := hd_lt_length h4
            have := hI.chain (tr.segs.length - 1) (by rw [h2]; omega) p (by rw [h2, lst_append, if_pos (by omega)]; exact hpl)
            rw [h2, show tr.segs.length - 1 + 1 = tr.segs.length by omega, hd_append, if_neg (lt_irrefl _), Nat.sub_self] at this
            exact this
      by_cases hpf : p.1 = f.1
      · rw [if_pos hpf] at ha
        by_cases hpf2 : p.2 = f.2
        · rw [if_pos hpf2] at ha
          obtain ⟨_, _, h0, _⟩ := hjunction tj hj.segs ha
          have : p = f := Prod.ext hpf hpf2
          exact ⟨p, p, hp, h0, Or.inl rfl⟩
        · rw [if_neg hpf2] at ha; simp at ha
      · rw [if_neg hpf] at ha
        by_cases hlt : p.1 < f.1
        · rw [if_pos hlt] at ha
          cases hpp : prependPoint h tj p.1 p.2 with
          | none => simp [hpp] at ha
          | some tj' =>
            simp only [hpp, Option.bind_some] at ha
            obtain ⟨s, s', rest, leit, map, hsegs, hmap, hpr, hsegs', hmap', hsi', hsort'⟩ := prependPoint_segs hj hpp
            obtain ⟨hI, hrs, h0, front, hfront, hrm⟩ := hjunction tj' hsi' ha
            -- The front is the prepended point.
            have hfp : front = p := by
              obtain ⟨m, hm, h4, h5⟩ := frontFrom_some hfront
              have hh : hd (tr.segs ++ tj'.segs) tr.segs.length = some p := by
                rw [hd_append, if_neg (lt_irrefl _), Nat.sub_self]; exact h0
              rcases Nat.eq_or_lt_of_le hm with e | hlt'
              · rw [← e, hh] at h4
                simpa using h4.symm
              · have := h5 _ (le_refl _) hlt'
                rw [hh] at this
                simp at this
            subst hfp
            have hlm := (hj.canon.mem leit.1 leit.2).1 (by rw [hmap]; exact List.mem_cons_self)
            -- The time of `leit`.
            have hlf : leit.1 = f.1 := by
              obtain ⟨⟨i, hi⟩, hmin⟩ := front_spec hj hf
              obtain ⟨d, hhd⟩ := hd_of_tm hlm.1
              have h1 := hmin _ _ (pt_hd hhd)
              obtain ⟨k, _, hk⟩ := exists_last (tm_of_hd hi)
              have hmem := (hj.canon.mem f.1 k).2 hk
              rw [hmap] at hmem
              rcases List.mem_cons.1 hmem with e | h2
              · rw [← e]
              · have hsort := hj.canon.sorted
                rw [hmap] at hsort
                exact absurd ((List.pairwise_cons.1 hsort).1 _ h2) (not_lt.2 h1)
            have hsort := hj.canon.sorted
            rw [hmap] at hsort
            have hgt : ∀ b ∈ map, front.1 < b.1 := fun b hb => hlt.trans (by rw [← hlf]; exact (List.pairwise_cons.1 hsort).1 b hb)
            -- The entry of the prepended point.
            have hent : (front.1, leit.2) ∈ tj'.map := by
              rw [hmap', mem_emplace]
              exact Or.inr ⟨rfl, fun b hb => (hgt b hb).ne'⟩
            have hmin : ∀ b ∈ tj'.map, front.1 ≤ b.1 := by
              intro b hb
              rw [hmap', mem_emplace] at hb
              rcases hb with hb | ⟨rfl, _⟩
              · exact (hgt b hb).le
              · exact le_refl _
            have hpos : (findSegment tj'.map front.1).getD tj'.map.length = 0 := by
              unfold findSegment
              have hu : 0 < upperBound tj'.map front.1 := by
                by_contra hc
                have := (upperBound_eq_zero hsort').1 (by omega : upperBound tj'.map front.1 = 0) _ hent
                exact lt_irrefl _ this
              have htake := take_upperBound hsort' front.1
              have hlen := congrArg List.length htake
              rw [List.length_take, Nat.min_eq_left (upperBound_le _ _)] at hlen
              have hone : (tj'.map.filter fun a => a.1 ≤ front.1).length ≤ 1 := by
                by_contra hc
                have hs2 : Sorted (tj'.map.filter fun a => a.1 ≤ front.1) := hsort'.filter _
                have h1 : ∀ b ∈ (tj'.map.filter fun a => a.1 ≤ front.1), b.1 = front.1 := by
                  intro b hb
                  obtain ⟨h1, h2⟩ := List.mem_filter.1 hb
                  exact le_antisymm (by simpa using h2) (hmin b h1)
                have := List.pairwise_iff_getElem.1 hs2 0 1 (by omega) (by omega) (by omega)
                rw [h1 _ (List.getElem_mem _), h1 _ (List.getElem_mem _)] at this
                exact lt_irrefl _ this
              have e1 : upperBound tj'.map front.1 = 1 := by omega
              simp [e1]
            rw [hpos, List.drop_zero] at hrm
            have hmemr : (front.1, leit.2 + tr.segs.length) ∈ r.map := by
              rw [hrm, mem_foldl_insertOrAssign hinv.canon.sorted hsort' (fun i => i + tr.segs.length)]
              exact Or.inl ⟨_, hent, rfl⟩
            have htm := ((hI.canon.mem _ _).1 hmemr).1
            rw [hrs, tm_append, if_neg (by omega), Nat.add_sub_cancel, hsegs'] at htm
            -- The first entry of the map of the attached trajectory is that of its first segment.
            have hz : leit.2 = 0 := by
              by_contra hne
              obtain ⟨k, hk⟩ := Nat.exists_eq_succ_of_ne_zero hne
              rw [hk] at htm
              have h1 := hlm.1
              rw [hk, hsegs, hlf] at h1
              have h2 : tm (s' :: rest) (k + 1) = tm (s :: rest) (k + 1) := rfl
              rw [Nat.succ_eq_add_one] at htm h1
              rw [h2, h1] at htm
              simp only [Option.some.injEq] at htm
              exact hpf htm.symm
            rw [hz, hlf] at hlm
            obtain ⟨d, hhd⟩ := hd_of_tm hlm.1
            have hff : hd tj.segs 0 = some f := by
              obtain ⟨⟨i, hi⟩, _⟩ := front_spec hj hf
              rw [hhd, pt_unique hj.segs hj.chain (pt_hd hhd) (pt_hd hi) rfl]
            exact ⟨front, f, hp, hff, Or.inr ⟨hlt, hlm.2 1 (by omega)⟩⟩
        · rw [if_neg hlt] at ha; simp at ha

/-- Every successful call of `AttachSegments`. -/
theorem attach_spec {h : Hermite T D H E} {tr tj r : Trajectory T D H E} {n : Nat} (hinv : Inv tr) (hj : Inv tj)
    (ha : tr.attachSegments h tj = some (r, n)) :
    Inv r ∧ n = (if tr.isEmpty then 0 else tr.segs.length) ∧ r.segs.length = n + tj.segs.length ∧
      (∀ t d, IsPoint r t d ↔ IsPoint tr t d ∨ IsPoint tj t d) ∧
      (∀ i s, i < n → tr.segs[i]? = some s → r.segs[i]? = some s) ∧
      (∀ i s, 0 < i → tj.segs[i]? = some s → r.segs[n + i]? = some s) ∧
      ∃ s s', tj.segs[0]? = some s ∧ r.segs[n]? = some s' ∧ (s' = s ∨ ∃ p, tr.back = some p ∧ s'.points = p :: s.points) := by
  obtain ⟨r', hr', hI, hcase⟩ := attachSegments_spec (h := h) hinv hj (attach_attachable hinv hj ha)
  rw [ha] at hr'
  simp only [Option.some.injEq, Prod.mk.injEq] at hr'
  obtain ⟨rfl, hn⟩ := hr'
  refine ⟨hI, hn, ?_⟩
  have hjne : tj.segs ≠ [] := by
    intro e
    have := (attach_attachable hinv hj ha).1
    rw [Bool.eq_false_iff, ne_eq, isEmpty_iff_tm hj.canon] at this
    apply this
    intro i
    simp [tm, hd, e]
  rcases hcase with ⟨he, rfl⟩ | ⟨he, ⟨p, hp, hh⟩, hs⟩ | ⟨he, p, f, s, s', rest, hp, hf, hlt, hs, hpr, hrs⟩
  · rw [he] at hn
    simp only [if_true] at hn
    subst hn
    have hno : ∀ t d, ¬ IsPoint tr t d := by
      intro t d hi
      obtain ⟨i, hi⟩ := isPoint_iff.1 hi
      obtain ⟨a, _, ha', _⟩ := pt_bounds hinv.segs hi
      have := (isEmpty_iff_tm hinv.canon).1 he i
      rw [tm_of_hd ha'] at this
      simp at this
    have hl : 0 < r.segs.length := List.length_pos_iff.2 hjne
    refine ⟨by simp, ?_, ?_, ?_, r.segs[0], r.segs[0], List.getElem?_eq_getElem hl, List.getElem?_eq_getElem hl, Or.inl rfl⟩
    · intro t d
      constructor
      · exact Or.inr
      · rintro (h1 | h1)
        · exact absurd h1 (hno t d)
        · exact h1
    · intro i s hi; omega
    · intro i s hi hg; rw [Nat.zero_add]; exact hg
  · rw [he] at hn
    simp only [Bool.false_eq_true, if_false] at hn
    subst hn
    have hl : 0 < tj.segs.length := List.length_pos_iff.2 hjne
    refine ⟨by rw [hs]; simp, ?_, ?_, ?_, tj.segs[0], tj.segs[0], List.getElem?_eq_getElem hl, ?_, Or.inl rfl⟩
    · intro t d
      unfold IsPoint
      rw [hs]
      simp only [List.mem_append, or_and_right, exists_or]
    · intro i s hi hg
      rw [hs, List.getElem?_append_left hi]; exact hg
    · intro i s hi hg
      rw [hs, List.getElem?_append_right (by omega), Nat.add_sub_cancel_left]; exact hg
    · rw [hs, List.getElem?_append_right (le_refl _), Nat.sub_self]; exact List.getElem?_eq_getElem hl
  · rw [he] at hn
    simp only [Bool.false_eq_true, if_false] at hn
    subst hn
    have hsi := hj.segs s (by rw [hs]; exact List.mem_cons_self)
    obtain ⟨_, hpts, _⟩ := prepend_spec hsi hpr
    refine ⟨by rw [hrs, hs]; simp, ?_, ?_, ?_, s, s', by rw [hs]; rfl, ?_, Or.inr ⟨p, hp, hpts⟩⟩
    · intro t d
      unfold IsPoint
      rw [hrs, hs]
      simp only [List.mem_append, List.mem_cons, or_and_right, exists_or, exists_eq_left, hpts]
      have hpin : ∀ q : T × D, q = p → ∃ x ∈ tr.segs, q ∈ x.points := by
        rintro q rfl
        rw [back_eq_lst] at hp
        obtain ⟨x, hx, hq⟩ := pt_lst hp
        exact ⟨x, List.mem_of_getElem? hx, hq⟩
      constructor
      · rintro (h1 | (h1 | h1) | h1)
        · exact Or.inl h1
        · exact Or.inl (hpin _ h1)
        · exact Or.inr (Or.inl h1)
        · exact Or.inr (Or.inr h1)
      · rintro (h1 | h1 | h1)
        · exact Or.inl h1
        · exact Or.inr (Or.inl (Or.inr h1))
        · exact Or.inr (Or.inr h1)
    · intro i s hi hg
      rw [hrs, List.getElem?_append_left hi]; exact hg
    · intro i x hi hg
      rw [hrs, List.getElem?_append_right (by omega), Nat.add_sub_cancel_left]
      rw [hs] at hg
      obtain ⟨k, rfl⟩ := Nat.exists_eq_succ_of_ne_zero (by omega : i ≠ 0)
      exact hg
    · rw [hrs, List.getElem?_append_right (le_refl _), Nat.sub_self]; rfl

/-- Detaching and attaching. -/
theorem detach_attach {h : Hermite T D H E} {tr a b : Trajectory T D H E} {k : Nat} (hinv : Inv tr) (hd' : tr.detachSegments k = some (a, b)) :
    (a.isEmpty = false → a.attachSegments h b = some (tr, k)) ∧
      (a.isEmpty = true → a.attachSegments h b = some (b, 0) ∧ ∀ t d, IsPoint b t d ↔ IsPoint tr t d) := by
  obtain ⟨m, p, hkm, hmp⟩ := detachSegments_isSome hd'
  obtain ⟨a', b', hab, ha, hb, has, hbs⟩ := detachSegments_spec hinv hkm hmp
  rw [hd'] at hab
  simp only [Option.some.injEq, Prod.mk.injEq] at hab
  obtain ⟨rfl, rfl⟩ := hab
  have hbne : b.isEmpty = false := by
    rw [Bool.eq_false_iff, ne_eq, isEmpty_iff_tm hb.canon]
    intro hn
    have := hn (m - k)
    rw [hbs, tm_drop, show k + (m - k) = m by omega, tm_of_hd hmp] at this
    simp at this
  have hml := hd_lt_length hmp
  have hlen : a.segs.length = k := by rw [has, List.length_take]; omega
  constructor
  · intro hae
    obtain ⟨q, hq⟩ := back_isSome ha hae
    have hq' := hq
    rw [back_eq_lst, hlen, has] at hq'
    have hk : 0 < k := by
      have := lst_lt_length hq'
      rw [← has, hlen] at this
      omega
    rw [lst_take, if_pos (by omega)] at hq'
    have hnext := hinv.chain (k - 1) (by omega) q hq'
    rw [show k - 1 + 1 = k by omega] at hnext
    have hf : hd b.segs 0 = some q := by rw [hbs, hd_drop, Nat.add_zero]; exact hnext
    obtain ⟨r, hr, hI, hcase⟩ := attachSegments_spec (h := h) ha hb ⟨hbne, Or.inr ⟨q, q, hq, hf, Or.inl rfl⟩⟩
    rw [hae] at hr hcase
    simp only [Bool.false_eq_true, if_false, hlen] at hr
    rcases hcase with ⟨he, _⟩ | ⟨_, _, hs⟩ | ⟨_, p', f, s, s', rest, hp', hf', hlt, _⟩
    · simp at he
    · have e : r.segs = tr.segs := by rw [hs, has, hbs, List.take_append_drop]
      have : r = tr := by
        obtain ⟨rs, rm⟩ := r
        obtain ⟨ts, tmap⟩ := tr
        have em := map_eq hI.canon hinv.canon e
        simp only at e em
        rw [e, em]
      rw [hr, this]
    · rw [hq] at hp'
      rw [hf] at hf'
      simp only [Option.some.injEq] at hp' hf'
      rw [← hp', ← hf'] at hlt
      exact absurd hlt (lt_irrefl _)
  · intro hae
    obtain ⟨r, hr, hI, hcase⟩ := attachSegments_spec (h := h) ha hb ⟨hbne, Or.inl hae⟩
    rw [hae] at hr hcase
    simp only [if_true] at hr
    rcases hcase with ⟨_, e⟩ | ⟨he, _⟩ | ⟨he, _⟩
    · rw [hr, e]
      refine ⟨rfl, ?_⟩
      intro t d
      unfold IsPoint
      rw [hbs]
      constructor
      · rintro ⟨s, h1, h2⟩
        exact ⟨s, List.mem_of_mem_drop h1, h2⟩
      · rintro ⟨s, h1, h2⟩
        rw [← List.take_append_drop k tr.segs, List.mem_append] at h1
        rcases h1 with h1 | h1
        · exfalso
          rw [← has] at h1
          obtain ⟨i, hi⟩ := List.mem_iff_getElem?.1 h1
          have := tm_eq_none_iff_getElem.1 ((isEmpty_iff_tm ha.canon).1 hae i) s hi
          unfold Seg.points at h2
          rw [this] at h2
          simp at h2
        · exact ⟨s, h1, h2⟩
    · simp at he
    · simp at he

theorem inv_set_same {tr : Trajectory T D H E} (hinv : Inv tr) {k : Nat} {s s' : Seg T D H E} (hg : tr.segs[k]? = some s) (h1 : SegInv s')
    (h2 : s'.timeline = s.timeline) : Inv { tr with segs := tr.segs.set k s' } ∧ (tr.segs.set k s').map Seg.points = tr.segs.map Seg.points := by
  have hk := (List.getElem?_eq_some_iff.1 hg).1
  have hhd : ∀ i, hd (tr.segs.set k s') i = hd tr.segs i := by
    intro i
    rw [hd_set]
    split
    · rename_i e
      subst e
      rw [hd_of_getElem? hg, h2]
    · rfl
  have hlst : ∀ i, lst (tr.segs.set k s') i = lst tr.segs i := by
    intro i
    rw [lst_set]
    split
    · rename_i e
      subst e
      rw [lst_of_getElem? hg, h2]
    · rfl
  refine ⟨⟨segInv_set hinv.segs k h1, ?_, canon_congr hinv.canon rfl (fun i => by unfold tm; rw [hhd])⟩, ?_⟩
  · intro i hi p hp
    simp only at hi hp ⊢
    rw [hhd]
    rw [hlst] at hp
    exact hinv.chain i (by simpa using hi) p hp
  · rw [List.map_set]
    have : s'.points = s.points := by unfold Seg.points; rw [h2]
    rw [this]
    apply List.ext_getElem?
    intro i
    rw [List.getElem?_set]
    split
    · rename_i e
      subst e
      simp [hk, hg]
      rw [List.getElem?_eq_getElem hk] at hg
      simpa using congrArg Seg.points (Option.some.inj hg).symm
    · rfl

/-- Downsampling does not change the points. -/
theorem setDownsampling_spec {tr tr' : Trajectory T D H E} (hinv : Inv tr) {k : Nat} {e : E} (hs : tr.setDownsampling k e = some tr') :
    Inv tr' ∧ tr'.segs.map Seg.points = tr.segs.map Seg.points := by
  unfold Trajectory.setDownsampling at hs
  cases hg : tr.segs[k]? with
  | none => simp [hg] at hs
  | some s =>
    simp only [hg, Option.bind_eq_bind, Option.bind_some] at hs
    cases hd' : s.setDownsampling e with
    | none => simp [hd'] at hs
    | some s' =>
      simp only [hd', Option.bind_some, Option.some.injEq] at hs
      subst hs
      obtain ⟨h1, h2⟩ := segInv_setDownsampling (hinv.segs s (List.mem_of_getElem? hg)) hd'
      exact inv_set_same hinv hg h1 h2
theorem clearDownsampling_spec {tr tr' : Trajectory T D H E} (hinv : Inv tr) {k : Nat} (hs : tr.clearDownsampling k = some tr') :
    Inv tr' ∧ tr'.segs.map Seg.points = tr.segs.map Seg.points := by
  unfold Trajectory.clearDownsampling at hs
  cases hg : tr.segs[k]? with
  | none => simp [hg] at hs
  | some s =>
    simp only [hg, Option.bind_eq_bind, Option.bind_some, Option.some.injEq] at hs
    subst hs
    exact inv_set_same hinv hg (segInv_clearDownsampling (hinv.segs s (List.mem_of_getElem? hg))) rfl

end Principia.DiscreteTrajectory
