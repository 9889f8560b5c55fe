import Verif.Physics.DownsamplingModel
import Verif.Physics.DiscreteTrajectorySegmentLemmas
import Verif.Numerics.Hermite3Props

set_option linter.unusedSimpArgs false
set_option linter.unusedVariables false
set_option linter.unusedSectionVars false

/-!
# Lemmas on the downsampling of segments
-/

namespace Principia.DiscreteTrajectory

open Principia.Hermite3 Principia.Polynomial Principia.SortedMap

variable {V : Type} [NormedAddCommGroup V] [InnerProductSpace ℝ V]

noncomputable local instance : DecidableEq (V × V) := Classical.decEq _

/-- `H` is the interpolation between two points. -/
def Interpolates (a b : ℝ × (V × V)) (H : Hermite3 V) : Prop :=
  Hermite3.make (a.1, b.1) (a.2.1, b.2.1) (a.2.2, b.2.2) = some H

/-- The construction of the interpolation does not fail. -/
theorem hermite_make {a b : ℝ × (V × V)} (h : a.1 ≠ b.1) : Interpolates a b (hermite.make a b) := by
  obtain ⟨H, e, _⟩ := make_eq a.1 b.1 a.2.1 b.2.1 a.2.2 b.2.2 h
  unfold Interpolates
  show _ = some ((Hermite3.make (a.1, b.1) (a.2.1, b.2.1) (a.2.2, b.2.2)).getD _)
  rw [e]; rfl

theorem interpolates_left {a b : ℝ × (V × V)} {H : Hermite3 V} (h : a.1 ≠ b.1) (hi : Interpolates a b H) : H.eval a.1 = a.2.1 := by
  obtain ⟨H', e, h1, _⟩ := C26_interpolates a.1 b.1 a.2.1 b.2.1 a.2.2 b.2.2 h
  unfold Interpolates at hi
  rw [e] at hi
  simp only [Option.some.injEq] at hi
  subst hi
  exact h1

theorem interpolates_right {a b : ℝ × (V × V)} {H : Hermite3 V} (h : a.1 ≠ b.1) (hi : Interpolates a b H) : H.eval b.1 = b.2.1 := by
  obtain ⟨H', e, _, h1, _⟩ := C26_interpolates a.1 b.1 a.2.1 b.2.1 a.2.2 b.2.2 h
  unfold Interpolates at hi
  rw [e] at hi
  simp only [Option.some.injEq] at hi
  subst hi
  exact h1

/-- The computation of the error does not fail, and it bounds the distance of the interpolations. -/
theorem hermite_distance {a b c : ℝ × (V × V)} {H H' : Hermite3 V} (hab : a.1 < b.1) (hbc : b.1 ≤ c.1) (hi : Interpolates a b H)
    (hi' : Interpolates a c H') :
    ∃ d, H'.sub H = some d ∧ d.norm = some (hermite.distance H' H) ∧
      IsGreatest ((fun t => ‖H'.eval t - H.eval t‖) '' Set.Icc a.1 b.1) (hermite.distance H' H) := by
  have hac := hab.trans_le hbc
  obtain ⟨G, e, l, u, o, dg, _⟩ := make_eq a.1 b.1 a.2.1 b.2.1 a.2.2 b.2.2 hab.ne
  obtain ⟨G', e', l', u', o', dg', _⟩ := make_eq a.1 c.1 a.2.1 c.2.1 a.2.2 c.2.2 hac.ne
  obtain ⟨K, k, k1, k2, k3, k4⟩ := C26_interpolates a.1 b.1 a.2.1 b.2.1 a.2.2 b.2.2 hab.ne
  obtain ⟨K', k', k1', k2', k3', k4'⟩ := C26_interpolates a.1 c.1 a.2.1 c.2.1 a.2.2 c.2.2 hac.ne
  unfold Interpolates at hi hi'
  rw [hi] at e k
  rw [hi'] at e' k'
  simp only [Option.some.injEq] at e k e' k'
  subst e; subst k; subst e'; subst k'
  obtain ⟨d, hd, dl, du, dv, dd, dori, ddeg⟩ := C26_difference H' H (by rw [l, l']) (by rw [o', l']) (by rw [o, l])
  have hev : d.eval = fun t => H'.eval t - H.eval t := funext dv
  have dlo : d.lower = a.1 := by rw [dl, l']
  have dup : d.upper = b.1 := by rw [du, u, u']; exact min_eq_right hbc
  obtain ⟨m, hm, hg⟩ := C26_norm d (by rw [ddeg, dg, dg']; rfl) dori (by rw [dlo, dv, k1, k1', sub_self])
    (by
      rw [hev, dlo]
      have := k3'.sub k3
      rw [sub_self] at this
      exact this) (by rw [dlo, dup]; exact hab.le)
  have hdist : hermite.distance H' H = m := by
    show ((H'.sub H).bind Hermite3.norm).getD 0 = m
    rw [hd, Option.bind_some, hm]; rfl
  refine ⟨d, hd, by rw [hdist]; exact hm, ?_⟩
  rw [hdist]
  rw [hev, dlo, dup] at hg
  exact hg

/-- The interpolation between consecutive elements of the timeline is close to the remembered points `G`. -/
def Close (G : List (ℝ × (V × V))) (τ : Option ℝ) (a b : ℝ × Val (V × V) (Hermite3 V) ℝ) : Prop :=
  ∃ i, b.2.interpolation = some i ∧ Interpolates (point a) (point b) i.hermite ∧ 0 ≤ i.error ∧
    (i.error = 0 ∨ ∃ x, τ = some x ∧ i.error < x) ∧
    ∀ p ∈ G, a.1 ≤ p.1 → p.1 ≤ b.1 → ‖i.hermite.eval p.1 - p.2.1‖ ≤ i.error

theorem Close.mono {G G' : List (ℝ × (V × V))} {τ : Option ℝ} {a b : ℝ × Val (V × V) (Hermite3 V) ℝ} (h : Close G τ a b)
    (hG : ∀ p ∈ G', p ∈ G ∨ p.1 < a.1 ∨ b.1 < p.1) : Close G' τ a b := by
  obtain ⟨i, h1, h2, h3, h4, h5⟩ := h
  refine ⟨i, h1, h2, h3, h4, fun p hp ha hb => ?_⟩
  rcases hG p hp with h | h | h
  · exact h5 p h ha hb
  · exact absurd ha (not_le.2 h)
  · exact absurd hb (not_le.2 h)

/-- The invariant of a segment, where `G` are the remembered points and `τ` is the last tolerance that was set. -/
structure DInv (s : Segment V) (G : List (ℝ × (V × V))) (τ : Option ℝ) : Prop where
  seg : SegInv s
  chain : s.timeline.IsChain (Close G τ)
  exact_ : ∀ p ∈ G, ∀ a ∈ s.timeline, a.1 = p.1 → a.2.dof = p.2
  range : ∀ p ∈ G, (∃ a ∈ s.timeline, a.1 ≤ p.1) ∧ ∃ a ∈ s.timeline, p.1 ≤ a.1
  nonneg : 0 ≤ s.error
  err : ∀ b, s.timeline.getLast? = some b → ∀ i, b.2.interpolation = some i → i.error ≤ s.error
  tol : s.tolerance = none ∨ s.tolerance = τ

theorem DInv.filter {s : Segment V} {G G' : List (ℝ × (V × V))} {τ : Option ℝ} (h : DInv s G τ) (hG : ∀ p ∈ G', p ∈ G) : DInv s G' τ where
  seg := h.seg
  chain := h.chain.imp fun a b hab => hab.mono fun p hp => .inl (hG p hp)
  exact_ p hp := h.exact_ p (hG p hp)
  range p hp := h.range p (hG p hp)
  nonneg := h.nonneg
  err := h.err
  tol := h.tol

theorem dinv_new : DInv (Seg.new : Segment V) [] none where
  seg := segInv_new
  chain := List.isChain_nil
  exact_ := by simp
  range := by simp
  nonneg := le_refl _
  err := by simp [Seg.new]
  tol := .inl rfl

theorem dinv_clear (s : Segment V) (τ : Option ℝ) : DInv s.clear [] τ where
  seg := segInv_clear s
  chain := List.isChain_nil
  exact_ := by simp
  range := by simp
  nonneg := le_refl _
  err := by simp [Seg.clear]
  tol := .inl rfl

theorem dinv_clearDownsampling {s : Segment V} {G : List (ℝ × (V × V))} {τ : Option ℝ} (h : DInv s G τ) : DInv s.clearDownsampling G τ where
  seg := segInv_clearDownsampling h.seg
  chain := h.chain
  exact_ := h.exact_
  range := h.range
  nonneg := h.nonneg
  err := h.err
  tol := .inl rfl

theorem dinv_setDownsampling {s s' : Segment V} {G : List (ℝ × (V × V))} {τ : Option ℝ} (h : DInv s G τ) {x : ℝ}
    (hs : s.setDownsampling x = some s') : DInv s' G (some x) := by
  have hseg := (segInv_setDownsampling h.seg hs).1
  unfold Seg.setDownsampling at hs
  split at hs
  · rename_i hlen
    simp only [Option.some.injEq] at hs
    subst hs
    refine ⟨hseg, ?_, h.exact_, h.range, le_refl _, ?_, .inr rfl⟩
    · show List.IsChain _ s.timeline
      match htl : s.timeline with
      | [] => exact List.isChain_nil
      | [a] => exact List.isChain_singleton a
      | a :: b :: l => rw [htl] at hlen; simp at hlen
    · intro b hb i hi
      have hb' : s.timeline.getLast? = some b := hb
      match htl : s.timeline with
      | [] => rw [htl] at hb'; simp at hb'
      | [a] =>
        rw [htl] at hb'
        simp at hb'
        subst hb'
        have := h.seg.interpolations 0 a (by rw [htl]; rfl)
        simp [hi] at this
      | a :: b :: l => rw [htl] at hlen; simp at hlen
  · simp at hs

theorem close_new {G : List (ℝ × (V × V))} {τ : Option ℝ} {a b : ℝ × Val (V × V) (Hermite3 V) ℝ} (hab : a.1 < b.1)
    (hi : b.2.interpolation = some { hermite := hermite.make (point a) (point b), error := 0 })
    (hG : ∀ p ∈ G, a.1 ≤ p.1 → p.1 ≤ b.1 → p = point a ∨ p = point b) : Close G τ a b := by
  have hint : Interpolates (point a) (point b) (hermite.make (point a) (point b)) := hermite_make hab.ne
  refine ⟨_, hi, hint, le_refl _, .inl rfl, fun p hp h1 h2 => ?_⟩
  rcases hG p hp h1 h2 with rfl | rfl
  · rw [interpolates_left hab.ne hint, sub_self, norm_zero]
  · rw [interpolates_right hab.ne hint, sub_self, norm_zero]

/-- `Append` remembers the point, unless it is ignored. -/
theorem dinv_append {s s' : Segment V} {G : List (ℝ × (V × V))} {τ : Option ℝ} (h : DInv s G τ) {t : ℝ} {d : V × V}
    (hs : s.append hermite t d = some s') :
    ((∃ a, s.timeline.head? = some a ∧ a.1 = t) ∧ s' = s) ∨
      (¬ (∃ a, s.timeline.head? = some a ∧ a.1 = t) ∧ DInv s' (G ++ [(t, d)]) τ) := by
  have hseg := segInv_append h.seg hs
  have hres := append_result hs
  have nohead : ∀ {last}, s.timeline.getLast? = some last → last.1 < t → ¬ (∃ a, s.timeline.head? = some a ∧ a.1 = t) := by
    rintro last hl hlt ⟨a, ha, e⟩
    have := getLast?_max h.seg.sorted hl a (List.mem_of_mem_head? ha)
    rw [e] at this
    exact absurd hlt (not_lt.2 this)
  have before : ∀ {last}, s.timeline.getLast? = some last → last.1 < t → ∀ p ∈ G, p.1 ≤ last.1 := by
    intro last hl hlt p hp
    obtain ⟨_, a, ha, hle⟩ := h.range p hp
    exact hle.trans (getLast?_max h.seg.sorted hl a ha)
  cases hres with
  | ignored a ha e => exact .inl ⟨⟨a, ha, e⟩, rfl⟩
  | first he =>
    refine .inr ⟨by simp [he], hseg, List.isChain_singleton _, ?_, ?_, h.nonneg, by simp, h.tol⟩
    · intro p hp a ha e
      have hG : G = [] := by
        rw [List.eq_nil_iff_forall_not_mem]
        intro p hp
        obtain ⟨⟨a, ha, _⟩, _⟩ := h.range p hp
        rw [he] at ha; simp at ha
      rw [hG] at hp
      simp at hp ha
      subst hp; subst ha
      rfl
    · intro p hp
      have hG : G = [] := by
        rw [List.eq_nil_iff_forall_not_mem]
        intro p hp
        obtain ⟨⟨a, ha, _⟩, _⟩ := h.range p hp
        rw [he] at ha; simp at ha
      rw [hG] at hp
      simp at hp
      subst hp
      simp
  | pushed last hl hlt hd =>
    refine .inr ⟨nohead hl hlt, hseg, ?_, ?_, ?_, le_refl _, ?_, h.tol⟩
    · show List.IsChain _ (s.timeline ++ [_])
      rw [List.isChain_append]
      refine ⟨?_, List.isChain_singleton _, ?_⟩
      · refine h.chain.imp_of_mem_imp fun a b ha hb hab => hab.mono fun p hp => ?_
        rcases List.mem_append.1 hp with hp | hp
        · exact .inl hp
        · right; right
          simp at hp; subst hp
          exact (getLast?_max h.seg.sorted hl b hb).trans_lt hlt
      · intro x hx y hy
        rw [hl] at hx
        simp at hx hy
        subst hx; subst hy
        refine close_new hlt rfl ?_
        intro p hp h1 h2
        rcases List.mem_append.1 hp with hp | hp
        · left
          have e : last.1 = p.1 := le_antisymm h1 (before hl hlt p hp)
          have := h.exact_ p hp last (List.mem_of_mem_getLast? hl) e
          exact Prod.ext e.symm this.symm
        · right
          simp at hp; subst hp; rfl
    · intro p hp a ha e
      rcases List.mem_append.1 ha with ha | ha
      · rcases List.mem_append.1 hp with hp | hp
        · exact h.exact_ p hp a ha e
        · simp at hp; subst hp
          have := getLast?_max h.seg.sorted hl a ha
          rw [e] at this
          exact absurd hlt (not_lt.2 this)
      · simp at ha; subst ha
        rcases List.mem_append.1 hp with hp | hp
        · have := before hl hlt p hp
          rw [← e] at this
          exact absurd hlt (not_lt.2 this)
        · simp at hp; subst hp; rfl
    · intro p hp
      show (∃ a ∈ s.timeline ++ [_], _) ∧ ∃ a ∈ s.timeline ++ [_], _
      rcases List.mem_append.1 hp with hp | hp
      · obtain ⟨⟨a, ha, h1⟩, ⟨b, hb, h2⟩⟩ := h.range p hp
        exact ⟨⟨a, List.mem_append_left _ ha, h1⟩, ⟨b, List.mem_append_left _ hb, h2⟩⟩
      · simp at hp; subst hp
        exact ⟨⟨_, List.mem_append_right _ (List.mem_singleton.2 rfl), le_refl _⟩,
          ⟨_, List.mem_append_right _ (List.mem_singleton.2 rfl), le_refl _⟩⟩
    · intro b hb i hi
      have : (s.push hermite last t d).timeline.getLast? =
          some (t, { dof := d, interpolation := some { hermite := hermite.make (point last) (t, d), error := 0 } }) := by
        simp [Seg.push]
      rw [this] at hb
      simp only [Option.some.injEq] at hb
      subst hb
      simp only [Option.some.injEq] at hi
      subst hi
      exact le_refl _
  | replaced last lower tolerance i hl hlt htol hlower hi herr =>
    obtain ⟨ys, hys⟩ := List.getLast?_eq_some_iff.1 hl
    have hdrop : s.timeline.dropLast = ys := by rw [hys]; simp
    rw [hdrop] at hlower hseg ⊢
    obtain ⟨zs, hzs⟩ := List.getLast?_eq_some_iff.1 hlower
    have hsort := h.seg.sorted
    have hchain := h.chain
    rw [hys, List.isChain_append] at hchain
    obtain ⟨hc1, _, hc2⟩ := hchain
    obtain ⟨i', hi', hint, hnn, hbound, hclose⟩ := hc2 lower (by rw [hlower]; rfl) last (by simp)
    rw [hi] at hi'
    simp only [Option.some.injEq] at hi'
    subst hi'
    have hll : lower.1 < last.1 := by
      rw [hys] at hsort
      exact (List.pairwise_append.1 hsort).2.2 lower (by rw [hzs]; simp) last (by simp)
    have hle := h.err last hl i hi
    have hnew : Interpolates (point lower) (t, d) (hermite.make (point lower) (t, d)) := hermite_make (hll.trans hlt).ne
    obtain ⟨dd, _, _, hgr⟩ := hermite_distance (show (point lower).1 < (point last).1 from hll) (show (point last).1 ≤ (t, d).1 from hlt.le)
      hint hnew
    have hdist0 : 0 ≤ hermite.distance (hermite.make (point lower) (t, d)) i.hermite := by
      obtain ⟨x, hx, e⟩ := hgr.1
      rw [← e]; exact norm_nonneg _
    have lt_of_mem : ∀ a ∈ ys, a.1 < t := fun a ha =>
      (getLast?_max h.seg.sorted hl a (by rw [hys]; exact List.mem_append_left _ ha)).trans_lt hlt
    refine .inr ⟨nohead hl hlt, hseg, ?_, ?_, ?_, by show 0 ≤ s.error + _; linarith [h.nonneg], ?_, h.tol⟩
    · show List.IsChain _ (ys ++ [_])
      rw [List.isChain_append]
      refine ⟨?_, List.isChain_singleton _, ?_⟩
      · refine hc1.imp_of_mem_imp fun a b ha hb hab => hab.mono fun p hp => ?_
        rcases List.mem_append.1 hp with hp | hp
        · exact .inl hp
        · right; right
          simp at hp; subst hp
          exact lt_of_mem b hb
      · intro x hx y hy
        rw [hlower] at hx
        simp at hx hy
        subst hx; subst hy
        refine ⟨_, rfl, hnew, by show 0 ≤ s.error + _; linarith [h.nonneg], .inr ⟨tolerance, ?_, herr⟩, ?_⟩
        · rcases h.tol with ht | ht
          · rw [htol] at ht; simp at ht
          · rw [← ht, htol]
        · intro p hp h1 h2
          rcases List.mem_append.1 hp with hp | hp
          · have hpl := before hl hlt p hp
            have hc := hclose p hp h1 hpl
            have hd := hgr.2 ⟨p.1, ⟨h1, hpl⟩, rfl⟩
            simp only at hd ⊢
            calc _ = ‖((hermite.make (point lower) (t, d)).eval p.1 - i.hermite.eval p.1) + (i.hermite.eval p.1 - p.2.1)‖ := by
                  congr 1; abel
              _ ≤ _ := norm_add_le _ _
              _ ≤ _ := by linarith
          · simp at hp; subst hp
            rw [interpolates_right (hll.trans hlt).ne hnew, sub_self, norm_zero]
            show 0 ≤ s.error + _; linarith [h.nonneg]
    · intro p hp a ha e
      rcases List.mem_append.1 ha with ha | ha
      · rcases List.mem_append.1 hp with hp | hp
        · exact h.exact_ p hp a (by rw [hys]; exact List.mem_append_left _ ha) e
        · simp at hp; subst hp
          exact absurd e (lt_of_mem a ha).ne
      · simp at ha; subst ha
        rcases List.mem_append.1 hp with hp | hp
        · have := before hl hlt p hp
          rw [← e] at this
          exact absurd hlt (not_lt.2 this)
        · simp at hp; subst hp; rfl
    · intro p hp
      show (∃ a ∈ ys ++ [_], _) ∧ ∃ a ∈ ys ++ [_], _
      have hy : ys ≠ [] := by rw [hzs]; simp
      rcases List.mem_append.1 hp with hp | hp
      · refine ⟨?_, ⟨_, List.mem_append_right _ (List.mem_singleton.2 rfl), (before hl hlt p hp).trans hlt.le⟩⟩
        obtain ⟨⟨a, ha, h1⟩, _⟩ := h.range p hp
        rw [hys] at ha
        rcases List.mem_append.1 ha with ha | ha
        · exact ⟨a, List.mem_append_left _ ha, h1⟩
        · simp at ha; subst ha
          exact ⟨lower, List.mem_append_left _ (by rw [hzs]; simp), hll.le.trans h1⟩
      · simp at hp; subst hp
        exact ⟨⟨_, List.mem_append_right _ (List.mem_singleton.2 rfl), le_refl _⟩,
          ⟨_, List.mem_append_right _ (List.mem_singleton.2 rfl), le_refl _⟩⟩
    · intro b hb i hi
      simp at hb
      subst hb
      simp only [Option.some.injEq] at hi
      subst hi
      exact le_refl _

/-- `Prepend` remembers the point. -/
theorem dinv_prepend {s s' : Segment V} {G : List (ℝ × (V × V))} {τ : Option ℝ} (h : DInv s G τ) {t : ℝ} {d : V × V}
    (hs : s.prepend hermite t d = some s') : DInv s' (G ++ [(t, d)]) τ := by
  obtain ⟨hseg, hpts, hlt, htol, herr⟩ := prepend_spec h.seg hs
  have hlt' : ∀ a ∈ s.timeline, t < a.1 := fun a ha => hlt (point a) (List.mem_map_of_mem ha)
  have after : ∀ p ∈ G, t < p.1 := fun p hp => by
    obtain ⟨⟨a, ha, h1⟩, _⟩ := h.range p hp
    exact (hlt' a ha).trans_le h1
  unfold Seg.prepend at hs
  cases htl : s.timeline with
  | nil =>
    simp only [htl, Option.some.injEq] at hs
    subst hs
    have hG : G = [] := by
      rw [List.eq_nil_iff_forall_not_mem]
      intro p hp
      obtain ⟨⟨a, ha, _⟩, _⟩ := h.range p hp
      rw [htl] at ha; simp at ha
    subst hG
    refine ⟨hseg, List.isChain_singleton _, by simp, by simp, h.nonneg, by simp, h.tol⟩
  | cons a l =>
    simp only [htl] at hs
    have hta : t < a.1 := hlt' a (by rw [htl]; simp)
    have hna : a.2.interpolation = none := by
      have := h.seg.interpolations 0 a (by rw [htl]; rfl)
      simpa using this
    rw [if_pos hta] at hs
    simp only [createInterpolation, updateInterpolation, List.getElem?_cons_succ, List.getElem?_cons_zero, hna, Option.isSome_none,
      Bool.false_eq_true, if_false, Nat.sub_self, one_ne_zero, List.set_cons_succ, List.set_cons_zero, Option.bind_eq_bind, Option.bind_some,
      Option.some.injEq] at hs
    subst hs
    have hchain := h.chain
    rw [htl] at hchain
    refine ⟨hseg, ?_, ?_, ?_, h.nonneg, ?_, h.tol⟩
    · show List.IsChain _ (_ :: _ :: l)
      rw [List.isChain_cons]
      constructor
      · intro y hy
        simp at hy
        subst hy
        refine close_new hta rfl ?_
        intro p hp h1 h2
        rcases List.mem_append.1 hp with hp | hp
        · right
          obtain ⟨⟨b, hb, h3⟩, _⟩ := h.range p hp
          have hab : a.1 ≤ b.1 := head?_min h.seg.sorted (by rw [htl]; rfl) b hb
          have e : a.1 = p.1 := le_antisymm (hab.trans h3) h2
          have := h.exact_ p hp a (by rw [htl]; simp) e
          exact Prod.ext e.symm this.symm
        · left
          simp at hp; subst hp; rfl
      · have hmono : (a :: l).IsChain (Close (G ++ [(t, d)]) τ) := by
          refine hchain.imp_of_mem_imp fun x y hx hy hxy => hxy.mono fun p hp => ?_
          rcases List.mem_append.1 hp with hp | hp
          · exact .inl hp
          · right; left
            simp at hp; subst hp
            exact hlt' x (by rw [htl]; exact hx)
        refine List.IsChain.imp_head (x := a) ?_ hmono
        intro z hz
        exact hz
    · intro p hp b hb e
      simp only [List.mem_cons] at hb
      rcases List.mem_append.1 hp with hp | hp
      · rcases hb with rfl | rfl | hb
        · exact absurd e (after p hp).ne
        · exact h.exact_ p hp a (by rw [htl]; simp) e
        · exact h.exact_ p hp b (by rw [htl]; simp [hb]) e
      · simp at hp; subst hp
        rcases hb with rfl | rfl | hb
        · rfl
        · exact absurd e hta.ne'
        · exact absurd e (hlt' b (by rw [htl]; simp [hb])).ne'
    · intro p hp
      rcases List.mem_append.1 hp with hp | hp
      · obtain ⟨_, b, hb, h2⟩ := h.range p hp
        refine ⟨⟨_, by simp only [List.mem_cons]; exact .inl rfl, (after p hp).le⟩, ?_⟩
        rw [htl] at hb
        rcases List.mem_cons.1 hb with rfl | hb
        · exact ⟨_, List.mem_cons_of_mem _ List.mem_cons_self, h2⟩
        · exact ⟨b, by simp [hb], h2⟩
      · simp at hp; subst hp
        exact ⟨⟨_, by simp only [List.mem_cons]; exact .inl rfl, le_refl _⟩, ⟨_, by simp only [List.mem_cons]; exact .inl rfl, le_refl _⟩⟩
    · intro b hb i hi
      cases hl : l.getLast? with
      | none =>
        have : l = [] := by simpa using hl
        subst this
        simp at hb
        subst hb
        simp only [Option.some.injEq] at hi
        subst hi
        exact h.nonneg
      | some c =>
        have hne : l ≠ [] := by rintro rfl; simp at hl
        simp only [List.getLast?_cons_of_ne_nil, ne_eq, hne, not_false_eq_true, List.cons_ne_nil] at hb
        refine h.err b ?_ i hi
        rw [htl]
        simp only [List.getLast?_cons_of_ne_nil, ne_eq, hne, not_false_eq_true]
        exact hb

theorem take_last {α : Type} {l : List α} {n : Nat} {b : α} (h : (l.take n).getLast? = some b) : b ∈ l :=
  List.mem_of_mem_take (List.mem_of_mem_getLast? h)

/-- `ForgetAfter` remembers the points that are before the last one. -/
theorem dinv_forgetAfter {s : Segment V} {G G' : List (ℝ × (V × V))} {τ : Option ℝ} (h : DInv s G τ) (t : ℝ) (hG : ∀ p ∈ G', p ∈ G)
    (hr : ∀ p ∈ G', (∃ a ∈ (s.forgetAfter t).timeline, a.1 ≤ p.1) ∧ ∃ a ∈ (s.forgetAfter t).timeline, p.1 ≤ a.1) :
    DInv (s.forgetAfter t) G' τ := by
  have h' := h.filter hG
  refine ⟨segInv_forgetAfter h.seg t, h'.chain.take _, fun p hp a ha => h'.exact_ p hp a (List.mem_of_mem_take ha), hr, ?_, ?_, h.tol⟩
  · unfold Seg.forgetAfter
    simp only
    split
    · exact le_refl _
    · rename_i last hl
      split
      · exact le_refl _
      · rename_i i hi
        -- The last element has a predecessor.
        obtain ⟨ys, hys⟩ := List.getLast?_eq_some_iff.1 hl
        have hch := h.chain.take (lowerBound s.timeline t)
        rw [hys, List.isChain_append] at hch
        cases hy : ys.getLast? with
        | none =>
          have : ys = [] := by simpa using hy
          subst this
          have h0 := (segInv_forgetAfter h.seg t).interpolations 0 last (by
            show (s.timeline.take (lowerBound s.timeline t))[0]? = _
            rw [hys]; rfl)
          simp [hi] at h0
        | some y =>
          obtain ⟨i', hi', _, h0, _⟩ := hch.2.2 y (by rw [hy]; rfl) last (by simp)
          rw [hi] at hi'
          simp only [Option.some.injEq] at hi'
          subst hi'
          exact h0
  · intro b hb i hi
    have hb' : (s.timeline.take (lowerBound s.timeline t)).getLast? = some b := hb
    have : (s.forgetAfter t).error = i.error := by
      unfold Seg.forgetAfter
      simp only [hb', hi]
    rw [this]

/-- `ForgetBefore` remembers the points that are after the first one. -/
theorem dinv_forgetBefore {s : Segment V} {G G' : List (ℝ × (V × V))} {τ : Option ℝ} (h : DInv s G τ) (t : ℝ) (hG : ∀ p ∈ G', p ∈ G)
    (hr : ∀ p ∈ G', (∃ a ∈ (s.forgetBefore t).timeline, a.1 ≤ p.1) ∧ ∃ a ∈ (s.forgetBefore t).timeline, p.1 ≤ a.1) :
    DInv (s.forgetBefore t) G' τ := by
  have h' := h.filter hG
  have hc := h'.chain.drop (lowerBound s.timeline t)
  have hm : ∀ a ∈ s.timeline.drop (lowerBound s.timeline t), a ∈ s.timeline := fun a ha => List.mem_of_mem_drop ha
  have hlast : ∀ b, (s.timeline.drop (lowerBound s.timeline t)).getLast? = some b → s.timeline.getLast? = some b := by
    intro b hb
    rw [List.getLast?_drop] at hb
    split at hb
    · simp at hb
    · exact hb
  have htl : (s.forgetBefore t).timeline = match s.timeline.drop (lowerBound s.timeline t) with
      | [] => []
      | a :: l => (a.1, { a.2 with interpolation := none }) :: l := by
    unfold Seg.forgetBefore
    cases s.timeline.drop (lowerBound s.timeline t) <;> rfl
  refine ⟨segInv_forgetBefore h.seg t, ?_, ?_, hr, h.nonneg, ?_, h.tol⟩
  · rw [htl]
    cases hd : s.timeline.drop (lowerBound s.timeline t) with
    | nil => exact List.isChain_nil
    | cons a l =>
      rw [hd] at hc
      show List.IsChain _ ((a.1, { dof := a.2.dof, interpolation := none }) :: l)
      refine List.IsChain.imp_head (x := a) ?_ hc
      intro z hz
      exact hz
  · intro p hp a ha
    rw [htl] at ha
    cases hd : s.timeline.drop (lowerBound s.timeline t) with
    | nil => simp [hd] at ha
    | cons b l =>
      rw [hd] at ha hm
      simp only [List.mem_cons] at ha
      rcases ha with rfl | ha
      · exact fun e => h'.exact_ p hp b (hm b (by simp)) e
      · exact h'.exact_ p hp a (hm a (by simp [ha]))
  · intro b hb i hi
    rw [htl] at hb
    cases hd : s.timeline.drop (lowerBound s.timeline t) with
    | nil => simp [hd] at hb
    | cons a l =>
      rw [hd] at hb hlast
      simp only at hb
      by_cases hl : l = []
      · subst hl
        simp at hb
        subst hb
        simp at hi
      · rw [List.getLast?_cons_of_ne_nil hl] at hb
        exact h.err b (hlast b (by rw [List.getLast?_cons_of_ne_nil hl]; exact hb)) i hi

end Principia.DiscreteTrajectory
