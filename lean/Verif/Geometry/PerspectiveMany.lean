import Verif.Geometry.PerspectiveOne

/-!
The visible parts of a segment, for several spheres.
-/

set_option linter.unusedSimpArgs false
set_option linter.unusedVariables false
set_option linter.unusedSectionVars false

namespace Principia.Geometry.Perspectives

open Principia.RootFinders

/-- The inner loop does not overwrite the segments that it must still read, and it replaces each segment by its visible parts. -/
theorem hideSlice_spec (c : Perspective) (sphere : Sphere) (inBegin : ℕ) (n : ℕ) (s : Slices) (h1 : inBegin + n ≤ s.outBegin) (h2 : s.outBegin ≤ s.segments.length) (h3 : s.outEnd = s.segments.length)
    (h4 : ∀ i < n, ∀ x, s.segments[inBegin + i]? = some x → ∃ r, c.visibleSegments₁ x sphere = some r ∧ r.length ≤ 2) :
    ∃ s', c.hideSlice sphere inBegin n s = some s' ∧ s'.outBegin ≤ s'.segments.length ∧ s'.outEnd = s'.segments.length ∧
      ∀ y, y ∈ s'.segments.drop s'.outBegin ↔ y ∈ s.segments.drop s.outBegin ∨ ∃ i < n, ∃ x r, s.segments[inBegin + i]? = some x ∧ c.visibleSegments₁ x sphere = some r ∧ y ∈ r := by
  induction n generalizing s with
  | zero => exact ⟨s, rfl, h2, h3, fun y => by simp⟩
  | succ n ih =>
    have hlt : inBegin + n < s.segments.length := by omega
    have hold : s.segments[inBegin + n]? = some s.segments[inBegin + n] := List.getElem?_eq_getElem hlt
    obtain ⟨r, hr, hlen⟩ := h4 n (Nat.lt_succ_self n) _ hold
    simp only [Perspective.hideSlice, hold, hr, Option.bind_eq_bind, Option.bind_some]
    -- How the last segment contributes.
    have last : ∀ (s'' : Slices), (∀ i < n, s''.segments[inBegin + i]? = s.segments[inBegin + i]?) → (∀ y, y ∈ s''.segments.drop s''.outBegin ↔ y ∈ s.segments.drop s.outBegin ∨ y ∈ r) →
        ∀ y, (y ∈ s''.segments.drop s''.outBegin ∨ ∃ i < n, ∃ x r, s''.segments[inBegin + i]? = some x ∧ c.visibleSegments₁ x sphere = some r ∧ y ∈ r) ↔
          (y ∈ s.segments.drop s.outBegin ∨ ∃ i < n + 1, ∃ x r, s.segments[inBegin + i]? = some x ∧ c.visibleSegments₁ x sphere = some r ∧ y ∈ r) := by
      intro s'' e1 e2 y
      rw [e2]
      constructor
      · rintro ((h | h) | ⟨i, hi, x, r', a, b, d⟩)
        · exact Or.inl h
        · exact Or.inr ⟨n, Nat.lt_succ_self n, _, r, hold, hr, h⟩
        · rw [e1 i hi] at a
          exact Or.inr ⟨i, Nat.lt_succ_of_lt hi, x, r', a, b, d⟩
      · rintro (h | ⟨i, hi, x, r', a, b, d⟩)
        · exact Or.inl (Or.inl h)
        · rcases Nat.lt_succ_iff_lt_or_eq.1 hi with hi | rfl
          · exact Or.inr ⟨i, hi, x, r', by rw [e1 i hi]; exact a, b, d⟩
          · rw [hold] at a
            cases a
            rw [hr] at b
            cases b
            exact Or.inl (Or.inr d)
    have hdrop : ∀ (a : Segment), (s.segments.set (s.outBegin - 1) a).drop (s.outBegin - 1) = a :: s.segments.drop s.outBegin := by
      intro a
      have hl : s.outBegin - 1 < (s.segments.set (s.outBegin - 1) a).length := by
        rw [List.length_set]
        omega
      rw [List.drop_eq_getElem_cons hl, List.getElem_set_self, List.drop_set_of_lt (by omega), show s.outBegin - 1 + 1 = s.outBegin from by omega]
    have hget : ∀ (a : Segment), ∀ i < n, (s.segments.set (s.outBegin - 1) a)[inBegin + i]? = s.segments[inBegin + i]? := by
      intro a i hi
      rw [List.getElem?_set_ne (by omega)]
    match r, hr, hlen, last with
    | [], hr, hlen, last =>
      obtain ⟨s', e1, e2, e3, e4⟩ := ih s (by omega) h2 h3 (fun i hi => h4 i (Nat.lt_succ_of_lt hi))
      refine ⟨s', e1, e2, e3, fun y => (e4 y).trans (last s (fun _ _ => rfl) (fun y => by simp) y)⟩
    | [a], hr, hlen, last =>
      simp only
      rw [if_neg (by omega)]
      obtain ⟨s', e1, e2, e3, e4⟩ := ih { s with segments := s.segments.set (s.outBegin - 1) a, outBegin := s.outBegin - 1 } (by simp only; omega) (by simp only [List.length_set]; omega)
        (by simp only [List.length_set]; exact h3) (fun i hi x hx => h4 i (Nat.lt_succ_of_lt hi) x (by rw [← hget a i hi]; exact hx))
      refine ⟨s', e1, e2, e3, fun y => (e4 y).trans (last { s with segments := s.segments.set (s.outBegin - 1) a, outBegin := s.outBegin - 1 } (hget a) (fun y => ?_) y)⟩
      simp only [hdrop, List.mem_cons, List.not_mem_nil, or_false]
      exact or_comm
    | [a, b], hr, hlen, last =>
      simp only
      rw [if_neg (by omega)]
      have hget' : ∀ i < n, (s.segments.set (s.outBegin - 1) a ++ [b])[inBegin + i]? = s.segments[inBegin + i]? := by
        intro i hi
        rw [List.getElem?_append_left (by rw [List.length_set]; omega)]
        exact hget a i hi
      obtain ⟨s', e1, e2, e3, e4⟩ := ih { segments := s.segments.set (s.outBegin - 1) a ++ [b], outBegin := s.outBegin - 1, outEnd := s.outEnd + 1 } (by simp only; omega)
        (by simp only [List.length_append, List.length_set, List.length_singleton]; omega) (by simp only [List.length_append, List.length_set, List.length_singleton]; omega)
        (fun i hi x hx => h4 i (Nat.lt_succ_of_lt hi) x (by rw [← hget' i hi]; exact hx))
      refine ⟨s', e1, e2, e3, fun y => (e4 y).trans (last { segments := s.segments.set (s.outBegin - 1) a ++ [b], outBegin := s.outBegin - 1, outEnd := s.outEnd + 1 } hget' (fun y => ?_) y)⟩
      simp only
      rw [List.drop_append_of_le_length (by rw [List.length_set]; omega), hdrop]
      simp only [List.mem_append, List.mem_cons, List.not_mem_nil, or_false]
      tauto
    | _ :: _ :: _ :: _, _, hlen, _ =>
      simp only [List.length_cons] at hlen
      omega

theorem mem_drop_slice {α : Type} {l : List α} {b : ℕ} (y : α) : y ∈ l.drop b ↔ ∃ i < l.length - b, l[b + i]? = some y := by
  rw [List.mem_iff_getElem?]
  constructor
  · rintro ⟨i, h⟩
    rw [List.getElem?_drop] at h
    obtain ⟨h', -⟩ := List.getElem?_eq_some_iff.1 h
    exact ⟨i, by omega, h⟩
  · rintro ⟨i, -, h⟩
    exact ⟨i, by rw [List.getElem?_drop]; exact h⟩

/-- The outer loop: an invariant of the segments. -/
theorem hideSpheres_spec (c : Perspective) (I : List Sphere → Segment → Prop) (spheres done : List Sphere)
    (hI : ∀ done sphere x, sphere ∈ spheres → I done x → ∃ r, c.visibleSegments₁ x sphere = some r ∧ r.length ≤ 2 ∧ ∀ y ∈ r, I (done ++ [sphere]) y)
    (segments : List Segment) (inBegin : ℕ) (hb : inBegin ≤ segments.length) (h0 : ∀ x ∈ segments.drop inBegin, I done x) :
    ∃ l b, c.hideSpheres spheres segments inBegin segments.length = some (l, b) ∧ b ≤ l.length ∧ (∀ x ∈ l.drop b, I (done ++ spheres) x) ∧
      ∀ (J : Segment → Prop), (∀ done sphere x r, sphere ∈ spheres → I done x → J x → c.visibleSegments₁ x sphere = some r → ∃ y ∈ r, J y) → (∃ x ∈ segments.drop inBegin, J x) → ∃ x ∈ l.drop b, J x := by
  induction spheres generalizing done segments inBegin with
  | nil => exact ⟨segments, inBegin, rfl, hb, by simpa using h0, fun J _ h => h⟩
  | cons sphere spheres ih =>
    obtain ⟨s', e1, e2, e3, e4⟩ := hideSlice_spec c sphere inBegin (segments.length - inBegin) ⟨segments, segments.length, segments.length⟩ (by simp only; omega) (le_refl _) rfl (by
      intro i hi x hx
      obtain ⟨r, hr, hl, -⟩ := hI done sphere x List.mem_cons_self (h0 x ((mem_drop_slice x).2 ⟨i, hi, hx⟩))
      exact ⟨r, hr, hl⟩)
    have e4' : ∀ y, y ∈ s'.segments.drop s'.outBegin ↔ ∃ x ∈ segments.drop inBegin, ∃ r, c.visibleSegments₁ x sphere = some r ∧ y ∈ r := by
      intro y
      rw [e4]
      simp only [List.drop_length, List.not_mem_nil, false_or]
      constructor
      · rintro ⟨i, hi, x, r, a, b, d⟩
        exact ⟨x, (mem_drop_slice x).2 ⟨i, hi, a⟩, r, b, d⟩
      · rintro ⟨x, hx, r, b, d⟩
        obtain ⟨i, hi, a⟩ := (mem_drop_slice x).1 hx
        exact ⟨i, hi, x, r, a, b, d⟩
    obtain ⟨l, b, f1, f2, f3, f4⟩ := ih (done ++ [sphere]) (fun done s x hs => hI done s x (List.mem_cons_of_mem _ hs)) s'.segments s'.outBegin e2 (by
      intro y hy
      obtain ⟨x, hx, r, hr, hyr⟩ := (e4' y).1 hy
      obtain ⟨r', hr', -, h⟩ := hI done sphere x List.mem_cons_self (h0 x hx)
      rw [hr] at hr'
      cases hr'
      exact h y hyr)
    refine ⟨l, b, ?_, f2, ?_, ?_⟩
    · simp only [Perspective.hideSpheres, e1, Option.bind_eq_bind, Option.bind_some]
      rw [e3]
      exact f1
    · simpa [List.append_assoc] using f3
    · intro J hJ hx
      refine f4 J (fun done s x r hs => hJ done s x r (List.mem_cons_of_mem _ hs)) ?_
      obtain ⟨x, hx, hj⟩ := hx
      obtain ⟨r, hr, -, -⟩ := hI done sphere x List.mem_cons_self (h0 x hx)
      obtain ⟨y, hy, hjy⟩ := hJ done sphere x r List.mem_cons_self (h0 x hx) hj hr
      exact ⟨y, (e4' y).2 ⟨x, hx, r, hr, hy⟩, hjy⟩

/-! ## The points -/

theorem point_sub (K A B : R3 ℝ) (t : ℝ) : point (A - K) (B - K) t = A + t • (B - A) - K := by
  unfold point
  ext <;> simp only [R3.sub_x, R3.sub_y, R3.sub_z, R3.add_x, R3.add_y, R3.add_z, R3.smul_x, R3.smul_y, R3.smul_z] <;> ring

theorem hidden_at (K A B : R3 ℝ) (sphere : Sphere) (t : ℝ) : HiddenAt (A - K) (B - K) (sphere.centre - K) sphere.radius t ↔ Hidden K sphere (A + t • (B - A)) := by
  unfold HiddenAt Hidden
  simp only [point_sub]
  refine exists_congr fun s => ?_
  rw [camera_add_sub K (A + t • (B - A)) sphere.centre s]

theorem touched_at {K A B : R3 ℝ} {sphere : Sphere} {t : ℝ} (h : TouchedAt (A - K) (B - K) (sphere.centre - K) sphere.radius t) : Touched K sphere (A + t • (B - A)) := by
  obtain ⟨s, h0, h1, h2⟩ := h
  rw [point_sub, ← camera_add_sub] at h2
  exact ⟨s, h0.le, h1, h2⟩

theorem hidden_touched {K X : R3 ℝ} {sphere : Sphere} (h : Hidden K sphere X) : Touched K sphere X := by
  obtain ⟨s, h0, h1, h2⟩ := h
  exact ⟨s, h0, h1, h2.le⟩

theorem along_along (A B : R3 ℝ) (s t l : ℝ) : A + s • (B - A) + l • (A + t • (B - A) - (A + s • (B - A))) = A + (s + l * (t - s)) • (B - A) := by
  ext <;> simp only [R3.add_x, R3.add_y, R3.add_z, R3.sub_x, R3.sub_y, R3.sub_z, R3.smul_x, R3.smul_y, R3.smul_z] <;> ring

theorem aligned_part {K A B : R3 ℝ} {s t : ℝ} (h : s < t) (hal : ¬Aligned K A B) : ¬Aligned K (A + s • (B - A)) (A + t • (B - A)) := by
  unfold Aligned at *
  rw [← point_sub, ← point_sub, cross_point]
  exact smul_ne_zero' hal (by linarith)

/-- What is known of the parts of a segment after some spheres have been considered. -/
structure Remains (K A B : R3 ℝ) (done : List Sphere) (x : Segment) : Prop where
  part : ∃ s t : ℝ, 0 ≤ s ∧ s < t ∧ t ≤ 1 ∧ x = ⟨A + s • (B - A), A + t • (B - A)⟩ ∧ (s = 0 ∨ ∃ sphere ∈ done, Touched K sphere (A + s • (B - A)) ∧ ¬Hidden K sphere (A + s • (B - A))) ∧
    (t = 1 ∨ ∃ sphere ∈ done, Touched K sphere (A + t • (B - A)))
  visible : ∀ X, x.Contains X → ∀ sphere ∈ done, ¬Hidden K sphere X

/-- The camera is inside of the sphere. -/
theorem inside_spec {c : Perspective} {sphere : Sphere} (segment : Segment) (h : R3.normSq (sphere.centre - c.camera) < sphere.radius ^ 2) :
    c.visibleSegments₁ segment sphere = some [] ∧ ∀ X, Hidden c.camera sphere X := by
  constructor
  · unfold Perspective.visibleSegments₁
    simp only
    rw [if_pos (by
      show R3.normSq (sphere.centre - c.camera) ≤ sphere.radius * sphere.radius
      nlinarith)]
  · intro X
    refine ⟨0, le_refl _, zero_le_one, ?_⟩
    rw [camera_add_sub]
    have : R3.normSq ((0 : ℝ) • (X - c.camera) - (sphere.centre - c.camera)) = R3.normSq (sphere.centre - c.camera) := by r3_ring
    rw [this]
    exact h

theorem remains_step {c : Perspective} {A B : R3 ℝ} {all : List Sphere} (hcam : ∀ s ∈ all, R3.normSq (s.centre - c.camera) ≠ s.radius ^ 2) (hal : ¬Aligned c.camera A B)
    (hpl : ∀ s ∈ all, ∀ X, Segment.Contains ⟨A, B⟩ X → InPlane c.camera s X → X ≠ A ∧ ∀ t ∈ all, Hidden c.camera t X ∨ ¬Touched c.camera t X)
    {done : List Sphere} (hdone : ∀ s ∈ done, s ∈ all) {sphere : Sphere} (hs : sphere ∈ all) {x : Segment} (hx : Remains c.camera A B done x) :
    ∃ r, c.visibleSegments₁ x sphere = some r ∧ r.length ≤ 2 ∧ (∀ y ∈ r, Remains c.camera A B (done ++ [sphere]) y) ∧
      ∀ l : ℝ, 0 < l → l < 1 → x.Contains (A + l • (B - A)) → (∀ s ∈ all, ¬Touched c.camera s (A + l • (B - A))) → ∃ y ∈ r, y.Contains (A + l • (B - A)) := by
  obtain ⟨⟨s, t, s0, st, t1, rfl, hs1, ht1⟩, hvis⟩ := hx
  rcases lt_or_gt_of_ne (hcam sphere hs) with hin | hout
  · obtain ⟨e1, e2⟩ := inside_spec (c := c) ⟨A + s • (B - A), A + t • (B - A)⟩ hin
    exact ⟨[], e1, by simp, by simp, fun l _ _ _ h => absurd (hidden_touched (e2 _)) (h sphere hs)⟩
  · have hAB : A ≠ B := by
      rintro rfl
      apply hal
      unfold Aligned R3.cross
      ext <;> simp <;> ring
    have hfirst : ¬InPlane c.camera sphere (A + s • (B - A)) := by
      intro hc
      obtain ⟨h1, h2⟩ := hpl sphere hs _ ⟨s, s0, by linarith, rfl⟩ hc
      rcases hs1 with rfl | ⟨u, hu, hu1, hu2⟩
      · exact h1 (zero_along A B)
      · rcases h2 u (hdone u hu) with h | h
        · exact hu2 h
        · exact h hu1
    obtain ⟨r, e1, e2, e3, e4, e5⟩ := visible_spec c ⟨A + s • (B - A), A + t • (B - A)⟩ sphere hout (aligned_part st hal) hfirst
    simp only [hidden_at, along_along] at e3 e4 e5
    refine ⟨r, e1, e2, ?_, ?_⟩
    · intro y hy
      obtain ⟨s', t', s0', st', t1', f1, f2, f3, f4⟩ := e5 y hy
      have hts : 0 < t - s := by linarith
      have hpart : y = ⟨A + (s + s' * (t - s)) • (B - A), A + (s + t' * (t - s)) • (B - A)⟩ := by
        cases y
        simp only at f1 f2
        rw [f1, f2]
      have hlt : s + s' * (t - s) < s + t' * (t - s) := by nlinarith
      have hcont : ∀ X, y.Contains X → ∃ l' : ℝ, s' ≤ l' ∧ l' ≤ t' ∧ X = A + (s + l' * (t - s)) • (B - A) := by
        intro X hX
        rw [hpart, contains_part hlt] at hX
        obtain ⟨l, l0, l1, rfl⟩ := hX
        refine ⟨(l - s) / (t - s), (le_div_iff₀ hts).2 (by linarith), (div_le_iff₀ hts).2 (by linarith), ?_⟩
        rw [div_mul_cancel₀ _ hts.ne', add_sub_cancel]
      have hnew : ∀ X, y.Contains X → ¬Hidden c.camera sphere X := by
        intro X hX
        obtain ⟨l', l0, l1, rfl⟩ := hcont X hX
        exact e3 l' (by linarith) (by linarith) ⟨y, hy, hX⟩
      refine ⟨⟨s + s' * (t - s), s + t' * (t - s), by nlinarith, hlt, by nlinarith, hpart, ?_, ?_⟩, ?_⟩
      · rcases f3 with rfl | f3
        · rw [zero_mul, add_zero]
          exact hs1.imp id fun ⟨u, hu, h⟩ => ⟨u, List.mem_append_left _ hu, h⟩
        · right
          have := touched_at f3
          rw [along_along] at this
          refine ⟨sphere, List.mem_append_right _ (List.mem_singleton_self _), this, hnew _ ?_⟩
          rw [hpart, contains_part hlt]
          exact ⟨_, le_refl _, hlt.le, rfl⟩
      · rcases f4 with rfl | f4
        · rw [one_mul, add_sub_cancel]
          exact ht1.imp id fun ⟨u, hu, h⟩ => ⟨u, List.mem_append_left _ hu, h⟩
        · right
          have := touched_at f4
          rw [along_along] at this
          exact ⟨sphere, List.mem_append_right _ (List.mem_singleton_self _), this⟩
      · intro X hX u hu
        rcases List.mem_append.1 hu with hu | hu
        · obtain ⟨l', l0, l1, rfl⟩ := hcont X hX
          refine hvis _ ?_ u hu
          rw [contains_part st]
          exact ⟨s + l' * (t - s), by nlinarith, by nlinarith, rfl⟩
        · rw [List.mem_singleton.1 hu]
          exact hnew X hX
    · intro l l0 l1 hc hu
      rw [contains_along hAB st] at hc
      have hts : 0 < t - s := by linarith
      have hls : s < l := by
        refine lt_of_le_of_ne hc.1 ?_
        rintro rfl
        rcases hs1 with h | ⟨u, hu1, hu2, -⟩
        · linarith
        · exact hu u (hdone u hu1) hu2
      have hlt : l < t := by
        refine lt_of_le_of_ne hc.2 ?_
        rintro rfl
        rcases ht1 with h | ⟨u, hu1, hu2⟩
        · linarith
        · exact hu u (hdone u hu1) hu2
      have e : s + (l - s) / (t - s) * (t - s) = l := by
        rw [div_mul_cancel₀ _ hts.ne', add_sub_cancel]
      have := e4 ((l - s) / (t - s)) (div_pos (by linarith) hts) ((div_lt_one hts).2 (by linarith))
      rw [e] at this
      exact this fun h => hu sphere hs (hidden_touched h)

/-- The visible parts of a segment. -/
theorem many_spec (c : Perspective) (A B : R3 ℝ) (spheres : List Sphere) (hcam : ∀ s ∈ spheres, R3.normSq (s.centre - c.camera) ≠ s.radius ^ 2) (hal : ¬Aligned c.camera A B)
    (hpl : ∀ s ∈ spheres, ∀ X, Segment.Contains ⟨A, B⟩ X → InPlane c.camera s X → X ≠ A ∧ ∀ t ∈ spheres, Hidden c.camera t X ∨ ¬Touched c.camera t X) :
    ∃ r, c.visibleSegments ⟨A, B⟩ spheres = some r ∧ (∀ y ∈ r, Remains c.camera A B spheres y) ∧
      ∀ l : ℝ, 0 < l → l < 1 → (∀ s ∈ spheres, ¬Touched c.camera s (A + l • (B - A))) → ∃ y ∈ r, y.Contains (A + l • (B - A)) := by
  have hI : ∀ (done : List Sphere) (sphere : Sphere) (x : Segment), sphere ∈ spheres → (Remains c.camera A B done x ∧ ∀ s ∈ done, s ∈ spheres) →
      ∃ r, c.visibleSegments₁ x sphere = some r ∧ r.length ≤ 2 ∧ ∀ y ∈ r, (Remains c.camera A B (done ++ [sphere]) y ∧ ∀ s ∈ done ++ [sphere], s ∈ spheres) := by
    rintro done sphere x hs ⟨hx, hd⟩
    obtain ⟨r, e1, e2, e3, -⟩ := remains_step hcam hal hpl hd hs hx
    refine ⟨r, e1, e2, fun y hy => ⟨e3 y hy, fun s h => ?_⟩⟩
    rcases List.mem_append.1 h with h | h
    · exact hd s h
    · rw [List.mem_singleton.1 h]
      exact hs
  obtain ⟨l, b, e1, e2, e3, e4⟩ := hideSpheres_spec c (fun done x => Remains c.camera A B done x ∧ ∀ s ∈ done, s ∈ spheres) spheres [] hI [⟨A, B⟩] 0 (by simp) (by
    intro x hx
    rw [List.drop_zero, List.mem_singleton] at hx
    subst hx
    refine ⟨⟨⟨0, 1, le_refl _, one_pos, le_refl _, ?_, Or.inl rfl, Or.inl rfl⟩, by simp⟩, by simp⟩
    rw [zero_along, one_along])
  have hdrop : (if 0 < b then l.drop b else l) = l.drop b := by
    by_cases hb : 0 < b
    · rw [if_pos hb]
    · rw [if_neg hb, show b = 0 from by omega, List.drop_zero]
  refine ⟨l.drop b, ?_, fun y hy => by simpa using (e3 y hy).1, ?_⟩
  · unfold Perspective.visibleSegments
    rw [show (1 : ℕ) = ([⟨A, B⟩] : List Segment).length from rfl, e1]
    simp only [Option.map_some]
    rw [hdrop]
  · intro t t0 t1 hu
    refine e4 (fun y => y.Contains (A + t • (B - A))) ?_ ⟨⟨A, B⟩, by simp, t, t0.le, t1.le, rfl⟩
    rintro done sphere x r hs ⟨hx, hd⟩ hc hr
    obtain ⟨r', f1, -, -, f4⟩ := remains_step hcam hal hpl hd hs hx
    rw [hr] at f1
    cases f1
    exact f4 t t0 t1 hc hu

end Principia.Geometry.Perspectives
