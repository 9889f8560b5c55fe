import Mathlib.Analysis.SpecialFunctions.Trigonometric.Inverse
import Verif.Geometry.PerspectiveMany

/-!
# C78: perspective

What is said to be visible from the camera is exactly what is not hidden by the spheres.
-/

set_option linter.unusedSimpArgs false
set_option linter.unusedVariables false
set_option linter.unusedSectionVars false

namespace Principia.Geometry.Perspectives

open Principia.RootFinders

/-! ## The visibility of a point -/

/-- C78: a point is reported as hidden by a sphere if, and only if, the segment from the camera to the point enters the sphere, when the camera is outside of the sphere. -/
theorem C78_hidden (c : Perspective) (X : R3 ℝ) (sphere : Sphere) (hout : sphere.radius ^ 2 < R3.normSq (sphere.centre - c.camera)) :
    c.isHiddenBySphere X sphere = true ↔ Hidden c.camera sphere X := by
  rw [hidden_iff hout]
  unfold Perspective.isHiddenBySphere
  simp only
  have hRR : sphere.radiusSq = sphere.radius ^ 2 := by
    unfold Sphere.radiusSq
    ring
  have e : R3.normSq (X - sphere.centre) - sphere.radiusSq =
      R3.normSq (X - c.camera) - 2 * R3.dot (X - c.camera) (sphere.centre - c.camera) + (R3.normSq (sphere.centre - c.camera) - sphere.radius ^ 2) := by
    rw [hRR]
    r3_ring
  by_cases h1 : R3.normSq (X - sphere.centre) < sphere.radiusSq
  · rw [if_pos h1]
    exact iff_of_true rfl (Or.inl (by linarith))
  · rw [if_neg h1]
    have h1' : ¬(R3.normSq (X - c.camera) - 2 * R3.dot (X - c.camera) (sphere.centre - c.camera) + (R3.normSq (sphere.centre - c.camera) - sphere.radius ^ 2) < 0) := by
      intro h
      exact h1 (by linarith)
    rw [or_iff_right h1']
    by_cases h2 : R3.dot (X - c.camera) (sphere.centre - c.camera) * R3.dot (X - c.camera) (sphere.centre - c.camera) >
        (R3.normSq (sphere.centre - c.camera) - sphere.radiusSq) * R3.normSq (X - c.camera)
    · rw [if_neg (not_not.2 h2)]
      simp only [decide_eq_true_eq, not_lt]
      rw [hRR] at h2 ⊢
      exact ⟨fun h => ⟨h, by nlinarith⟩, fun h => h.1⟩
    · rw [if_pos h2]
      refine iff_of_false (by simp) fun h => h2 ?_
      rw [hRR]
      nlinarith [h.2]

/-- C78 is violated when the camera is inside of the sphere: a point that is outside of the sphere may be reported as visible, although the segment from the camera to the point starts in the sphere. -/
theorem C78_hidden_counterexample : ∃ (c : Perspective) (X : R3 ℝ) (sphere : Sphere), R3.normSq (sphere.centre - c.camera) < sphere.radius ^ 2 ∧ Hidden c.camera sphere X ∧ c.isHiddenBySphere X sphere = false := by
  refine ⟨⟨⟨0, 0, 0⟩, 1, M3.identity, 1⟩, ⟨-4, 0, 0⟩, ⟨⟨1, 0, 0⟩, 2⟩, ?_, ⟨0, le_refl _, zero_le_one, ?_⟩, ?_⟩
  · norm_num [R3.normSq, R3.dot]
  · norm_num [R3.normSq, R3.dot]
  · unfold Perspective.isHiddenBySphere
    simp only
    rw [if_neg (by norm_num [R3.normSq, R3.dot, Sphere.radiusSq]), if_neg (by norm_num [R3.normSq, R3.dot, Sphere.radiusSq])]
    norm_num [R3.normSq, R3.dot, Sphere.radiusSq]

/-! ## The visibility of a segment -/

/-- C78: the visible parts of a segment, when there is one sphere.  There are at most two of them; all their points are on the segment and none is hidden; all the points of the segment that are not
hidden are in these parts, except perhaps the extremities of the segment.  This requires the camera to be outside of the sphere and not to be aligned with the segment, and the first extremity of the
segment not to be in the plane of the camera that is orthogonal to the direction of the centre. -/
theorem C78_visible (c : Perspective) (segment : Segment) (sphere : Sphere) (hout : sphere.radius ^ 2 < R3.normSq (sphere.centre - c.camera))
    (hal : ¬Aligned c.camera segment.first segment.second) (hpl : ¬InPlane c.camera sphere segment.first) :
    ∃ r, c.visibleSegments₁ segment sphere = some r ∧ r.length ≤ 2 ∧
      (∀ X, (∃ s ∈ r, s.Contains X) → segment.Contains X ∧ ¬Hidden c.camera sphere X) ∧
      ∀ X, segment.Contains X → X ≠ segment.first → X ≠ segment.second → ¬Hidden c.camera sphere X → ∃ s ∈ r, s.Contains X := by
  obtain ⟨r, e1, e2, e3, e4, e5⟩ := visible_spec c segment sphere hout hal hpl
  obtain ⟨A, B⟩ := segment
  simp only [hidden_at] at e3 e4 e5 hal
  refine ⟨r, e1, e2, ?_, ?_⟩
  · rintro X ⟨y, hy, hX⟩
    obtain ⟨s, t, s0, st, t1, f1, f2, -⟩ := e5 y hy
    have hXy := hX
    rw [show y = ⟨A + s • (B - A), A + t • (B - A)⟩ from by cases y; simp only at f1 f2; rw [f1, f2], contains_part st] at hX
    obtain ⟨l, l0, l1, rfl⟩ := hX
    exact ⟨⟨l, by linarith, by linarith, rfl⟩, e3 l (by linarith) (by linarith) ⟨y, hy, hXy⟩⟩
  · rintro X ⟨l, l0, l1, rfl⟩ hA hB hh
    refine e4 l (lt_of_le_of_ne l0 ?_) (lt_of_le_of_ne l1 ?_) hh
    · rintro rfl
      exact hA (zero_along A B)
    · rintro rfl
      exact hB (one_along A B)

/-- C78: if the camera is inside of the sphere, everything is hidden, and nothing is reported as visible. -/
theorem C78_inside (c : Perspective) (segment : Segment) (sphere : Sphere) (h : R3.normSq (sphere.centre - c.camera) < sphere.radius ^ 2) :
    c.visibleSegments₁ segment sphere = some [] ∧ ∀ X, Hidden c.camera sphere X := inside_spec segment h

/-- C78: the visible parts of a segment, when there are many spheres.  None of their points is hidden by any sphere, and they are on the segment; all the points of the segment that are seen without
touching any sphere are in these parts, except perhaps the extremities of the segment. -/
theorem C78_many (c : Perspective) (segment : Segment) (spheres : List Sphere) (hcam : ∀ s ∈ spheres, R3.normSq (s.centre - c.camera) ≠ s.radius ^ 2)
    (hal : ¬Aligned c.camera segment.first segment.second)
    (hpl : ∀ s ∈ spheres, ∀ X, segment.Contains X → InPlane c.camera s X → X ≠ segment.first ∧ ∀ t ∈ spheres, Hidden c.camera t X ∨ ¬Touched c.camera t X) :
    ∃ r, c.visibleSegments segment spheres = some r ∧
      (∀ X, (∃ s ∈ r, s.Contains X) → segment.Contains X ∧ ∀ sphere ∈ spheres, ¬Hidden c.camera sphere X) ∧
      ∀ X, segment.Contains X → X ≠ segment.first → X ≠ segment.second → (∀ sphere ∈ spheres, ¬Touched c.camera sphere X) → ∃ s ∈ r, s.Contains X := by
  obtain ⟨A, B⟩ := segment
  obtain ⟨r, e1, e2, e3⟩ := many_spec c A B spheres hcam hal hpl
  refine ⟨r, e1, ?_, ?_⟩
  · rintro X ⟨y, hy, hX⟩
    obtain ⟨⟨s, t, s0, st, t1, rfl, -⟩, hv⟩ := e2 y hy
    refine ⟨?_, hv X hX⟩
    rw [contains_part st] at hX
    obtain ⟨l, l0, l1, rfl⟩ := hX
    exact ⟨l, by linarith, by linarith, rfl⟩
  · rintro X ⟨l, l0, l1, rfl⟩ hA hB hh
    refine e3 l (lt_of_le_of_ne l0 ?_) (lt_of_le_of_ne l1 ?_) hh
    · rintro rfl
      exact hA (zero_along A B)
    · rintro rfl
      exact hB (one_along A B)

/-- A camera at the origin. -/
noncomputable def camera : Perspective := ⟨⟨0, 0, 0⟩, 1, M3.identity, 1⟩

/-- The hypotheses of `C78_visible` and `C78_many` are satisfied by two spheres, one behind the other, and a segment that is partly hidden by each of them. -/
example :
    (let segment : Segment := ⟨⟨-20, 0, 40⟩, ⟨20, 0, 40⟩⟩;
     let s₁ : Sphere := ⟨⟨0, 0, 10⟩, 1⟩;
     let s₂ : Sphere := ⟨⟨5, 0, 20⟩, 1⟩;
     s₁.radius ^ 2 < R3.normSq (s₁.centre - camera.camera) ∧ ¬Aligned camera.camera segment.first segment.second ∧ ¬InPlane camera.camera s₁ segment.first ∧
       (∀ s ∈ [s₁, s₂], R3.normSq (s.centre - camera.camera) ≠ s.radius ^ 2) ∧
       (∀ s ∈ [s₁, s₂], ∀ X, segment.Contains X → InPlane camera.camera s X → X ≠ segment.first ∧ ∀ t ∈ [s₁, s₂], Hidden camera.camera t X ∨ ¬Touched camera.camera t X) ∧
       Hidden camera.camera s₁ ⟨0, 0, 40⟩ ∧ Hidden camera.camera s₂ ⟨10, 0, 40⟩ ∧ segment.Contains ⟨0, 0, 40⟩ ∧ segment.Contains ⟨10, 0, 40⟩) := by
  simp only
  refine ⟨by norm_num [R3.normSq, R3.dot, camera], ?_, by norm_num [InPlane, R3.dot, camera], ?_, ?_, ⟨1 / 4, by norm_num, by norm_num, by norm_num [R3.normSq, R3.dot, camera]⟩,
    ⟨1 / 2, by norm_num, by norm_num, by norm_num [R3.normSq, R3.dot, camera]⟩, ⟨1 / 2, by norm_num, by norm_num, ?_⟩, ⟨3 / 4, by norm_num, by norm_num, ?_⟩⟩
  · intro h
    have := congrArg R3.y h
    norm_num [R3.cross, camera] at this
  · intro s hs
    rcases List.mem_cons.1 hs with rfl | hs
    · norm_num [R3.normSq, R3.dot, camera]
    · rw [List.mem_singleton.1 hs]
      norm_num [R3.normSq, R3.dot, camera]
  · rintro s hs X ⟨l, l0, l1, rfl⟩ hX
    exfalso
    rcases List.mem_cons.1 hs with rfl | hs
    · norm_num [InPlane, R3.dot, camera] at hX
    · rw [List.mem_singleton.1 hs] at hX
      norm_num [InPlane, R3.dot, camera] at hX
      linarith
  · ext <;> norm_num
  · ext <;> norm_num

/-- C78 is violated when the first extremity of the segment is in the plane of the camera that is orthogonal to the direction of the centre: the whole segment is said to be visible, although a part of it
is hidden by the sphere. -/
theorem C78_plane_counterexample : ∃ (c : Perspective) (segment : Segment) (sphere : Sphere) (X : R3 ℝ), sphere.radius ^ 2 < R3.normSq (sphere.centre - c.camera) ∧
    ¬Aligned c.camera segment.first segment.second ∧ c.visibleSegments₁ segment sphere = some [segment] ∧ segment.Contains X ∧ X ≠ segment.first ∧ X ≠ segment.second ∧ Hidden c.camera sphere X := by
  refine ⟨camera, ⟨⟨1, 0, 0⟩, ⟨-1, 0, 20⟩⟩, ⟨⟨0, 0, 10⟩, 1⟩, ⟨0, 0, 10⟩, by norm_num [R3.normSq, R3.dot, camera], ?_, ?_, ⟨1 / 2, by norm_num, by norm_num, ?_⟩, ?_, ?_,
    ⟨1, by norm_num, by norm_num, by norm_num [R3.normSq, R3.dot, camera]⟩⟩
  · intro h
    have := congrArg R3.y h
    norm_num [R3.cross, camera] at this
  · rw [visible_eq (KA := ⟨1, 0, 0⟩) (KB := ⟨-1, 0, 20⟩) (KC := ⟨0, 0, 10⟩) (RR := 1) (by ext <;> norm_num [camera]) (by ext <;> norm_num [camera]) (by ext <;> norm_num [camera]) (by norm_num [Sphere.radiusSq])]
    rw [if_neg (by norm_num [R3.normSq, R3.dot]), if_neg (by norm_num [R3.normSq, R3.dot])]
    simp only
    rw [if_neg (by norm_num [R3.normSq, R3.dot])]
    have hα : (R3.normSq (⟨-1, 0, 20⟩ : R3 ℝ) * R3.dot ⟨1, 0, 0⟩ ⟨0, 0, 10⟩ - R3.dot ⟨1, 0, 0⟩ ⟨-1, 0, 20⟩ * R3.dot (⟨-1, 0, 20⟩ : R3 ℝ) ⟨0, 0, 10⟩) /
        (R3.normSq ⟨1, 0, 0⟩ * R3.normSq ⟨-1, 0, 20⟩ - R3.dot ⟨1, 0, 0⟩ ⟨-1, 0, 20⟩ * R3.dot ⟨1, 0, 0⟩ ⟨-1, 0, 20⟩) = 1 / 2 := by norm_num [R3.normSq, R3.dot]
    have hβ : (R3.normSq (⟨1, 0, 0⟩ : R3 ℝ) * R3.dot ⟨-1, 0, 20⟩ ⟨0, 0, 10⟩ - R3.dot ⟨1, 0, 0⟩ ⟨-1, 0, 20⟩ * R3.dot (⟨1, 0, 0⟩ : R3 ℝ) ⟨0, 0, 10⟩) /
        (R3.normSq ⟨1, 0, 0⟩ * R3.normSq ⟨-1, 0, 20⟩ - R3.dot ⟨1, 0, 0⟩ ⟨-1, 0, 20⟩ * R3.dot ⟨1, 0, 0⟩ ⟨-1, 0, 20⟩) = 1 / 2 := by norm_num [R3.normSq, R3.dot]
    rw [hα, hβ]
    have hKH : combination (⟨1, 0, 0⟩ : R3 ℝ) ⟨-1, 0, 20⟩ (1 / 2) (1 / 2) = ⟨0, 0, 10⟩ := by
      unfold combination
      ext <;> norm_num
    rw [hKH]
    rw [if_neg (by norm_num [R3.normSq, R3.dot]), if_neg (by norm_num [R3.normSq, R3.dot])]
    have hc : coneIntersections (⟨1, 0, 0⟩ : R3 ℝ) ⟨-1, 0, 20⟩ ⟨0, 0, 10⟩ (1 - R3.normSq ((⟨0, 0, 10⟩ : R3 ℝ) - ⟨0, 0, 10⟩)) = some none := by
      obtain ⟨e, he⟩ := solve_one (a0 := (1 : ℝ)) (a1 := -400) (a2 := 40000) (by norm_num)
      unfold coneIntersections
      norm_num [R3.normSq, R3.dot]
      rw [he]
      cases e <;> rfl
    rw [hc]
    rfl
  · ext <;> norm_num
  · intro h
    have := congrArg R3.x h
    norm_num at this
  · intro h
    have := congrArg R3.x h
    norm_num at this

/-- C78 is violated when the camera is aligned with the segment: the part of the segment that is behind the sphere is said to be visible. -/
theorem C78_aligned_counterexample : ∃ (c : Perspective) (segment : Segment) (sphere : Sphere) (r : List Segment) (X : R3 ℝ), sphere.radius ^ 2 < R3.normSq (sphere.centre - c.camera) ∧
    ¬InPlane c.camera sphere segment.first ∧ c.visibleSegments₁ segment sphere = some r ∧ (∃ s ∈ r, s.Contains X) ∧ Hidden c.camera sphere X := by
  obtain ⟨r, h1, -, -, h4, -⟩ := hide_spec (segment := ⟨⟨0, 0, 1⟩, ⟨0, 0, 21⟩⟩) (sphere := ⟨⟨0, 0, 10⟩, 1⟩) (ls := []) (by
      intro h
      have := congrArg R3.z h
      norm_num at this) rfl (by
      intro h
      rw [List.nil_append] at h
      have := C41_quadratic 0 (R3.normSq ((⟨0, 0, 10⟩ : R3 ℝ) - ⟨0, 0, 1⟩) - 1 * 1) (-2 * R3.dot ((⟨0, 0, 21⟩ : R3 ℝ) - ⟨0, 0, 1⟩) ((⟨0, 0, 10⟩ : R3 ℝ) - ⟨0, 0, 1⟩))
        (R3.normSq ((⟨0, 0, 21⟩ : R3 ℝ) - ⟨0, 0, 1⟩)) (Or.inr (by norm_num [R3.normSq, R3.dot]))
      obtain ⟨x, hx⟩ := this.2.2 (by norm_num [R3.normSq, R3.dot]) _ h
      cases hx)
  refine ⟨camera, ⟨⟨0, 0, 1⟩, ⟨0, 0, 21⟩⟩, ⟨⟨0, 0, 10⟩, 1⟩, r, ⟨0, 0, 20⟩, by norm_num [R3.normSq, R3.dot, camera], by norm_num [InPlane, R3.dot, camera], ?_, ?_,
    ⟨1 / 2, by norm_num, by norm_num, by norm_num [R3.normSq, R3.dot, camera]⟩⟩
  · rw [visible_eq (KA := ⟨0, 0, 1⟩) (KB := ⟨0, 0, 21⟩) (KC := ⟨0, 0, 10⟩) (RR := 1) (by ext <;> norm_num [camera]) (by ext <;> norm_num [camera]) (by ext <;> norm_num [camera]) (by norm_num [Sphere.radiusSq])]
    rw [if_neg (by norm_num [R3.normSq, R3.dot]), if_neg (by norm_num [R3.normSq, R3.dot])]
    simp only
    rw [if_pos (by norm_num [R3.normSq, R3.dot])]
    exact h1
  · have e : (⟨0, 0, 20⟩ : R3 ℝ) = ⟨0, 0, 1⟩ + (19 / 20 : ℝ) • ((⟨0, 0, 21⟩ : R3 ℝ) - ⟨0, 0, 1⟩) := by ext <;> norm_num
    rw [e]
    refine h4 (19 / 20) (by norm_num) (by norm_num) ?_
    rintro ⟨e, he, f, hf, b1, b2⟩
    -- The line leaves the sphere before the point.
    have hq := C41_quadratic 0 (R3.normSq ((⟨0, 0, 10⟩ : R3 ℝ) - ⟨0, 0, 1⟩) - 1 * 1) (-2 * R3.dot ((⟨0, 0, 21⟩ : R3 ℝ) - ⟨0, 0, 1⟩) ((⟨0, 0, 10⟩ : R3 ℝ) - ⟨0, 0, 1⟩))
        (R3.normSq ((⟨0, 0, 21⟩ : R3 ℝ) - ⟨0, 0, 1⟩)) (Or.inr (by norm_num [R3.normSq, R3.dot]))
    rw [List.nil_append] at hf
    obtain ⟨x, rfl⟩ := hq.2.2 (by norm_num [R3.normSq, R3.dot]) f hf
    have hx := (hq.1 x).1 hf
    norm_num [R3.normSq, R3.dot] at hx
    have b2' : (19 / 20 : ℝ) < x := b2
    nlinarith

/-! ## The focal plane -/

/-- C78: the part of a segment behind the focal plane, if the frame of the camera has the same scale as the other frame: its points are the points of the segment that are not in front of the focal
plane, and there is no such part if all the points are in front. -/
theorem C78_focal (c : Perspective) (segment : Segment) (hs : c.scale = 1) :
    match c.segmentBehindFocalPlane segment with
    | none => ∀ X, segment.Contains X → c.depth X < c.focal
    | some s => ∀ X, s.Contains X ↔ segment.Contains X ∧ c.focal ≤ c.depth X := by
  obtain ⟨A, B⟩ := segment
  have hz : ∀ X, R3.dot (X - c.camera) (c.scale • M3.mulVec c.axes ⟨0, 0, 1⟩) = c.depth X := by
    intro X
    unfold Perspective.depth Perspective.toCamera
    rw [hs, inv_one]
    simp only [M3.mulVec, M3.transpose, R3.dot, R3.smul_x, R3.smul_y, R3.smul_z, R3.sub_x, R3.sub_y, R3.sub_z]
    ring
  have hl : ∀ l : ℝ, c.depth (A + l • (B - A)) = c.depth A + l * (c.depth B - c.depth A) := by
    intro l
    rw [← hz, ← hz, ← hz]
    r3_ring
  have hcomb : ∀ l : ℝ, l • A + (1 - l) • B = A + (1 - l) • (B - A) := by
    intro l
    ext <;> simp only [R3.add_x, R3.add_y, R3.add_z, R3.sub_x, R3.sub_y, R3.sub_z, R3.smul_x, R3.smul_y, R3.smul_z] <;> ring
  unfold Perspective.segmentBehindFocalPlane
  simp only [hz]
  by_cases h1 : c.focal ≤ c.depth A ∧ c.focal ≤ c.depth B
  · rw [if_pos h1]
    simp only
    intro X
    refine ⟨fun h => ⟨h, ?_⟩, fun h => h.1⟩
    obtain ⟨l, l0, l1, rfl⟩ := h
    simp only
    rw [hl]
    nlinarith [mul_nonneg l0 (sub_nonneg.2 h1.2), mul_nonneg (sub_nonneg.2 l1) (sub_nonneg.2 h1.1)]
  · rw [if_neg h1]
    by_cases h2 : ¬c.focal ≤ c.depth A ∧ ¬c.focal ≤ c.depth B
    · rw [if_pos h2]
      simp only
      rintro X ⟨l, l0, l1, rfl⟩
      simp only
      rw [hl]
      have a1 := not_le.1 h2.1
      have a2 := not_le.1 h2.2
      rcases eq_or_lt_of_le l0 with rfl | l0
      · linarith
      · nlinarith [mul_pos l0 (sub_pos.2 a2), mul_nonneg (sub_nonneg.2 l1) (sub_pos.2 a1).le]
    · rw [if_neg h2]
      by_cases h3 : c.focal ≤ c.depth A
      · rw [if_pos h3]
        have h4 : c.depth B < c.focal := by
          by_contra h
          exact h1 ⟨h3, not_lt.1 h⟩
        have hd : 0 < c.depth A - c.depth B := by linarith
        simp only
        intro X
        rw [hcomb]
        have e : 1 - (c.focal - c.depth B) / (c.depth A - c.depth B) = (c.depth A - c.focal) / (c.depth A - c.depth B) := by
          field_simp
          ring
        rw [e]
        have hu : (c.depth A - c.focal) / (c.depth A - c.depth B) < 1 := (div_lt_one hd).2 (by linarith)
        have hu0 : 0 ≤ (c.depth A - c.focal) / (c.depth A - c.depth B) := div_nonneg (by linarith) hd.le
        constructor
        · rintro ⟨l, l0, l1, rfl⟩
          simp only
          have ee : A + l • (A + ((c.depth A - c.focal) / (c.depth A - c.depth B)) • (B - A) - A) = A + (l * ((c.depth A - c.focal) / (c.depth A - c.depth B))) • (B - A) := by
            ext <;> simp only [R3.add_x, R3.add_y, R3.add_z, R3.sub_x, R3.sub_y, R3.sub_z, R3.smul_x, R3.smul_y, R3.smul_z] <;> ring
          rw [ee]
          refine ⟨⟨_, by positivity, by nlinarith, rfl⟩, ?_⟩
          rw [hl]
          have : (c.depth A - c.focal) / (c.depth A - c.depth B) * (c.depth A - c.depth B) = c.depth A - c.focal := div_mul_cancel₀ _ hd.ne'
          nlinarith [mul_nonneg (sub_nonneg.2 l1) (sub_nonneg.2 h3)]
        · rintro ⟨⟨l, l0, l1, rfl⟩, hf⟩
          simp only at hf ⊢
          rw [hl] at hf
          rcases eq_or_lt_of_le h3 with h3 | h3
          · have : l = 0 := by
              by_contra hne
              have : 0 < l := lt_of_le_of_ne l0 (Ne.symm hne)
              nlinarith [mul_pos this hd]
            subst this
            exact ⟨0, le_refl _, zero_le_one, by
              ext <;> simp only [R3.add_x, R3.add_y, R3.add_z, R3.sub_x, R3.sub_y, R3.sub_z, R3.smul_x, R3.smul_y, R3.smul_z] <;> ring⟩
          · have hp : 0 < c.depth A - c.focal := by linarith
            refine ⟨l * (c.depth A - c.depth B) / (c.depth A - c.focal), by positivity, (div_le_one hp).2 (by nlinarith), ?_⟩
            ext <;> simp only [R3.add_x, R3.add_y, R3.add_z, R3.sub_x, R3.sub_y, R3.sub_z, R3.smul_x, R3.smul_y, R3.smul_z] <;> field_simp <;> ring
      · rw [if_neg h3]
        have h4 : c.focal ≤ c.depth B := by
          by_contra h
          exact h2 ⟨h3, h⟩
        have h3' := not_le.1 h3
        have hd : 0 < c.depth B - c.depth A := by linarith
        have hd' : c.depth A - c.depth B ≠ 0 := by linarith
        simp only
        intro X
        rw [hcomb]
        have e : 1 - (c.focal - c.depth B) / (c.depth A - c.depth B) = (c.focal - c.depth A) / (c.depth B - c.depth A) := by
          have hd'' := hd.ne'
          field_simp
          ring
        rw [e]
        have hu : (c.focal - c.depth A) / (c.depth B - c.depth A) ≤ 1 := (div_le_one hd).2 (by linarith)
        have hu0 : 0 < (c.focal - c.depth A) / (c.depth B - c.depth A) := div_pos (by linarith) hd
        have hm : (c.focal - c.depth A) / (c.depth B - c.depth A) * (c.depth B - c.depth A) = c.focal - c.depth A := div_mul_cancel₀ _ hd.ne'
        generalize (c.focal - c.depth A) / (c.depth B - c.depth A) = u at hu hu0 hm
        constructor
        · rintro ⟨l, l0, l1, rfl⟩
          simp only
          have ee : A + u • (B - A) + l • (B - (A + u • (B - A))) = A + (u + l * (1 - u)) • (B - A) := by
            ext <;> simp only [R3.add_x, R3.add_y, R3.add_z, R3.sub_x, R3.sub_y, R3.sub_z, R3.smul_x, R3.smul_y, R3.smul_z] <;> ring
          rw [ee]
          refine ⟨⟨_, by nlinarith, by nlinarith, rfl⟩, ?_⟩
          rw [hl]
          nlinarith [mul_nonneg (mul_nonneg l0 (sub_nonneg.2 hu)) hd.le]
        · rintro ⟨⟨l, l0, l1, rfl⟩, hf⟩
          simp only at hf ⊢
          rw [hl] at hf
          have hul : u ≤ l := by
            by_contra hc
            nlinarith [mul_pos (sub_pos.2 (not_le.1 hc)) hd]
          rcases eq_or_lt_of_le hu with hu | hu
          · have : l = 1 := by linarith
            subst this
            subst hu
            exact ⟨0, le_refl _, zero_le_one, by
              ext <;> simp only [R3.add_x, R3.add_y, R3.add_z, R3.sub_x, R3.sub_y, R3.sub_z, R3.smul_x, R3.smul_y, R3.smul_z] <;> ring⟩
          · have hp : 0 < 1 - u := by linarith
            refine ⟨(l - u) / (1 - u), div_nonneg (by linarith) hp.le, (div_le_one hp).2 (by linarith), ?_⟩
            ext <;> simp only [R3.add_x, R3.add_y, R3.add_z, R3.sub_x, R3.sub_y, R3.sub_z, R3.smul_x, R3.smul_y, R3.smul_z] <;> field_simp <;> ring

/-- A segment that crosses the focal plane. -/
example : camera.scale = 1 ∧ camera.depth ⟨0, 0, 0⟩ < camera.focal ∧ camera.focal < camera.depth ⟨0, 0, 3⟩ := by
  refine ⟨rfl, ?_, ?_⟩ <;> norm_num [camera, Perspective.depth, Perspective.toCamera, M3.mulVec, M3.transpose, M3.identity, R3.dot]

/-- C78 is violated when the scales of the frames are different: a segment that is in front of the focal plane is returned. -/
theorem C78_focal_counterexample : ∃ (c : Perspective) (segment : Segment), c.Orthonormal ∧ 0 < c.scale ∧ 0 < c.focal ∧ (∀ X, segment.Contains X → c.depth X < c.focal) ∧
    c.segmentBehindFocalPlane segment = some segment := by
  refine ⟨⟨⟨0, 0, 0⟩, 2, M3.identity, 1⟩, ⟨⟨0, 0, 1⟩, ⟨1, 0, 1⟩⟩, ?_, by norm_num, by norm_num, ?_, ?_⟩
  · unfold Perspective.Orthonormal
    ext <;> norm_num [M3.mul, M3.transpose, M3.identity, R3.dot]
  · rintro X ⟨l, -, -, rfl⟩
    norm_num [Perspective.depth, Perspective.toCamera, M3.mulVec, M3.transpose, M3.identity, R3.dot]
  · unfold Perspective.segmentBehindFocalPlane
    simp only
    rw [if_pos]
    norm_num [M3.mulVec, M3.identity, R3.dot]

/-! ## The angles -/

theorem dot_toCamera {c : Perspective} (ho : c.Orthonormal) (p q : R3 ℝ) : R3.dot (c.toCamera p) (c.toCamera q) = (c.scale⁻¹) ^ 2 * R3.dot (p - c.camera) (q - c.camera) := by
  unfold Perspective.Orthonormal at ho
  unfold Perspective.toCamera
  generalize p - c.camera = v
  generalize q - c.camera = w
  generalize c.axes = M at ho
  simp only [M3.ext_iff, R3.ext_iff, M3.mul, M3.transpose, M3.identity, R3.dot] at ho
  obtain ⟨⟨a1, a2, a3⟩, ⟨b1, b2, b3⟩, c1, c2, c3⟩ := ho
  simp only [M3.mulVec, M3.transpose, R3.dot, R3.smul_x, R3.smul_y, R3.smul_z]
  linear_combination (c.scale⁻¹) ^ 2 * (v.x * w.x * a1 + v.x * w.y * a2 + v.x * w.z * a3 + v.y * w.x * b1 + v.y * w.y * b2 + v.y * w.z * b3 + v.z * w.x * c1 + v.z * w.y * c2 + v.z * w.z * c3)

/-- C78: the distance is the distance to the camera. -/
theorem C78_distance (c : Perspective) (p : R3 ℝ) : c.squaredDistanceFromCamera p = (p.x - c.camera.x) ^ 2 + (p.y - c.camera.y) ^ 2 + (p.z - c.camera.z) ^ 2 := by
  unfold Perspective.squaredDistanceFromCamera
  r3_ring

/-- C78: the squared tangent of the angular distance of two points, if they are not seen at a right angle. -/
theorem C78_tan (c : Perspective) (p q : R3 ℝ) (ho : c.Orthonormal) (hs : c.scale ≠ 0) (hd : R3.dot (p - c.camera) (q - c.camera) ≠ 0) :
    c.tanSqAngularDistance p q =
      Real.tan (Real.arccos (R3.dot (p - c.camera) (q - c.camera) / (Real.sqrt (c.squaredDistanceFromCamera p) * Real.sqrt (c.squaredDistanceFromCamera q)))) ^ 2 := by
  have hp : 0 < R3.normSq (p - c.camera) := normSq_pos fun e => hd (by rw [e]; simp [R3.dot])
  have hq : 0 < R3.normSq (q - c.camera) := normSq_pos fun e => hd (by rw [e]; simp [R3.dot])
  unfold Perspective.tanSqAngularDistance Perspective.squaredDistanceFromCamera
  simp only
  rw [lagrange, ← dot_self', ← dot_self' (c.toCamera q), dot_toCamera ho, dot_toCamera ho, dot_toCamera ho, dot_self', dot_self', Real.tan_arccos, div_pow]
  have hle : R3.dot (p - c.camera) (q - c.camera) ^ 2 ≤ R3.normSq (p - c.camera) * R3.normSq (q - c.camera) := by
    have := normSq_nonneg (R3.cross (p - c.camera) (q - c.camera))
    rw [lagrange] at this
    nlinarith
  have e : (R3.dot (p - c.camera) (q - c.camera) / (Real.sqrt (R3.normSq (p - c.camera)) * Real.sqrt (R3.normSq (q - c.camera)))) ^ 2 =
      R3.dot (p - c.camera) (q - c.camera) ^ 2 / (R3.normSq (p - c.camera) * R3.normSq (q - c.camera)) := by
    rw [div_pow, mul_pow, Real.sq_sqrt hp.le, Real.sq_sqrt hq.le]
  rw [e, Real.sq_sqrt (by rw [sub_nonneg]; exact (div_le_one (mul_pos hp hq)).2 hle)]
  have h1 := hp.ne'
  have h2 := hq.ne'
  field_simp

/-- C78: the squared sine of the angular radius of a sphere, seen from outside: a half-line from the camera enters the sphere if, and only if, it makes a smaller angle with the direction of the centre.
Seen from inside, it is one. -/
theorem C78_half_angle (c : Perspective) (sphere : Sphere) :
    (sphere.radius ^ 2 < R3.normSq (sphere.centre - c.camera) → ∀ v, Meets c.camera v sphere ↔ 0 < R3.dot v (sphere.centre - c.camera) ∧
      R3.normSq (R3.cross v (sphere.centre - c.camera)) < c.sphereSinSqHalfAngle sphere * (R3.normSq v * R3.normSq (sphere.centre - c.camera))) ∧
    (0 < R3.normSq (sphere.centre - c.camera) → R3.normSq (sphere.centre - c.camera) ≤ sphere.radius ^ 2 → c.sphereSinSqHalfAngle sphere = 1) := by
  have hRR : sphere.radius * sphere.radius = sphere.radius ^ 2 := by ring
  unfold Perspective.sphereSinSqHalfAngle Sphere.radiusSq
  rw [hRR]
  constructor
  · intro hout v
    have hK : 0 < R3.normSq (sphere.centre - c.camera) := lt_of_le_of_lt (sq_nonneg _) hout
    rw [min_eq_right ((div_le_one hK).2 hout.le), lagrange]
    have e1 : sphere.radius ^ 2 / R3.normSq (sphere.centre - c.camera) * (R3.normSq v * R3.normSq (sphere.centre - c.camera)) = sphere.radius ^ 2 * R3.normSq v := by
      have := hK.ne'
      field_simp
    rw [e1]
    have e2 : ∀ s : ℝ, R3.normSq (c.camera + s • v - sphere.centre) = R3.normSq (s • v - (sphere.centre - c.camera)) := by
      intro s
      r3_ring
    unfold Meets
    simp only [e2]
    generalize sphere.centre - c.camera = C at *
    generalize sphere.radius = R at *
    have hN := normSq_nonneg v
    constructor
    · rintro ⟨s, s0, hs⟩
      have e := ray_eq v C s R
      have h3 : s ^ 2 * R3.normSq v - 2 * s * R3.dot v C + (R3.normSq C - R ^ 2) < 0 := by linarith
      have hu : 0 < R3.dot v C := by
        by_contra hn
        nlinarith [mul_nonneg s0 (neg_nonneg.2 (not_lt.1 hn)), mul_nonneg (sq_nonneg s) hN]
      have hNp : 0 < R3.normSq v := by
        refine lt_of_le_of_ne hN fun e => ?_
        have : v = 0 := by
          by_contra hv
          exact absurd (normSq_pos hv) (by rw [← e]; exact lt_irrefl _)
        rw [this] at hu
        simp [R3.dot] at hu
      refine ⟨hu, ?_⟩
      nlinarith [sq_nonneg (s * R3.normSq v - R3.dot v C), mul_lt_mul_of_pos_left h3 hNp]
    · rintro ⟨hu, h⟩
      have hNp : 0 < R3.normSq v := by
        refine lt_of_le_of_ne hN fun e => ?_
        have : v = 0 := by
          by_contra hv
          exact absurd (normSq_pos hv) (by rw [← e]; exact lt_irrefl _)
        rw [this] at hu
        simp [R3.dot] at hu
      refine ⟨R3.dot v C / R3.normSq v, by positivity, ?_⟩
      have e := ray_eq v C (R3.dot v C / R3.normSq v) R
      have e3 : (R3.dot v C / R3.normSq v) ^ 2 * R3.normSq v - 2 * (R3.dot v C / R3.normSq v) * R3.dot v C + (R3.normSq C - R ^ 2) =
          (R3.normSq v * (R3.normSq C - R ^ 2) - R3.dot v C ^ 2) / R3.normSq v := by
        field_simp
        ring
      have : (R3.normSq v * (R3.normSq C - R ^ 2) - R3.dot v C ^ 2) / R3.normSq v < 0 := div_neg_of_neg_of_pos (by nlinarith) hNp
      linarith
  · intro hK hin
    exact min_eq_left ((one_le_div hK).2 hin)

/-! ## The projection -/

theorem rp2_cross (x y z x' y' z' : ℝ) : R3.cross (rp2 x y z) (rp2 x' y' z') = 0 ↔ R3.cross (⟨x, y, z⟩ : R3 ℝ) ⟨x', y', z'⟩ = 0 := by
  have key : ∀ v w : R3 ℝ, ∀ s t : ℝ, s ≠ 0 → t ≠ 0 → (R3.cross (s • v) (t • w) = 0 ↔ R3.cross v w = 0) := by
    intro v w s t hs ht
    have e : R3.cross (s • v) (t • w) = (s * t) • R3.cross v w := by
      unfold R3.cross
      ext <;> simp only [R3.smul_x, R3.smul_y, R3.smul_z] <;> ring
    rw [e]
    constructor
    · intro h
      by_contra hne
      exact smul_ne_zero' hne (mul_ne_zero hs ht) h
    · intro h
      rw [h]
      ext <;> simp
  have hr : ∀ a b d : ℝ, ∃ s : ℝ, s ≠ 0 ∧ rp2 a b d = s • (⟨a, b, d⟩ : R3 ℝ) := by
    intro a b d
    unfold rp2
    by_cases h : d < 0
    · rw [if_pos h]
      refine ⟨-1, by norm_num, ?_⟩
      ext <;> simp
    · rw [if_neg h]
      refine ⟨1, by norm_num, ?_⟩
      ext <;> simp
  obtain ⟨s, hs, es⟩ := hr x y z
  obtain ⟨t, ht, et⟩ := hr x' y' z'
  rw [es, et, key _ _ _ _ hs ht]

theorem rp2Equal_iff {v w : R3 ℝ} (hv : v ≠ 0) (hw : w ≠ 0) : rp2Equal v w ↔ R3.cross v w = 0 := by
  have hv' : ¬(v.x = 0 ∧ v.y = 0 ∧ v.z = 0) := fun h => hv (by ext <;> simp [h.1, h.2.1, h.2.2])
  have hw' : ¬(w.x = 0 ∧ w.y = 0 ∧ w.z = 0) := fun h => hw (by ext <;> simp [h.1, h.2.1, h.2.2])
  unfold rp2Equal
  rw [if_neg (not_or.2 ⟨hv', hw'⟩)]
  simp only [R3.ext_iff, R3.cross, R3.zero_x, R3.zero_y, R3.zero_z]
  by_cases hz : v.z = 0 ∧ w.z = 0
  · rw [if_pos hz, hz.1, hz.2]
    constructor
    · intro h
      exact ⟨by ring, by ring, by linarith⟩
    · rintro ⟨-, -, h⟩
      linarith
  · rw [if_neg hz]
    constructor
    · rintro ⟨h1, h2⟩
      refine ⟨by linarith, by linarith, ?_⟩
      by_cases hz1 : v.z = 0
      · have hz2 : w.z ≠ 0 := fun h => hz ⟨hz1, h⟩
        rw [hz1, mul_zero] at h1 h2
        rw [(mul_eq_zero.1 h1).resolve_right hz2, (mul_eq_zero.1 h2).resolve_right hz2]
        ring
      · apply mul_left_cancel₀ hz1
        linear_combination v.y * h1 - v.x * h2
    · rintro ⟨h1, h2, -⟩
      exact ⟨by linarith, by linarith⟩

/-- C78: two points have the same projection if, and only if, they are on a line that goes through the camera. -/
theorem C78_projection (c : Perspective) (p q : R3 ℝ) (ho : c.Orthonormal) (hs : c.scale ≠ 0) (hf : c.focal ≠ 0) (hp : p ≠ c.camera) (hq : q ≠ c.camera) :
    rp2Equal (c.project p) (c.project q) ↔ Aligned c.camera p q := by
  have hsub : ∀ r : R3 ℝ, r ≠ c.camera → 0 < R3.normSq (r - c.camera) := fun r hr => normSq_pos fun e => hr (by
    have hx := congrArg R3.x e
    have hy := congrArg R3.y e
    have hz := congrArg R3.z e
    simp only [R3.sub_x, R3.sub_y, R3.sub_z, R3.zero_x, R3.zero_y, R3.zero_z] at hx hy hz
    ext <;> linarith)
  have hs' : c.scale⁻¹ ≠ 0 := inv_ne_zero hs
  have hcam : ∀ r : R3 ℝ, r ≠ c.camera → c.toCamera r ≠ 0 := by
    intro r hr e
    have := dot_toCamera ho r r
    rw [e, dot_self', dot_self'] at this
    have h1 := mul_pos (pow_pos (abs_pos.2 hs') 2) (hsub r hr)
    rw [sq_abs, ← this] at h1
    simp [R3.normSq] at h1
  have hproj : ∀ r : R3 ℝ, r ≠ c.camera → c.project r ≠ 0 := by
    intro r hr e
    apply hcam r hr
    unfold Perspective.project rp2 at e
    by_cases hz : (c.toCamera r).z / c.focal < 0
    · rw [if_pos hz] at e
      have hx := congrArg R3.x e
      have hy := congrArg R3.y e
      have hz' := congrArg R3.z e
      simp only [R3.zero_x, R3.zero_y, R3.zero_z, neg_eq_zero] at hx hy hz'
      rw [hz'] at hz
      exact absurd hz (lt_irrefl _)
    · rw [if_neg hz] at e
      have hx := congrArg R3.x e
      have hy := congrArg R3.y e
      have hz' := congrArg R3.z e
      simp only [R3.zero_x, R3.zero_y, R3.zero_z] at hx hy hz'
      ext
      · exact hx
      · exact hy
      · exact (div_eq_zero_iff.1 hz').resolve_right hf
  rw [rp2Equal_iff (hproj p hp) (hproj q hq)]
  unfold Perspective.project
  rw [rp2_cross]
  have h1 : R3.cross (⟨(c.toCamera p).x, (c.toCamera p).y, (c.toCamera p).z / c.focal⟩ : R3 ℝ) ⟨(c.toCamera q).x, (c.toCamera q).y, (c.toCamera q).z / c.focal⟩ = 0 ↔
      R3.cross (c.toCamera p) (c.toCamera q) = 0 := by
    simp only [R3.ext_iff, R3.cross, R3.zero_x, R3.zero_y, R3.zero_z]
    refine and_congr ?_ (and_congr ?_ Iff.rfl)
    · rw [mul_div_assoc', div_mul_eq_mul_div, ← sub_div, div_eq_zero_iff, or_iff_left hf]
    · rw [mul_div_assoc', div_mul_eq_mul_div, ← sub_div, div_eq_zero_iff, or_iff_left hf]
  rw [h1]
  have h2 : ∀ v w : R3 ℝ, R3.cross v w = 0 ↔ R3.normSq v * R3.normSq w - R3.dot v w * R3.dot v w = 0 := by
    intro v w
    rw [← lagrange]
    constructor
    · intro h
      rw [h]
      simp [R3.normSq]
    · intro h
      by_contra hne
      exact absurd (normSq_pos hne) (by rw [h]; exact lt_irrefl _)
  unfold Aligned
  rw [h2, h2, ← dot_self', ← dot_self' (c.toCamera q), dot_toCamera ho, dot_toCamera ho, dot_toCamera ho, dot_self', dot_self']
  have h4 : (c.scale⁻¹ ^ 2) ^ 2 ≠ 0 := pow_ne_zero _ (pow_ne_zero _ hs')
  constructor
  · intro h
    apply (mul_eq_zero.1 (show (c.scale⁻¹ ^ 2) ^ 2 * _ = 0 from ?_)).resolve_left h4
    linear_combination h
  · intro h
    linear_combination (c.scale⁻¹ ^ 2) ^ 2 * h

/-- C78: the coordinates in the image: the point at depth `z` is projected on the plane at the focal distance. -/
theorem C78_image (c : Perspective) (p : R3 ℝ) (hf : c.focal ≠ 0) (hz : c.depth p ≠ 0) :
    (c.project p).x / (c.project p).z = c.focal * (c.toCamera p).x / c.depth p ∧ (c.project p).y / (c.project p).z = c.focal * (c.toCamera p).y / c.depth p := by
  unfold Perspective.depth at *
  unfold Perspective.project rp2
  by_cases h : (c.toCamera p).z / c.focal < 0
  · rw [if_pos h]
    simp only
    constructor <;> field_simp
  · rw [if_neg h]
    simp only
    constructor <;> field_simp

/-- The hypotheses of the theorems on angles and projections are satisfied. -/
example : camera.Orthonormal ∧ camera.scale ≠ 0 ∧ camera.focal ≠ 0 ∧ (⟨1, 2, 3⟩ : R3 ℝ) ≠ camera.camera ∧ (⟨2, 4, 6⟩ : R3 ℝ) ≠ camera.camera ∧ Aligned camera.camera ⟨1, 2, 3⟩ ⟨2, 4, 6⟩ ∧
    R3.dot (⟨1, 2, 3⟩ - camera.camera) (⟨2, 4, 6⟩ - camera.camera) ≠ 0 := by
  refine ⟨?_, by norm_num [camera], by norm_num [camera], ?_, ?_, ?_, by norm_num [camera, R3.dot]⟩
  · unfold Perspective.Orthonormal
    ext <;> norm_num [camera, M3.mul, M3.transpose, M3.identity, R3.dot]
  · intro h
    have := congrArg R3.x h
    norm_num [camera] at this
  · intro h
    have := congrArg R3.x h
    norm_num [camera] at this
  · unfold Aligned
    ext <;> norm_num [camera, R3.cross]

end Principia.Geometry.Perspectives
