import Verif.Geometry.PerspectiveVisible

/-!
The visible parts of a segment, for one sphere: the shadow and the intersections found by the code.
-/

set_option linter.unusedSimpArgs false
set_option linter.unusedVariables false
set_option linter.unusedSectionVars false

namespace Principia.Geometry.Perspectives

open Principia.RootFinders

section One

variable {KA KB KC : R3 ℝ} {R : ℝ}

/-- The line built from the vectors. -/
structure Fits (KA KB KC : R3 ℝ) (R : ℝ) (L : Line) : Prop where
  valid : L.Valid
  u0 : L.u0 = R3.dot KA KC
  u1 : L.u1 = R3.dot KB KC - R3.dot KA KC
  h : L.h = R3.normSq KC - R ^ 2
  q0 : L.q0 = R3.normSq KA - 2 * R3.dot KA KC + L.h
  q1 : L.q1 = 2 * R3.dot KA KB - 2 * R3.normSq KA - 2 * L.u1
  q2 : L.q2 = R3.normSq KA - 2 * R3.dot KA KB + R3.normSq KB

theorem Fits.u_eq {L : Line} (F : Fits KA KB KC R L) (t : ℝ) : L.u t = R3.dot (point KA KB t) KC := by
  unfold Line.u
  rw [F.u0, F.u1, point_eq, dot_combination]
  ring

theorem Fits.Q_eq {L : Line} (F : Fits KA KB KC R L) (t : ℝ) : L.Q t = R3.normSq (point KA KB t) - 2 * R3.dot (point KA KB t) KC + (R3.normSq KC - R ^ 2) := by
  unfold Line.Q
  rw [F.q0, F.q1, F.q2, F.h, F.u1, point_eq, dot_combination, normSq_combination]
  ring

theorem Fits.P_eq {L : Line} (F : Fits KA KB KC R L) (t : ℝ) : L.P t = R3.dot (point KA KB t) KC ^ 2 - (R3.normSq KC - R ^ 2) * R3.normSq (point KA KB t) := by
  unfold Line.P
  rw [F.Q_eq, F.u_eq, F.h]
  ring

theorem Fits.hidden {L : Line} (F : Fits KA KB KC R L) (t : ℝ) : HiddenAt KA KB KC R t ↔ L.Hid t := by
  have hh := F.valid.h
  rw [F.h] at hh
  unfold HiddenAt Line.Hid
  rw [F.Q_eq, F.P_eq, F.h, F.u_eq, sub_pos, ← trinomial_neg_iff (normSq_nonneg _) hh]
  simp only [← ray_eq, sub_neg]

theorem Fits.touched {L : Line} (F : Fits KA KB KC R L) {t : ℝ} (h : L.Touch t) : TouchedAt KA KB KC R t := by
  have hh := F.valid.h
  rw [F.h] at hh
  unfold Line.Touch at h
  rw [F.Q_eq, F.P_eq, F.h, F.u_eq, sub_nonneg] at h
  obtain ⟨s, h1, h2, h3⟩ := trinomial_nonpos (normSq_nonneg _) hh h
  refine ⟨s, h1, h2, ?_⟩
  rw [← ray_eq] at h3
  linarith

/-- What is hidden is what is between the intersections. -/
theorem Fits.between {L : Line} (F : Fits KA KB KC R L) (hcr : R3.cross KA KB ≠ 0) {ls : List Ext} (hls : ∀ e, e ∈ ls ↔ L.In e) (t : ℝ) : HiddenAt KA KB KC R t ↔ Between ls t := by
  have H := F.valid
  have hh := H.h
  have hout : R ^ 2 < R3.normSq KC := by
    rw [F.h] at hh
    linarith
  have hAB : R3.dot (KB - KA) KC = L.u1 := by
    rw [F.u1]
    r3_ring
  have hABq : R3.normSq (KB - KA) = L.q2 := by
    rw [F.q2]
    r3_ring
  have hrec : 0 ≤ L.b₁ * L.b₂ → (R3.normSq KC - R ^ 2) * R3.normSq (KB - KA) ≤ L.u1 ^ 2 := by
    intro h0
    rw [quadratic_coefficient H] at h0
    have := nonneg_of_mul_nonneg_right h0 H.κ
    rw [hABq, ← F.h]
    linarith
  constructor
  · intro h
    rw [F.hidden] at h
    obtain ⟨e, i1, l1⟩ := Line.below H h
    obtain ⟨f, i2, l2⟩ := Line.above H h
    exact ⟨e, (hls e).2 i1, f, (hls f).2 i2, l1, l2⟩
  · rintro ⟨e, i1, f, i2, l1, l2⟩
    rw [hls] at i1 i2
    cases e with
    | nan => exact absurd l1 (by simp [Ext.lt])
    | posInf => exact absurd l1 (by simp [Ext.lt])
    | fin e =>
      have te := F.touched (Line.in_fin H i1)
      cases f with
      | nan => exact absurd l2 (by simp [Ext.lt])
      | negInf => exact absurd l2 (by simp [Ext.lt])
      | fin f => exact between_points hcr te (F.touched (Line.in_fin H i2)) l1 l2
      | posInf =>
        obtain ⟨h1, h2⟩ := Line.in_posInf H i2
        have l1' : e < t := l1
        refine towards_infinity (V := point KA KB e) (W := KB - KA) (d := t - e) (by rw [cross_direction]; exact hcr) (by linarith) ?_ te hout (by rw [hAB]; exact h1) (by rw [hAB]; exact hrec h2)
        unfold point
        ext <;> simp only [R3.sub_x, R3.sub_y, R3.sub_z, R3.add_x, R3.add_y, R3.add_z, R3.smul_x, R3.smul_y, R3.smul_z] <;> ring
    | negInf =>
      obtain ⟨h1, h2⟩ := Line.in_negInf H i1
      cases f with
      | nan => exact absurd l2 (by simp [Ext.lt])
      | negInf => exact absurd l2 (by simp [Ext.lt])
      | posInf =>
        obtain ⟨h3, h4⟩ := Line.in_posInf H i2
        linarith
      | fin f =>
        have tf := F.touched (Line.in_fin H i2)
        have l2' : t < f := l2
        have hd : R3.dot (KA - KB) KC = -L.u1 := by
          rw [F.u1]
          r3_ring
        have hn : R3.normSq (KA - KB) = R3.normSq (KB - KA) := by r3_ring
        refine towards_infinity (V := point KA KB f) (W := KA - KB) (d := f - t) ?_ (by linarith) ?_ tf hout (by rw [hd]; linarith) (by rw [hd, hn, neg_sq]; exact hrec h2)
        · intro e
          apply hcr
          have hx := congrArg R3.x e
          have hy := congrArg R3.y e
          have hz := congrArg R3.z e
          unfold point R3.cross at *
          simp only [R3.sub_x, R3.sub_y, R3.sub_z, R3.add_x, R3.add_y, R3.add_z, R3.smul_x, R3.smul_y, R3.smul_z, R3.zero_x, R3.zero_y, R3.zero_z] at hx hy hz
          ext <;> simp only [R3.zero_x, R3.zero_y, R3.zero_z]
          · linear_combination -hx
          · linear_combination -hy
          · linear_combination -hz
        · unfold point
          ext <;> simp only [R3.sub_x, R3.sub_y, R3.sub_z, R3.add_x, R3.add_y, R3.add_z, R3.smul_x, R3.smul_y, R3.smul_z] <;> ring

/-! ## The plane -/

variable {α β : ℝ} (hp : R3.dot KA KC = R3.normSq KA * α + R3.dot KA KB * β) (hq : R3.dot KB KC = R3.dot KA KB * α + R3.normSq KB * β)

include hp hq

theorem distance_plane (x y : ℝ) : R3.normSq (combination KA KB x y - KC) =
    R3.normSq KA * (x - α) ^ 2 + 2 * R3.dot KA KB * (x - α) * (y - β) + R3.normSq KB * (y - β) ^ 2 + R3.normSq (combination KA KB α β - KC) := by
  have e : ∀ x y : ℝ, R3.normSq (combination KA KB x y - KC) = R3.normSq (combination KA KB x y) - 2 * R3.dot (combination KA KB x y) KC + R3.normSq KC := by
    intro x y
    r3_ring
  rw [e, e, normSq_combination, normSq_combination, dot_combination, dot_combination, hp, hq]
  ring

theorem projection_sq : R3.normSq (combination KA KB α β - KC) = R3.normSq KC - (α * R3.dot KA KC + β * R3.dot KB KC) := by
  have e : R3.normSq (combination KA KB α β - KC) = R3.normSq (combination KA KB α β) - 2 * R3.dot (combination KA KB α β) KC + R3.normSq KC := by r3_ring
  rw [e, normSq_combination, dot_combination, hp, hq]
  ring

theorem hidden_plane {t : ℝ} (h0 : 0 ≤ t) (h1 : t ≤ 1) (h : HiddenAt KA KB KC R t) : ∃ x y : ℝ, 0 ≤ x ∧ 0 ≤ y ∧
    R3.normSq KA * (x - α) ^ 2 + 2 * R3.dot KA KB * (x - α) * (y - β) + R3.normSq KB * (y - β) ^ 2 < R ^ 2 - R3.normSq (combination KA KB α β - KC) := by
  obtain ⟨s, s0, s1, hs⟩ := h
  refine ⟨s * (1 - t), s * t, mul_nonneg s0 (by linarith), mul_nonneg s0 h0, ?_⟩
  have e : s • point KA KB t = combination KA KB (s * (1 - t)) (s * t) := by
    unfold point combination
    ext <;> simp only [R3.sub_x, R3.sub_y, R3.sub_z, R3.add_x, R3.add_y, R3.add_z, R3.smul_x, R3.smul_y, R3.smul_z] <;> ring
  rw [e, distance_plane hp hq] at hs
  linarith

end One

/-- The minimum of a positive form. -/
theorem form_ge {a b c x y : ℝ} (hc : 0 < c) : x ^ 2 * (a * c - b * b) ≤ c * (a * x ^ 2 + 2 * b * x * y + c * y ^ 2) := by
  nlinarith [sq_nonneg (b * x + c * y)]

open Classical in
theorem visible_eq {c : Perspective} {segment : Segment} {sphere : Sphere} {KA KB KC : R3 ℝ} {RR : ℝ} (hKA : segment.first - c.camera = KA) (hKB : segment.second - c.camera = KB)
    (hKC : sphere.centre - c.camera = KC) (hRR : sphere.radiusSq = RR) : c.visibleSegments₁ segment sphere =
      if R3.normSq KC ≤ RR then some []
      else
        if R3.dot KA KC ≤ 0 ∧ R3.dot KB KC ≤ 0 then some [segment]
        else
          let determinant := R3.normSq KA * R3.normSq KB - R3.dot KA KB * R3.dot KA KB;
          if determinant = 0 then hide segment sphere []
          else
            let α := (R3.normSq KB * R3.dot KA KC - R3.dot KA KB * R3.dot KB KC) / determinant;
            let β := (R3.normSq KA * R3.dot KB KC - R3.dot KA KB * R3.dot KA KC) / determinant;
            let KH := combination KA KB α β;
            let CHSq := R3.normSq (KH - KC);
            if RR ≤ CHSq then some [segment]
            else
              let rSq := RR - CHSq;
              if (α < 0 ∧ rSq * R3.normSq KB / determinant ≤ α * α) ∨ (β < 0 ∧ rSq * R3.normSq KA / determinant ≤ β * β) then some [segment]
              else (coneIntersections KA KB KH rSq).bind fun ls =>
                match ls with
                | none => some [segment]
                | some ls => hide segment sphere ls := by
  subst hKA hKB hKC hRR
  rfl

/-- The parts of a segment that are visible. -/
theorem visible_spec (c : Perspective) (segment : Segment) (sphere : Sphere) (hout : sphere.radius ^ 2 < R3.normSq (sphere.centre - c.camera)) (hal : ¬Aligned c.camera segment.first segment.second)
    (hpl : ¬InPlane c.camera sphere segment.first) :
    ∃ r, c.visibleSegments₁ segment sphere = some r ∧ r.length ≤ 2 ∧
      (∀ t : ℝ, 0 ≤ t → t ≤ 1 → (∃ s ∈ r, s.Contains (segment.first + t • (segment.second - segment.first))) → ¬HiddenAt (segment.first - c.camera) (segment.second - c.camera) (sphere.centre - c.camera) sphere.radius t) ∧
      (∀ t : ℝ, 0 < t → t < 1 → ¬HiddenAt (segment.first - c.camera) (segment.second - c.camera) (sphere.centre - c.camera) sphere.radius t → ∃ s ∈ r, s.Contains (segment.first + t • (segment.second - segment.first))) ∧
      ∀ part ∈ r, ∃ s t : ℝ, 0 ≤ s ∧ s < t ∧ t ≤ 1 ∧ part.first = segment.first + s • (segment.second - segment.first) ∧ part.second = segment.first + t • (segment.second - segment.first) ∧
        (s = 0 ∨ TouchedAt (segment.first - c.camera) (segment.second - c.camera) (sphere.centre - c.camera) sphere.radius s) ∧
        (t = 1 ∨ TouchedAt (segment.first - c.camera) (segment.second - c.camera) (sphere.centre - c.camera) sphere.radius t) := by
  obtain ⟨A, B⟩ := segment
  obtain ⟨K, sc, ax, fo⟩ := c
  obtain ⟨C, R⟩ := sphere
  simp only [Aligned, InPlane] at hout hal hpl ⊢
  have hAB : A ≠ B := by
    rintro rfl
    apply hal
    unfold R3.cross
    ext <;> simp <;> ring
  -- The whole segment.
  have whole : (∀ t : ℝ, 0 ≤ t → t ≤ 1 → ¬HiddenAt (A - K) (B - K) (C - K) R t) → ([⟨A, B⟩] : List Segment).length ≤ 2 ∧
      (∀ t : ℝ, 0 ≤ t → t ≤ 1 → (∃ s ∈ ([⟨A, B⟩] : List Segment), s.Contains (A + t • (B - A))) → ¬HiddenAt (A - K) (B - K) (C - K) R t) ∧
      (∀ t : ℝ, 0 < t → t < 1 → ¬HiddenAt (A - K) (B - K) (C - K) R t → ∃ s ∈ ([⟨A, B⟩] : List Segment), s.Contains (A + t • (B - A))) ∧
      ∀ part ∈ ([⟨A, B⟩] : List Segment), ∃ s t : ℝ, 0 ≤ s ∧ s < t ∧ t ≤ 1 ∧ part.first = A + s • (B - A) ∧ part.second = A + t • (B - A) ∧
        (s = 0 ∨ TouchedAt (A - K) (B - K) (C - K) R s) ∧ (t = 1 ∨ TouchedAt (A - K) (B - K) (C - K) R t) := by
    intro h
    refine ⟨by simp, fun t h0 h1 _ => h t h0 h1, fun t h0 h1 _ => ⟨_, List.mem_singleton_self _, t, h0.le, h1.le, rfl⟩, ?_⟩
    intro part hpart
    rw [List.mem_singleton] at hpart
    subst hpart
    exact ⟨0, 1, le_refl _, one_pos, le_refl _, (zero_along A B).symm, (one_along A B).symm, Or.inl rfl, Or.inl rfl⟩
  generalize hKA : A - K = KA at *
  generalize hKB : B - K = KB at *
  generalize hKC : C - K = KC at *
  rw [visible_eq (RR := R ^ 2) hKA hKB hKC (by show R * R = R ^ 2; ring), if_neg (not_le.2 hout)]
  by_cases hb : R3.dot KA KC ≤ 0 ∧ R3.dot KB KC ≤ 0
  · rw [if_pos hb]
    refine ⟨_, rfl, whole fun t h0 h1 hh => ?_⟩
    obtain ⟨s, s0, s1, hs⟩ := hh
    have e := ray_eq (point KA KB t) KC s R
    have hu : R3.dot (point KA KB t) KC ≤ 0 := by
      rw [point_eq, dot_combination]
      nlinarith [mul_nonneg (sub_nonneg.2 h1) (neg_nonneg.2 hb.1), mul_nonneg h0 (neg_nonneg.2 hb.2)]
    nlinarith [mul_nonneg (sq_nonneg s) (normSq_nonneg (point KA KB t)), mul_nonneg s0 (neg_nonneg.2 hu)]
  · rw [if_neg hb]
    have hD := determinant_pos hal
    simp only
    rw [if_neg hD.ne']
    generalize hα : (R3.normSq KB * R3.dot KA KC - R3.dot KA KB * R3.dot KB KC) / (R3.normSq KA * R3.normSq KB - R3.dot KA KB * R3.dot KA KB) = α
    generalize hβ : (R3.normSq KA * R3.dot KB KC - R3.dot KA KB * R3.dot KA KC) / (R3.normSq KA * R3.normSq KB - R3.dot KA KB * R3.dot KA KB) = β
    rw [div_eq_iff hD.ne'] at hα hβ
    have hp : R3.dot KA KC = R3.normSq KA * α + R3.dot KA KB * β := by
      apply mul_right_cancel₀ hD.ne'
      linear_combination R3.normSq KA * hα + R3.dot KA KB * hβ
    have hq : R3.dot KB KC = R3.dot KA KB * α + R3.normSq KB * β := by
      apply mul_right_cancel₀ hD.ne'
      linear_combination R3.dot KA KB * hα + R3.normSq KB * hβ
    have ha0 : 0 < R3.normSq KA := by
      refine lt_of_le_of_ne (normSq_nonneg _) fun e => ?_
      rw [← e] at hD
      nlinarith [mul_self_nonneg (R3.dot KA KB)]
    have hc0 : 0 < R3.normSq KB := by
      refine lt_of_le_of_ne (normSq_nonneg _) fun e => ?_
      rw [← e] at hD
      nlinarith [mul_self_nonneg (R3.dot KA KB)]
    by_cases hr : R ^ 2 ≤ R3.normSq (combination KA KB α β - KC)
    · rw [if_pos hr]
      refine ⟨_, rfl, whole fun t h0 h1 hh => ?_⟩
      obtain ⟨x, y, -, -, h⟩ := hidden_plane hp hq h0 h1 hh
      have := normSq_nonneg (combination KA KB (x - α) (y - β))
      rw [normSq_combination] at this
      linarith
    · rw [if_neg hr]
      by_cases hw : (α < 0 ∧ (R ^ 2 - R3.normSq (combination KA KB α β - KC)) * R3.normSq KB / (R3.normSq KA * R3.normSq KB - R3.dot KA KB * R3.dot KA KB) ≤ α * α) ∨
          (β < 0 ∧ (R ^ 2 - R3.normSq (combination KA KB α β - KC)) * R3.normSq KA / (R3.normSq KA * R3.normSq KB - R3.dot KA KB * R3.dot KA KB) ≤ β * β)
      · rw [if_pos hw]
        refine ⟨_, rfl, whole fun t h0 h1 hh => ?_⟩
        obtain ⟨x, y, x0, y0, h⟩ := hidden_plane hp hq h0 h1 hh
        rcases hw with ⟨w1, w2⟩ | ⟨w1, w2⟩
        · rw [div_le_iff₀ hD] at w2
          have f1 := form_ge (a := R3.normSq KA) (b := R3.dot KA KB) (x := x - α) (y := y - β) hc0
          have f2 : α * α ≤ (x - α) ^ 2 := by nlinarith
          have f3 := mul_le_mul_of_nonneg_right f2 hD.le
          have f4 := mul_lt_mul_of_pos_left h hc0
          linarith
        · rw [div_le_iff₀ hD] at w2
          have f1 := form_ge (a := R3.normSq KB) (b := R3.dot KA KB) (x := y - β) (y := x - α) ha0
          have f2 : β * β ≤ (y - β) ^ 2 := by nlinarith
          have f3 := mul_le_mul_of_nonneg_right f2 hD.le
          have f4 := mul_lt_mul_of_pos_left h ha0
          linarith
      · rw [if_neg hw]
        have hps := projection_sq hp hq
        have hu : R3.dot KB KC - R3.dot KA KC = 0 → 0 < R3.dot KA KC := by
          intro e
          by_contra hn
          exact hb ⟨not_lt.1 hn, by linarith⟩
        obtain ⟨L, ls, V, e1, e2, e3, e4, e5, e6, e7, e8⟩ := cone_spec (r := R ^ 2 - R3.normSq (combination KA KB α β - KC)) (h := R3.normSq KC - R ^ 2) rfl rfl rfl hp hq rfl hD
          (by linarith [not_le.1 hr]) (by linarith) hpl hu (by linarith) rfl rfl rfl
        have F : Fits KA KB KC R L := ⟨V, e3, e4, e5, by rw [e6, e5], by rw [e7, e4], e8⟩
        rw [e1]
        simp only [Option.bind_some]
        have hbt := F.between hal (ls := ls ++ solveQuadratic 0 (R3.normSq KA - 2 * R3.dot KA KC + (R3.normSq KC - R ^ 2)) (2 * R3.dot KA KB - 2 * R3.normSq KA - 2 * (R3.dot KB KC - R3.dot KA KC))
          (R3.normSq KA - 2 * R3.dot KA KB + R3.normSq KB)) e2
        obtain ⟨r, h1, h2, h3, h4, h5⟩ := hide_spec (segment := ⟨A, B⟩) (sphere := ⟨C, R⟩) (ls := ls) hAB
          (L := ls ++ solveQuadratic 0 (R3.normSq KA - 2 * R3.dot KA KC + (R3.normSq KC - R ^ 2)) (2 * R3.dot KA KB - 2 * R3.normSq KA - 2 * (R3.dot KB KC - R3.dot KA KC))
            (R3.normSq KA - 2 * R3.dot KA KB + R3.normSq KB)) (by
              subst hKA hKB hKC
              simp only [Sphere.radiusSq]
              congr 2 <;> r3_ring) (by
              rw [e2]
              exact Line.in_nan V)
        refine ⟨r, h1, h2, fun t t0 t1 hc hh => h3 t t0 t1 hc ((hbt t).1 hh), fun t t0 t1 hh => h4 t t0 t1 fun hc => hh ((hbt t).2 hc), ?_⟩
        intro part hpart
        obtain ⟨s, t, s0, st, t1, f1, f2, f3, f4⟩ := (h5 part hpart).part
        refine ⟨s, t, s0, st, t1, f1, f2, f3.imp id fun f => ?_, f4.imp id fun f => ?_⟩
        · rw [e2] at f
          exact F.touched (Line.in_fin V f)
        · rw [e2] at f
          exact F.touched (Line.in_fin V f)

end Principia.Geometry.Perspectives
