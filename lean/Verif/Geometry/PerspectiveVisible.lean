import Verif.Geometry.PerspectivePlane

/-!
The visible parts of a segment, for one sphere.
-/

set_option linter.unusedSimpArgs false
set_option linter.unusedVariables false
set_option linter.unusedSectionVars false

namespace Principia.Geometry.Perspectives

open Principia.RootFinders

/-- The point of the line, seen from the camera. -/
def point (KA KB : R3 ℝ) (t : ℝ) : R3 ℝ := KA + t • (KB - KA)

/-- A point of the plane. -/
def combination (KA KB : R3 ℝ) (x y : ℝ) : R3 ℝ := x • KA + y • KB

macro "r3_ring" : tactic => `(tactic| (
  simp only [point, combination, R3.normSq, R3.dot, R3.cross, R3.sub_x, R3.sub_y, R3.sub_z, R3.add_x, R3.add_y, R3.add_z, R3.smul_x, R3.smul_y, R3.smul_z]
  ring))

theorem dot_combination (KA KB V : R3 ℝ) (x y : ℝ) : R3.dot (combination KA KB x y) V = x * R3.dot KA V + y * R3.dot KB V := by r3_ring

theorem dot_comm' (V W : R3 ℝ) : R3.dot V W = R3.dot W V := by r3_ring

theorem dot_self' (V : R3 ℝ) : R3.dot V V = R3.normSq V := rfl

theorem normSq_combination (KA KB : R3 ℝ) (x y : ℝ) :
    R3.normSq (combination KA KB x y) = R3.normSq KA * x ^ 2 + 2 * R3.dot KA KB * x * y + R3.normSq KB * y ^ 2 := by r3_ring

theorem point_eq (KA KB : R3 ℝ) (t : ℝ) : point KA KB t = combination KA KB (1 - t) t := by
  unfold point combination
  ext <;> simp only [R3.sub_x, R3.sub_y, R3.sub_z, R3.add_x, R3.add_y, R3.add_z, R3.smul_x, R3.smul_y, R3.smul_z] <;> ring

theorem lagrange (V W : R3 ℝ) : R3.normSq (R3.cross V W) = R3.normSq V * R3.normSq W - R3.dot V W * R3.dot V W := by r3_ring

theorem determinant_pos {KA KB : R3 ℝ} (h : R3.cross KA KB ≠ 0) : 0 < R3.normSq KA * R3.normSq KB - R3.dot KA KB * R3.dot KA KB := by
  rw [← lagrange]
  exact normSq_pos h

theorem quadratic_coefficient {L : Line} (H : L.Valid) : L.b₁ * L.b₂ = L.κ * (L.u1 ^ 2 - L.h * L.q2) := by
  have h0 := H.prod 0
  have h1 := H.prod 1
  have h2 := H.prod (-1)
  simp only [Line.P, Line.u, Line.Q] at h0 h1 h2
  linear_combination (h1 + h2) / 2 - h0

open Classical in
/-- The selection of the intersections. -/
theorem select {L : Line} (V : L.Valid) {σ : Ext} {τ l : ℝ → Ext} {δ₁ δ₂ : ℝ} (hσ : σ = L.σ) (hτ₂ : τ δ₂ = L.τ) (hτ₁ : τ δ₁ = L.τ) (hl₁ : l δ₁ = L.l₁) (hl₂ : l δ₂ = L.l₂) :
    ∃ ls, (if (∃ δ ∈ [δ₁, δ₂], Ext.lt (l δ) σ) ∧ (∃ δ ∈ [δ₁, δ₂], Ext.lt σ (l δ)) then
        if (([δ₁, δ₂].filter fun δ => isKept σ (τ δ) (l δ)).map l).length ≤ 1 then
          some (some ((([δ₁, δ₂].filter fun δ => isKept σ (τ δ) (l δ)).map l) ++ [infinityTimesDifference (τ δ₂) σ])) else none
      else some (some (([δ₁, δ₂].filter fun δ => isKept σ (τ δ) (l δ)).map l))) = some (some ls) ∧
      ∀ e, e ∈ ls ↔ (e = L.l₁ ∧ isKept L.σ L.τ L.l₁ = true) ∨ (e = L.l₂ ∧ isKept L.σ L.τ L.l₂ = true) ∨ (L.Hyper ∧ e = infinityTimesDifference L.τ L.σ) := by
  subst hσ
  have hm : ∀ e, e ∈ ([δ₁, δ₂].filter fun δ => isKept L.σ (τ δ) (l δ)).map l ↔ (e = L.l₁ ∧ isKept L.σ L.τ L.l₁ = true) ∨ (e = L.l₂ ∧ isKept L.σ L.τ L.l₂ = true) := by
    intro e
    simp only [List.mem_map, List.mem_filter, List.mem_cons, List.not_mem_nil, or_false]
    constructor
    · rintro ⟨δ, ⟨rfl | rfl, h⟩, rfl⟩
      · rw [hτ₁, hl₁] at h
        exact Or.inl ⟨hl₁, h⟩
      · rw [hτ₂, hl₂] at h
        exact Or.inr ⟨hl₂, h⟩
    · rintro (⟨rfl, h⟩ | ⟨rfl, h⟩)
      · exact ⟨δ₁, ⟨Or.inl rfl, by rw [hτ₁, hl₁]; exact h⟩, hl₁⟩
      · exact ⟨δ₂, ⟨Or.inr rfl, by rw [hτ₂, hl₂]; exact h⟩, hl₂⟩
  have hH : ((∃ δ ∈ [δ₁, δ₂], Ext.lt (l δ) L.σ) ∧ (∃ δ ∈ [δ₁, δ₂], Ext.lt L.σ (l δ))) ↔ L.Hyper := by
    unfold Line.Hyper
    simp only [List.mem_cons, List.not_mem_nil, or_false, exists_eq_or_imp, exists_eq_left, hl₁, hl₂]
  by_cases hy : L.Hyper
  · rw [if_pos (hH.2 hy)]
    have hlen : (([δ₁, δ₂].filter fun δ => isKept L.σ (τ δ) (l δ)).map l).length ≤ 1 := by
      rw [List.length_map]
      by_contra hc
      have hle := List.length_filter_le (fun δ => isKept L.σ (τ δ) (l δ)) [δ₁, δ₂]
      have heq : ([δ₁, δ₂].filter fun δ => isKept L.σ (τ δ) (l δ)).length = [δ₁, δ₂].length := by
        have h2 : [δ₁, δ₂].length = 2 := rfl
        omega
      rw [List.length_filter_eq_length_iff] at heq
      have k1 := heq δ₁ List.mem_cons_self
      have k2 := heq δ₂ (List.mem_cons_of_mem _ List.mem_cons_self)
      rw [hτ₁, hl₁] at k1
      rw [hτ₂, hl₂] at k2
      exact Line.hyper_check V hy ⟨k1, k2⟩
    rw [if_pos hlen]
    refine ⟨_, rfl, fun e => ?_⟩
    rw [List.mem_append, hm, List.mem_singleton, hτ₂]
    simp only [hy, true_and, or_assoc]
  · rw [if_neg (fun h => hy (hH.1 h))]
    refine ⟨_, rfl, fun e => ?_⟩
    rw [hm]
    simp only [hy, false_and, or_false]

/-- The intersections with the cone. -/
theorem cone_spec {KA KB : R3 ℝ} {α β r a b c p q k h q0 q1 q2 : ℝ} (ha : R3.normSq KA = a) (hb : R3.dot KA KB = b) (hc : R3.normSq KB = c) (hp : p = a * α + b * β) (hq : q = b * α + c * β)
    (hk : k = α * p + β * q) (hD : 0 < a * c - b * b) (hr : 0 < r) (hkr : r < k) (hp0 : p ≠ 0) (hu : q - p = 0 → 0 < p) (hh : h = k - r) (hq0 : q0 = a - 2 * p + h) (hq1 : q1 = 2 * b - 2 * a - 2 * (q - p))
    (hq2 : q2 = a - 2 * b + c) :
    ∃ (L : Line) (ls : List Ext), L.Valid ∧ coneIntersections KA KB (combination KA KB α β) r = some (some ls) ∧ (∀ e, e ∈ ls ++ solveQuadratic 0 q0 q1 q2 ↔ L.In e) ∧
      L.u0 = p ∧ L.u1 = q - p ∧ L.h = h ∧ L.q0 = q0 ∧ L.q1 = q1 ∧ L.q2 = q2 := by
  have hKAKH : R3.dot KA (combination KA KB α β) = p := by
    rw [dot_comm', dot_combination, dot_self', dot_comm' KB KA, ha, hb, hp]
    ring
  have hKBKH : R3.dot KB (combination KA KB α β) = q := by
    rw [dot_comm', dot_combination, dot_self', hb, hc, hq]
    ring
  have hKH : R3.normSq (combination KA KB α β) = k := by
    rw [normSq_combination, ha, hb, hc, hk, hp, hq]
    ring
  have hABKH : R3.dot (KB - KA) (combination KA KB α β) = q - p := by
    rw [← hKAKH, ← hKBKH]
    r3_ring
  have hdisc := discriminant_eq (r := r) hp hq hk rfl
  have hdp : 0 < 4 * r * (a * c - b * b) * p ^ 2 * (k - r) := by
    have := pow_pos (abs_pos.2 hp0) 2
    rw [sq_abs] at this
    have : 0 < k - r := by linarith
    positivity
  have hk0 : 0 < k := by linarith
  have ha2 := a2_eq hp hq hk rfl
  obtain ⟨δ₁, δ₂, hs, hne, r1, r2⟩ := solve_two (a0 := r * (r * a - p * p)) (a1 := 2 * r * (b * p - a * q)) (a2 := c * p * p - 2 * b * p * q + a * q * q)
    (by rw [ha2]; exact (mul_pos hD hk0).ne') (by rw [hdisc]; exact hdp)
  obtain ⟨hS, hT, hprod⟩ := tangents hp hq hk rfl hp0 hD.ne' hne r1 r2 rfl rfl
  let γ : ℝ → ℝ := fun δ => (r - δ * q) / p
  have hγ : ∀ δ, γ δ * p + δ * q = r := by
    intro δ
    show (r - δ * q) / p * p + δ * q = r
    field_simp
    ring
  have hKAPH : ∀ δ, R3.dot KA (combination KA KB (γ δ) δ) = a * γ δ + b * δ := by
    intro δ
    rw [dot_comm', dot_combination, dot_self', dot_comm' KB KA, ha, hb]
    ring
  have hABPH : ∀ δ, R3.dot (KB - KA) (combination KA KB (γ δ) δ) = (b * γ δ + c * δ) - (a * γ δ + b * δ) := by
    intro δ
    rw [← hKAPH, ← hb, ← hc]
    r3_ring
  have hKHPH : ∀ δ, R3.dot (combination KA KB α β) (combination KA KB (γ δ) δ) = r := by
    intro δ
    rw [dot_comm', dot_combination, hKAKH, hKBKH]
    exact hγ δ
  let L : Line := ⟨p, q - p, h, r / k, a * γ δ₁ + b * δ₁, (b * γ δ₁ + c * δ₁) - (a * γ δ₁ + b * δ₁), a * γ δ₂ + b * δ₂, (b * γ δ₂ + c * δ₂) - (a * γ δ₂ + b * δ₂), q0, q1, q2⟩
  have hN : ∀ l, L.Q l + 2 * L.u l - L.h = a * (1 - l) ^ 2 + 2 * b * (1 - l) * l + c * l ^ 2 := by
    intro l
    simp only [Line.Q, Line.u, L]
    rw [hq0, hq1, hq2]
    ring
  have hG : ∀ l, R3.normSq (point KA KB l) = a * (1 - l) ^ 2 + 2 * b * (1 - l) * l + c * l ^ 2 := by
    intro l
    rw [point_eq, normSq_combination, ha, hb, hc]
  have hX : ∀ l, point KA KB l ≠ 0 := by
    intro l e
    have hcr : R3.cross KA KB = 0 := by
      have e1 : R3.cross (point KA KB l) (KB - KA) = R3.cross KA KB := by
        unfold point R3.cross
        ext <;> simp only [R3.sub_x, R3.sub_y, R3.sub_z, R3.add_x, R3.add_y, R3.add_z, R3.smul_x, R3.smul_y, R3.smul_z] <;> ring
      rw [← e1, e]
      unfold R3.cross
      ext <;> simp
    have := lagrange KA KB
    rw [hcr, ha, hb, hc] at this
    rw [← this] at hD
    simp [R3.normSq] at hD
  have V : L.Valid := by
    refine ⟨?_, ?_, ?_, ?_, ?_, ?_, ?_⟩
    · intro l
      simp only [Line.u, L]
      have e1 : a * γ δ₁ + a * γ δ₂ = a * (2 * (r / k) * α) := by
        have : γ δ₁ + γ δ₂ = 2 * (r / k) * α := by
          field_simp
          linear_combination hT
        rw [← mul_add, this]
      have sγ : γ δ₁ + γ δ₂ = 2 * (r / k) * α := by
        field_simp
        linear_combination hT
      have sδ : δ₁ + δ₂ = 2 * (r / k) * β := by
        field_simp
        linear_combination hS
      rw [hp, hq]
      linear_combination ((1 - l) * a + l * b) * sγ + ((1 - l) * b + l * c) * sδ
    · intro l
      have := hprod (1 - l) l
      have hu' : L.u l = (1 - l) * p + l * q := by
        simp only [Line.u, L]
        ring
      have hP : L.P l = ((1 - l) * p + l * q) ^ 2 - (k - r) * (a * (1 - l) ^ 2 + 2 * b * (1 - l) * l + c * l ^ 2) := by
        have hQ : L.Q l = a * (1 - l) ^ 2 + 2 * b * (1 - l) * l + c * l ^ 2 - 2 * L.u l + h := by
          have := hN l
          simp only [L] at this ⊢
          linarith
        unfold Line.P
        rw [hQ, hu']
        simp only [L, hh]
        ring
      rw [hP]
      simp only [L]
      have e : ∀ x y : ℝ, x * k = r * y → x = r / k * y := by
        intro x y hxy
        field_simp
        exact hxy
      rw [← e _ _ this]
      ring
    · simp only [L]
      linarith
    · exact div_pos hr hk0
    · simp only [L]
      rw [hq2]
      have : R3.normSq (KB - KA) = a - 2 * b + c := by
        rw [← ha, ← hb, ← hc]
        r3_ring
      rw [← this]
      refine normSq_pos fun e => ?_
      have hx := congrArg R3.x e
      have hy := congrArg R3.y e
      have hz := congrArg R3.z e
      simp only [R3.sub_x, R3.sub_y, R3.sub_z, R3.zero_x, R3.zero_y, R3.zero_z] at hx hy hz
      have : KB = KA := by
        ext <;> linarith
      subst this
      rw [dot_self', ha] at hb
      rw [ha] at hc
      rw [← hb, ← hc] at hD
      linarith
    · intro l
      rw [hN, ← hG]
      exact normSq_pos (hX l)
    · exact hu
  -- The list computed by the code.
  have hl₁ : Ext.div (-(a * γ δ₁ + b * δ₁)) ((b * γ δ₁ + c * δ₁) - (a * γ δ₁ + b * δ₁)) = L.l₁ := rfl
  have hl₂ : Ext.div (-(a * γ δ₂ + b * δ₂)) ((b * γ δ₂ + c * δ₂) - (a * γ δ₂ + b * δ₂)) = L.l₂ := rfl
  have hτ : ∀ δ, Ext.div (k - R3.dot (combination KA KB α β) (combination KA KB (γ δ) δ) - p) (q - p) = L.τ := by
    intro δ
    rw [hKHPH, ← hh]
    rfl
  have hσ : Ext.div (-p) (q - p) = L.σ := rfl
  have hcone : ∃ ls, coneIntersections KA KB (combination KA KB α β) r = some (some ls) ∧
      ∀ e, e ∈ ls ↔ (e = L.l₁ ∧ isKept L.σ L.τ L.l₁ = true) ∨ (e = L.l₂ ∧ isKept L.σ L.τ L.l₂ = true) ∨ (L.Hyper ∧ e = infinityTimesDifference L.τ L.σ) := by
    have hγ' : ∀ δ, ((r - δ * R3.dot KB (combination KA KB α β)) / R3.dot KA (combination KA KB α β)) • KA + δ • KB = combination KA KB (γ δ) δ := by
      intro δ
      rw [hKAKH, hKBKH]
      rfl
    have hs' : solveQuadratic 0 (r * (r * R3.normSq KA - R3.dot KA (combination KA KB α β) * R3.dot KA (combination KA KB α β)))
        (2 * r * (R3.dot KA KB * R3.dot KA (combination KA KB α β) - R3.normSq KA * R3.dot KB (combination KA KB α β)))
        (R3.normSq KB * R3.dot KA (combination KA KB α β) * R3.dot KA (combination KA KB α β) - 2 * R3.dot KA KB * R3.dot KA (combination KA KB α β) * R3.dot KB (combination KA KB α β) +
          R3.normSq KA * R3.dot KB (combination KA KB α β) * R3.dot KB (combination KA KB α β)) = [.fin δ₁, .fin δ₂] := by
      rw [hKAKH, hKBKH, ha, hb, hc]
      exact hs
    unfold coneIntersections
    simp only [hs']
    refine select (τ := fun δ => Ext.div (R3.normSq (combination KA KB α β) -
        R3.dot (combination KA KB α β) (((r - δ * R3.dot KB (combination KA KB α β)) / R3.dot KA (combination KA KB α β)) • KA + δ • KB) - R3.dot KA (combination KA KB α β))
        (R3.dot (KB - KA) (combination KA KB α β)))
      (l := fun δ => Ext.div (-R3.dot KA (((r - δ * R3.dot KB (combination KA KB α β)) / R3.dot KA (combination KA KB α β)) • KA + δ • KB))
        (R3.dot (KB - KA) (((r - δ * R3.dot KB (combination KA KB α β)) / R3.dot KA (combination KA KB α β)) • KA + δ • KB))) V ?_ ?_ ?_ ?_ ?_
    · rw [hKAKH, hABKH]
      exact hσ
    · beta_reduce
      rw [hγ', hKAKH, hABKH, hKH]
      exact hτ δ₂
    · beta_reduce
      rw [hγ', hKAKH, hABKH, hKH]
      exact hτ δ₁
    · beta_reduce
      rw [hγ', hKAPH, hABPH]
      exact hl₁
    · beta_reduce
      rw [hγ', hKAPH, hABPH]
      exact hl₂
  obtain ⟨ls, e1, e2⟩ := hcone
  refine ⟨L, ls, V, e1, ?_, rfl, rfl, rfl, rfl, rfl, rfl⟩
  intro e
  rw [List.mem_append, e2]
  unfold Line.In
  simp only [or_assoc]
  rfl

theorem cross_point (KA KB : R3 ℝ) (e f : ℝ) : R3.cross (point KA KB e) (point KA KB f) = (f - e) • R3.cross KA KB := by
  unfold point R3.cross
  ext <;> simp only [R3.sub_x, R3.sub_y, R3.sub_z, R3.add_x, R3.add_y, R3.add_z, R3.smul_x, R3.smul_y, R3.smul_z] <;> ring

theorem cross_direction (KA KB : R3 ℝ) (e : ℝ) : R3.cross (point KA KB e) (KB - KA) = R3.cross KA KB := by
  unfold point R3.cross
  ext <;> simp only [R3.sub_x, R3.sub_y, R3.sub_z, R3.add_x, R3.add_y, R3.add_z, R3.smul_x, R3.smul_y, R3.smul_z] <;> ring

theorem smul_ne {V W : R3 ℝ} (h : R3.cross V W ≠ 0) {s t : ℝ} (hs : s ≠ 0) (ht : t ≠ 0) : s • V ≠ t • W := by
  intro e
  apply h
  have hx := congrArg R3.x e
  have hy := congrArg R3.y e
  have hz := congrArg R3.z e
  simp only [R3.smul_x, R3.smul_y, R3.smul_z] at hx hy hz
  unfold R3.cross
  have hp : s ≠ 0 := hs
  ext
  · simp only [R3.zero_x]
    apply mul_left_cancel₀ hs
    linear_combination W.z * hy - W.y * hz
  · simp only [R3.zero_y]
    apply mul_left_cancel₀ hs
    linear_combination W.x * hz - W.z * hx
  · simp only [R3.zero_z]
    apply mul_left_cancel₀ hs
    linear_combination W.y * hx - W.x * hy

theorem smul_ne_zero' {V : R3 ℝ} (h : V ≠ 0) {s : ℝ} (hs : s ≠ 0) : s • V ≠ 0 := by
  intro e
  apply h
  have hx := congrArg R3.x e
  have hy := congrArg R3.y e
  have hz := congrArg R3.z e
  simp only [R3.smul_x, R3.smul_y, R3.smul_z, R3.zero_x, R3.zero_y, R3.zero_z] at hx hy hz
  ext
  · exact (mul_eq_zero.1 hx).resolve_left hs
  · exact (mul_eq_zero.1 hy).resolve_left hs
  · exact (mul_eq_zero.1 hz).resolve_left hs

section Sphere

variable {KA KB KC : R3 ℝ} {R : ℝ}

/-- The point of the line is hidden. -/
def HiddenAt (KA KB KC : R3 ℝ) (R t : ℝ) : Prop := ∃ s : ℝ, 0 ≤ s ∧ s ≤ 1 ∧ R3.normSq (s • point KA KB t - KC) < R ^ 2

/-- The ray to the point of the line touches the ball. -/
def TouchedAt (KA KB KC : R3 ℝ) (R t : ℝ) : Prop := ∃ s : ℝ, 0 < s ∧ s ≤ 1 ∧ R3.normSq (s • point KA KB t - KC) ≤ R ^ 2

/-- The shadow is convex. -/
theorem between_points (hcr : R3.cross KA KB ≠ 0) {e f t : ℝ} (he : TouchedAt KA KB KC R e) (hf : TouchedAt KA KB KC R f) (h1 : e < t) (h2 : t < f) : HiddenAt KA KB KC R t := by
  obtain ⟨s1, p1, q1, r1⟩ := he
  obtain ⟨s2, p2, q2, r2⟩ := hf
  have hfe : 0 < f - e := by linarith
  have hft : 0 < f - t := by linarith
  have hte : 0 < t - e := by linarith
  refine hidden_of_combination (x₁ := (f - t) / (f - e) / s1) (x₂ := (t - e) / (f - e) / s2) r1 r2 ?_ (by positivity) (by positivity) ?_ ?_
  · refine smul_ne ?_ p1.ne' p2.ne'
    rw [cross_point]
    exact smul_ne_zero' hcr hfe.ne'
  · have a1 : (f - t) / (f - e) ≤ (f - t) / (f - e) / s1 := le_div_self (by positivity) p1 q1
    have a2 : (t - e) / (f - e) ≤ (t - e) / (f - e) / s2 := le_div_self (by positivity) p2 q2
    have a3 : (f - t) / (f - e) + (t - e) / (f - e) = 1 := by
      field_simp
      ring
    linarith
  · unfold point
    ext <;> simp only [R3.sub_x, R3.sub_y, R3.sub_z, R3.add_x, R3.add_y, R3.add_z, R3.smul_x, R3.smul_y, R3.smul_z] <;> field_simp <;> ring

/-- The shadow extends to infinity in the direction of `W`. -/
theorem towards_infinity {V W X : R3 ℝ} (hcr : R3.cross V W ≠ 0) {d : ℝ} (hd : 0 < d) (hX : X = V + d • W) (hV : ∃ s : ℝ, 0 < s ∧ s ≤ 1 ∧ R3.normSq (s • V - KC) ≤ R ^ 2)
    (hout : R ^ 2 < R3.normSq KC) (hW : 0 < R3.dot W KC) (hW' : (R3.normSq KC - R ^ 2) * R3.normSq W ≤ R3.dot W KC ^ 2) : ∃ s : ℝ, 0 ≤ s ∧ s ≤ 1 ∧ R3.normSq (s • X - KC) < R ^ 2 := by
  obtain ⟨s1, p1, q1, r1⟩ := hV
  have hW0 : 0 < R3.normSq W := by
    refine normSq_pos fun e => ?_
    rw [e] at hW
    simp [R3.dot] at hW
  let s2 := R3.dot W KC / R3.normSq W
  have p2 : 0 < s2 := div_pos hW hW0
  have r2 : R3.normSq (s2 • W - KC) ≤ R ^ 2 := by
    have := ray_eq W KC s2 R
    have e : s2 ^ 2 * R3.normSq W - 2 * s2 * R3.dot W KC + (R3.normSq KC - R ^ 2) = (R3.normSq KC - R ^ 2) - R3.dot W KC ^ 2 / R3.normSq W := by
      simp only [s2]
      field_simp
      ring
    have h3 : R3.normSq KC - R ^ 2 ≤ R3.dot W KC ^ 2 / R3.normSq W := (le_div_iff₀ hW0).2 hW'
    linarith
  refine hidden_of_combination (x₁ := 1 / s1) (x₂ := d / s2) r1 r2 (smul_ne hcr p1.ne' p2.ne') (by positivity) (by positivity) ?_ ?_
  · have : 1 ≤ 1 / s1 := le_div_self zero_le_one p1 q1
    have : 0 < d / s2 := by positivity
    linarith
  · rw [hX]
    have n1 := p1.ne'
    have n2 := p2.ne'
    ext <;> simp only [R3.sub_x, R3.sub_y, R3.sub_z, R3.add_x, R3.add_y, R3.add_z, R3.smul_x, R3.smul_y, R3.smul_z] <;> field_simp

end Sphere

end Principia.Geometry.Perspectives
