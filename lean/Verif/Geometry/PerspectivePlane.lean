import Verif.Geometry.PerspectiveLine

/-!
The computations in the plane that contains the camera and the segment, and the list of the intersections.
-/

set_option linter.unusedSimpArgs false
set_option linter.unusedVariables false
set_option linter.unusedSectionVars false

namespace Principia.Geometry.Perspectives

open Principia.RootFinders

/-! ## The tangents -/

theorem vieta {a0 a1 a2 x y : ℝ} (hx : a0 + a1 * x + a2 * x ^ 2 = 0) (hy : a0 + a1 * y + a2 * y ^ 2 = 0) (h : x ≠ y) : a2 * (x + y) = -a1 ∧ a2 * (x * y) = a0 := by
  have h1 : (x - y) * (a1 + a2 * (x + y)) = 0 := by linear_combination hx - hy
  have h2 : a1 + a2 * (x + y) = 0 := (mul_eq_zero.1 h1).resolve_left (sub_ne_zero.2 h)
  exact ⟨by linarith, by linear_combination x * h2 - hx⟩

section Plane

variable {a b c α β r p q k D : ℝ} (hp : p = a * α + b * β) (hq : q = b * α + c * β) (hk : k = α * p + β * q) (hD : D = a * c - b * b)

include hp hq hk hD

theorem a2_eq : c * p * p - 2 * b * p * q + a * q * q = D * k := by
  subst hk hD
  subst hp hq
  ring

theorem a1_eq : 2 * r * (b * p - a * q) = -(2 * r * D * β) := by
  subst hk hD
  subst hp hq
  ring

theorem discriminant_eq : (2 * r * (b * p - a * q)) * (2 * r * (b * p - a * q)) - 4 * (r * (r * a - p * p)) * (c * p * p - 2 * b * p * q + a * q * q) = 4 * r * D * p ^ 2 * (k - r) := by
  subst hk hD
  subst hp hq
  ring

variable {δ₁ δ₂ γ₁ γ₂ : ℝ} (hp0 : p ≠ 0) (hD0 : D ≠ 0) (hne : δ₁ ≠ δ₂)
  (h₁ : r * (r * a - p * p) + 2 * r * (b * p - a * q) * δ₁ + (c * p * p - 2 * b * p * q + a * q * q) * δ₁ ^ 2 = 0)
  (h₂ : r * (r * a - p * p) + 2 * r * (b * p - a * q) * δ₂ + (c * p * p - 2 * b * p * q + a * q * q) * δ₂ ^ 2 = 0)
  (hγ₁ : γ₁ = (r - δ₁ * q) / p) (hγ₂ : γ₂ = (r - δ₂ * q) / p)

include hp0 hD0 hne h₁ h₂ hγ₁ hγ₂

theorem tangents : (δ₁ + δ₂) * k = 2 * r * β ∧ (γ₁ + γ₂) * k = 2 * r * α ∧
    ∀ x y, (x * (a * γ₁ + b * δ₁) + y * (b * γ₁ + c * δ₁)) * (x * (a * γ₂ + b * δ₂) + y * (b * γ₂ + c * δ₂)) * k =
      r * ((x * p + y * q) ^ 2 - (k - r) * (a * x ^ 2 + 2 * b * x * y + c * y ^ 2)) := by
  obtain ⟨v1, v2⟩ := vieta h₁ h₂ hne
  rw [a2_eq hp hq hk hD] at v1 v2
  rw [a1_eq (r := r) hp hq hk hD] at v1
  have g1 : γ₁ * p = r - δ₁ * q := by rw [hγ₁]; field_simp
  have g2 : γ₂ * p = r - δ₂ * q := by rw [hγ₂]; field_simp
  have haq : a * q - b * p = D * β := by rw [hD, hp, hq]; ring
  have hS : (δ₁ + δ₂) * k = 2 * r * β := by
    refine mul_left_cancel₀ hD0 ?_
    linear_combination v1
  have hT : (γ₁ + γ₂) * k = 2 * r * α := by
    refine mul_left_cancel₀ hp0 ?_
    linear_combination k * g1 + k * g2 - q * hS + 2 * r * hk
  have hDk : D * k = c * p * p - 2 * b * p * q + a * q * q := (a2_eq hp hq hk hD).symm
  have hg : D * k * (γ₁ * γ₂) = r * (r * c - q * q) := by
    refine mul_left_cancel₀ (pow_ne_zero 2 hp0) ?_
    linear_combination D * k * (γ₂ * p) * g1 + D * k * (r - δ₁ * q) * g2 - r * q * D * hS + q ^ 2 * v2 + r ^ 2 * hDk + 2 * r ^ 2 * q * haq
  have hm : D * k * (γ₁ * δ₂ + γ₂ * δ₁) = 2 * r * (p * q - r * b) := by
    refine mul_left_cancel₀ hp0 ?_
    linear_combination D * k * δ₂ * g1 + D * k * δ₁ * g2 + r * D * hS - 2 * q * v2 - 2 * r ^ 2 * haq
  refine ⟨hS, hT, fun x y => ?_⟩
  refine mul_left_cancel₀ hD0 ?_
  have key : D * ((x * (a * γ₁ + b * δ₁) + y * (b * γ₁ + c * δ₁)) * (x * (a * γ₂ + b * δ₂) + y * (b * γ₂ + c * δ₂)) * k) =
      (x * a + y * b) ^ 2 * (r * (r * c - q * q)) + (x * a + y * b) * (x * b + y * c) * (2 * r * (p * q - r * b)) + (x * b + y * c) ^ 2 * (r * (r * a - p * p)) := by
    linear_combination (x * a + y * b) ^ 2 * hg + (x * a + y * b) * (x * b + y * c) * hm + (x * b + y * c) ^ 2 * v2
  rw [key]
  subst hk hD
  subst hp hq
  ring

end Plane

theorem solve_two {a0 a1 a2 : ℝ} (h2 : a2 ≠ 0) (hd : 0 < a1 * a1 - 4 * a0 * a2) :
    ∃ x y, solveQuadratic 0 a0 a1 a2 = [.fin x, .fin y] ∧ x ≠ y ∧ a0 + a1 * x + a2 * x ^ 2 = 0 ∧ a0 + a1 * y + a2 * y ^ 2 = 0 := by
  obtain ⟨h3, h4, h5⟩ := C41_quadratic 0 a0 a1 a2 (Or.inr h2)
  have hl : (solveQuadratic 0 a0 a1 a2).length = 2 := by
    unfold solveQuadratic
    simp only
    rw [if_neg hd.ne', if_neg (not_lt.2 hd.le)]
    classical
    refine (apply_ite List.length _ _ _).trans ?_
    simp only [List.length_cons, List.length_nil, ite_self]
  generalize hs : solveQuadratic 0 a0 a1 a2 = l at h3 h4 h5 hl
  match l, hl with
  | [e, f], _ =>
    obtain ⟨x, rfl⟩ := h5 h2 e (by simp)
    obtain ⟨y, rfl⟩ := h5 h2 f (by simp)
    refine ⟨x, y, rfl, ?_, ?_, ?_⟩
    · have : Ext.lt (.fin x) (.fin y) := by simpa using h4
      exact ne_of_lt this
    · have := (h3 x).1 (by simp)
      rwa [sub_zero] at this
    · have := (h3 y).1 (by simp)
      rwa [sub_zero] at this

theorem solve_one {a0 a1 a2 : ℝ} (hd : a1 * a1 - 4 * a0 * a2 = 0) : ∃ e, solveQuadratic 0 a0 a1 a2 = [e] := by
  unfold solveQuadratic
  simp only
  rw [if_pos hd]
  exact ⟨_, rfl⟩

/-! ## The list of intersections -/

theorem lt_trans' {a b c : Ext} (h1 : Ext.lt a b) (h2 : Ext.lt b c) : Ext.lt a c := by
  cases a <;> cases b <;> cases c <;> simp only [Ext.lt] at h1 h2 ⊢
  exact lt_trans h1 h2

theorem minimum_spec {l : List Ext} (hn : Ext.nan ∉ l) (hl : l ≠ []) : ∃ m, minimum l = some m ∧ m ∈ l ∧ ∀ e ∈ l, Ext.le m e := by
  induction l with
  | nil => exact absurd rfl hl
  | cons e l ih =>
    have hne : e ≠ .nan := fun h => hn (h ▸ List.mem_cons_self)
    have hself : ∀ x : Ext, x ≠ .nan → Ext.le x x := by
      intro x hx
      cases x <;> simp [Ext.le] at hx ⊢
    by_cases h : l = []
    · subst h
      refine ⟨e, rfl, List.mem_cons_self, ?_⟩
      intro x hx
      rw [List.mem_singleton.1 hx]
      exact hself e hne
    · obtain ⟨m, h1, h2, h3⟩ := ih (fun h => hn (List.mem_cons_of_mem _ h)) h
      have hm : m ≠ .nan := fun h => hn (h ▸ List.mem_cons_of_mem _ h2)
      unfold minimum
      rw [h1]
      by_cases hlt : Ext.lt m e
      · refine ⟨m, by simp only; rw [if_pos hlt], List.mem_cons_of_mem _ h2, ?_⟩
        intro x hx
        rcases List.mem_cons.1 hx with rfl | hx
        · revert hlt hne hm
          cases m <;> cases x <;> simp [Ext.lt, Ext.le]
          exact le_of_lt
        · exact h3 x hx
      · refine ⟨e, by simp only; rw [if_neg hlt], List.mem_cons_self, ?_⟩
        intro x hx
        rcases List.mem_cons.1 hx with rfl | hx
        · exact hself _ hne
        · have := h3 x hx
          revert hlt hne hm this
          cases m <;> cases x <;> cases e <;> simp [Ext.lt, Ext.le]
          exact le_trans

theorem maximum_spec {l : List Ext} (hn : Ext.nan ∉ l) (hl : l ≠ []) : ∃ m, maximum l = some m ∧ m ∈ l ∧ ∀ e ∈ l, Ext.le e m := by
  induction l with
  | nil => exact absurd rfl hl
  | cons e l ih =>
    have hne : e ≠ .nan := fun h => hn (h ▸ List.mem_cons_self)
    have hself : ∀ x : Ext, x ≠ .nan → Ext.le x x := by
      intro x hx
      cases x <;> simp [Ext.le] at hx ⊢
    by_cases h : l = []
    · subst h
      refine ⟨e, rfl, List.mem_cons_self, ?_⟩
      intro x hx
      rw [List.mem_singleton.1 hx]
      exact hself e hne
    · obtain ⟨m, h1, h2, h3⟩ := ih (fun h => hn (List.mem_cons_of_mem _ h)) h
      have hm : m ≠ .nan := fun h => hn (h ▸ List.mem_cons_of_mem _ h2)
      unfold maximum
      rw [h1]
      by_cases hlt : Ext.lt e m
      · refine ⟨m, by simp only; rw [if_pos hlt], List.mem_cons_of_mem _ h2, ?_⟩
        intro x hx
        rcases List.mem_cons.1 hx with rfl | hx
        · revert hlt hne hm
          cases m <;> cases x <;> simp [Ext.lt, Ext.le]
          exact le_of_lt
        · exact h3 x hx
      · refine ⟨e, by simp only; rw [if_neg hlt], List.mem_cons_self, ?_⟩
        intro x hx
        rcases List.mem_cons.1 hx with rfl | hx
        · exact hself _ hne
        · have := h3 x hx
          revert hlt hne hm this
          cases m <;> cases x <;> cases e <;> simp [Ext.lt, Ext.le]
          exact fun a b => le_trans b a

/-- The points of the line that are between two intersections. -/
def Between (l : List Ext) (t : ℝ) : Prop := ∃ e ∈ l, ∃ f ∈ l, Ext.lt e (.fin t) ∧ Ext.lt (.fin t) f

/-- A part of a segment. -/
structure PartOf (segment : Segment) (ls : List Ext) (part : Segment) : Prop where
  part : ∃ s t : ℝ, 0 ≤ s ∧ s < t ∧ t ≤ 1 ∧ part.first = segment.first + s • (segment.second - segment.first) ∧ part.second = segment.first + t • (segment.second - segment.first) ∧
    (s = 0 ∨ Ext.fin s ∈ ls) ∧ (t = 1 ∨ Ext.fin t ∈ ls)

theorem contains_part {A B : R3 ℝ} {s t : ℝ} (h : s < t) (X : R3 ℝ) :
    Segment.Contains ⟨A + s • (B - A), A + t • (B - A)⟩ X ↔ ∃ l, s ≤ l ∧ l ≤ t ∧ X = A + l • (B - A) := by
  unfold Segment.Contains
  simp only
  have e : ∀ l : ℝ, A + s • (B - A) + l • (A + t • (B - A) - (A + s • (B - A))) = A + (s + l * (t - s)) • (B - A) := by
    intro l
    ext <;> simp only [R3.add_x, R3.add_y, R3.add_z, R3.sub_x, R3.sub_y, R3.sub_z, R3.smul_x, R3.smul_y, R3.smul_z] <;> ring
  have hp : 0 < t - s := by linarith
  constructor
  · rintro ⟨l, h0, h1, rfl⟩
    exact ⟨s + l * (t - s), by nlinarith, by nlinarith, e l⟩
  · rintro ⟨l, h0, h1, rfl⟩
    refine ⟨(l - s) / (t - s), div_nonneg (by linarith) hp.le, (div_le_one hp).2 (by linarith), ?_⟩
    rw [e]
    congr 2
    field_simp
    ring

theorem zero_along (A B : R3 ℝ) : A + (0 : ℝ) • (B - A) = A := by
  ext <;> simp [R3.add_x, R3.add_y, R3.add_z, R3.sub_x, R3.sub_y, R3.sub_z, R3.smul_x, R3.smul_y, R3.smul_z]

theorem one_along (A B : R3 ℝ) : A + (1 : ℝ) • (B - A) = B := by
  ext <;> simp [R3.add_x, R3.add_y, R3.add_z, R3.sub_x, R3.sub_y, R3.sub_z, R3.smul_x, R3.smul_y, R3.smul_z]

theorem contains_whole (segment : Segment) (X : R3 ℝ) : segment.Contains X ↔ ∃ l : ℝ, 0 ≤ l ∧ l ≤ 1 ∧ X = segment.first + l • (segment.second - segment.first) := Iff.rfl

theorem along_inj {A B : R3 ℝ} (h : A ≠ B) {s t : ℝ} (e : A + s • (B - A) = A + t • (B - A)) : s = t := by
  by_contra hne
  apply h
  have hx := congrArg R3.x e
  have hy := congrArg R3.y e
  have hz := congrArg R3.z e
  simp only [R3.add_x, R3.add_y, R3.add_z, R3.sub_x, R3.sub_y, R3.sub_z, R3.smul_x, R3.smul_y, R3.smul_z] at hx hy hz
  have hd : s - t ≠ 0 := sub_ne_zero.2 hne
  ext
  · have : (s - t) * (B.x - A.x) = 0 := by linarith
    linarith [(mul_eq_zero.1 this).resolve_left hd]
  · have : (s - t) * (B.y - A.y) = 0 := by linarith
    linarith [(mul_eq_zero.1 this).resolve_left hd]
  · have : (s - t) * (B.z - A.z) = 0 := by linarith
    linarith [(mul_eq_zero.1 this).resolve_left hd]

theorem contains_along {A B : R3 ℝ} (hAB : A ≠ B) {s t : ℝ} (h : s < t) (l : ℝ) : Segment.Contains ⟨A + s • (B - A), A + t • (B - A)⟩ (A + l • (B - A)) ↔ s ≤ l ∧ l ≤ t := by
  rw [contains_part h]
  constructor
  · rintro ⟨l', h0, h1, e⟩
    rw [along_inj hAB e]
    exact ⟨h0, h1⟩
  · rintro ⟨h0, h1⟩
    exact ⟨l, h0, h1, rfl⟩

/-- The result removes the points that are between two intersections, and perhaps an extremity. -/
theorem hide_spec {segment : Segment} {sphere : Sphere} {ls : List Ext} (hAB : segment.first ≠ segment.second) {L : List Ext}
    (hL : ls ++ solveQuadratic 0 (R3.normSq (sphere.centre - segment.first) - sphere.radiusSq)
      (-2 * R3.dot (segment.second - segment.first) (sphere.centre - segment.first)) (R3.normSq (segment.second - segment.first)) = L) (hn : Ext.nan ∉ L) :
    ∃ r, hide segment sphere ls = some r ∧ r.length ≤ 2 ∧
      (∀ t : ℝ, 0 ≤ t → t ≤ 1 → (∃ s ∈ r, s.Contains (segment.first + t • (segment.second - segment.first))) → ¬Between L t) ∧
      (∀ t : ℝ, 0 < t → t < 1 → ¬Between L t → ∃ s ∈ r, s.Contains (segment.first + t • (segment.second - segment.first))) ∧
      ∀ s ∈ r, PartOf segment L s := by
  obtain ⟨A, B⟩ := segment
  simp only at hAB hn hL ⊢
  unfold hide
  simp only
  rw [hL]
  have whole : PartOf ⟨A, B⟩ L ⟨A, B⟩ := ⟨0, 1, le_refl _, one_pos, le_refl _, (zero_along A B).symm, (one_along A B).symm, Or.inl rfl, Or.inl rfl⟩
  have inWhole : ∀ t : ℝ, 0 < t → t < 1 → ∃ s ∈ [(⟨A, B⟩ : Segment)], s.Contains (A + t • (B - A)) := fun t h0 h1 => ⟨_, List.mem_singleton.2 rfl, t, h0.le, h1.le, rfl⟩
  by_cases hl : L = []
  · subst hl
    refine ⟨[⟨A, B⟩], rfl, by simp, ?_, fun t h0 h1 _ => inWhole t h0 h1, ?_⟩
    · rintro t h0 h1 - ⟨e, he, -⟩
      cases he
    · intro s hs
      rw [List.mem_singleton.1 hs]
      exact whole
  obtain ⟨m, h1, h2, h3⟩ := minimum_spec hn hl
  obtain ⟨n, h4, h5, h6⟩ := maximum_spec hn hl
  rw [h1, h4]
  simp only
  have hm : m ≠ .nan := fun h => hn (h ▸ h2)
  have hnn : n ≠ .nan := fun h => hn (h ▸ h5)
  have hb : ∀ t, Between L t ↔ Ext.lt m (.fin t) ∧ Ext.lt (.fin t) n := by
    intro t
    constructor
    · rintro ⟨e, he, f, hf, a, b⟩
      constructor
      · have := h3 e he
        revert a this
        cases m <;> cases e <;> simp [Ext.lt, Ext.le]
        exact fun a b => lt_of_le_of_lt b a
      · have := h6 f hf
        revert b this
        cases n <;> cases f <;> simp [Ext.lt, Ext.le]
        exact fun a b => lt_of_lt_of_le a b
    · rintro ⟨a, b⟩
      exact ⟨m, h2, n, h5, a, b⟩
  have hmn : Ext.le m n := h3 n h5
  by_cases c1 : Ext.le (.fin 1) m ∨ Ext.le n (.fin 0)
  · rw [if_pos c1]
    refine ⟨_, rfl, by simp, ?_, fun t h0 h1 _ => inWhole t h0 h1, ?_⟩
    · intro t h0 h1 _
      rw [hb]
      rintro ⟨a, b⟩
      rcases c1 with c1 | c1
      · cases m <;> simp only [Ext.lt, Ext.le] at a c1
        linarith
      · cases n <;> simp only [Ext.lt, Ext.le] at b c1
        linarith
    · intro s hs
      rw [List.mem_singleton.1 hs]
      exact whole
  rw [if_neg c1]
  simp only [hb]
  clear hb
  -- The beginning of the segment.
  have low : ∀ x : ℝ, 0 < x → x < 1 → Ext.fin x ∈ L → PartOf ⟨A, B⟩ L ⟨A, A + x • (B - A)⟩ ∧ ∀ t : ℝ, Segment.Contains ⟨A, A + x • (B - A)⟩ (A + t • (B - A)) ↔ 0 ≤ t ∧ t ≤ x := by
    intro x h0 h1 hx
    refine ⟨⟨0, x, le_refl _, h0, h1.le, (zero_along A B).symm, rfl, Or.inl rfl, Or.inr hx⟩, fun t => ?_⟩
    have := contains_along hAB h0 t
    rwa [zero_along] at this
  -- The end of the segment.
  have high : ∀ y : ℝ, 0 < y → y < 1 → Ext.fin y ∈ L → PartOf ⟨A, B⟩ L ⟨A + y • (B - A), B⟩ ∧ ∀ t : ℝ, Segment.Contains ⟨A + y • (B - A), B⟩ (A + t • (B - A)) ↔ y ≤ t ∧ t ≤ 1 := by
    intro y h0 h1 hy
    refine ⟨⟨y, 1, h0.le, h1, le_refl _, rfl, (one_along A B).symm, Or.inr hy, Or.inl rfl⟩, fun t => ?_⟩
    have := contains_along hAB h1 t
    rwa [one_along] at this
  cases m with
  | nan => exact absurd rfl hm
  | posInf => exact absurd (Or.inl trivial) c1
  | negInf =>
    cases n with
    | nan => exact absurd rfl hnn
    | negInf => exact absurd (Or.inr trivial) c1
    | posInf =>
      rw [if_pos ⟨trivial, trivial⟩]
      refine ⟨_, rfl, by simp, ?_, ?_, by simp⟩
      · rintro t - - ⟨s, hs, -⟩
        cases hs
      · intro t h0 h1 hc
        exact absurd ⟨trivial, trivial⟩ hc
    | fin y =>
      have hy0 : 0 < y := by
        by_contra hc
        exact c1 (Or.inr (not_lt.1 hc))
      by_cases hy1 : 1 ≤ y
      · rw [if_pos ⟨trivial, hy1⟩]
        refine ⟨_, rfl, by simp, ?_, ?_, by simp⟩
        · rintro t - - ⟨s, hs, -⟩
          cases hs
        · intro t h0 h1 hc
          exact absurd ⟨trivial, lt_of_lt_of_le h1 hy1⟩ hc
      · have hy1' := not_le.1 hy1
        obtain ⟨p1, p2⟩ := high y hy0 hy1' h5
        rw [if_neg (fun h => hy1 h.2), if_neg (fun h => h.1.elim), if_pos (show Ext.le .negInf (.fin 0) from trivial)]
        refine ⟨_, rfl, by simp, ?_, ?_, ?_⟩
        · rintro t h0 h1 ⟨s, hs, hc⟩ ⟨-, hb⟩
          rw [List.mem_singleton.1 hs, p2] at hc
          exact absurd hb (not_lt.2 hc.1)
        · intro t h0 h1 hc
          refine ⟨_, List.mem_singleton.2 rfl, (p2 t).2 ⟨?_, h1.le⟩⟩
          by_contra hn
          exact hc ⟨trivial, not_le.1 hn⟩
        · intro s hs
          rw [List.mem_singleton.1 hs]
          exact p1
  | fin x =>
    have hx1 : x < 1 := by
      by_contra hc
      exact c1 (Or.inl (not_lt.1 hc))
    cases n with
    | nan => exact absurd rfl hnn
    | negInf => exact absurd (Or.inr trivial) c1
    | posInf =>
      by_cases hx0 : x ≤ 0
      · rw [if_pos ⟨hx0, trivial⟩]
        refine ⟨_, rfl, by simp, ?_, ?_, by simp⟩
        · rintro t - - ⟨s, hs, -⟩
          cases hs
        · intro t h0 h1 hc
          exact absurd ⟨lt_of_le_of_lt hx0 h0, trivial⟩ hc
      · have hx0' := not_le.1 hx0
        obtain ⟨p1, p2⟩ := low x hx0' hx1 h2
        rw [if_neg (fun h => hx0 h.1), if_neg (fun h => h.2.elim), if_neg (show ¬Ext.le (.fin x) (.fin 0) from hx0)]
        refine ⟨_, rfl, by simp, ?_, ?_, ?_⟩
        · rintro t h0 h1 ⟨s, hs, hc⟩ ⟨hb, -⟩
          rw [List.mem_singleton.1 hs, p2] at hc
          exact absurd hb (not_lt.2 hc.2)
        · intro t h0 h1 hc
          refine ⟨_, List.mem_singleton.2 rfl, (p2 t).2 ⟨h0.le, ?_⟩⟩
          by_contra hn
          exact hc ⟨not_le.1 hn, trivial⟩
        · intro s hs
          rw [List.mem_singleton.1 hs]
          exact p1
    | fin y =>
      have hy0 : 0 < y := by
        by_contra hc
        exact c1 (Or.inr (not_lt.1 hc))
      have hxy : x ≤ y := hmn
      by_cases hx0 : x ≤ 0
      · by_cases hy1 : 1 ≤ y
        · rw [if_pos ⟨hx0, hy1⟩]
          refine ⟨_, rfl, by simp, ?_, ?_, by simp⟩
          · rintro t - - ⟨s, hs, -⟩
            cases hs
          · intro t h0 h1 hc
            exact absurd ⟨lt_of_le_of_lt hx0 h0, lt_of_lt_of_le h1 hy1⟩ hc
        · have hy1' := not_le.1 hy1
          obtain ⟨p1, p2⟩ := high y hy0 hy1' h5
          rw [if_neg (fun h => hy1 h.2), if_neg (fun h => absurd hx0 (not_le.2 h.1)), if_pos (show Ext.le (.fin x) (.fin 0) from hx0)]
          refine ⟨_, rfl, by simp, ?_, ?_, ?_⟩
          · rintro t h0 h1 ⟨s, hs, hc⟩ ⟨-, hb⟩
            rw [List.mem_singleton.1 hs, p2] at hc
            exact absurd hb (not_lt.2 hc.1)
          · intro t h0 h1 hc
            refine ⟨_, List.mem_singleton.2 rfl, (p2 t).2 ⟨?_, h1.le⟩⟩
            by_contra hn
            exact hc ⟨lt_of_le_of_lt hx0 h0, not_le.1 hn⟩
          · intro s hs
            rw [List.mem_singleton.1 hs]
            exact p1
      · have hx0' := not_le.1 hx0
        obtain ⟨p1, p2⟩ := low x hx0' hx1 h2
        by_cases hy1 : y < 1
        · obtain ⟨p3, p4⟩ := high y hy0 hy1 h5
          rw [if_neg (fun h => hx0 h.1), if_pos ⟨hx0', hy1⟩]
          refine ⟨[⟨A, A + x • (B - A)⟩, ⟨A + y • (B - A), B⟩], rfl, by simp, ?_, ?_, ?_⟩
          · rintro t h0 h1 ⟨s, hs, hc⟩ ⟨hb1, hb2⟩
            rcases List.mem_cons.1 hs with rfl | hs
            · rw [p2] at hc
              exact absurd hb1 (not_lt.2 hc.2)
            · rw [List.mem_singleton.1 hs, p4] at hc
              exact absurd hb2 (not_lt.2 hc.1)
          · intro t h0 h1 hc
            by_cases ht : t ≤ x
            · exact ⟨_, List.mem_cons_self, (p2 t).2 ⟨h0.le, ht⟩⟩
            · refine ⟨_, List.mem_cons_of_mem _ (List.mem_singleton.2 rfl), (p4 t).2 ⟨?_, h1.le⟩⟩
              by_contra hn
              exact hc ⟨not_le.1 ht, not_le.1 hn⟩
          · intro s hs
            rcases List.mem_cons.1 hs with rfl | hs
            · exact p1
            · rw [List.mem_singleton.1 hs]
              exact p3
        · rw [if_neg (fun h => hx0 h.1), if_neg (fun h => hy1 h.2), if_neg (show ¬Ext.le (.fin x) (.fin 0) from hx0)]
          refine ⟨_, rfl, by simp, ?_, ?_, ?_⟩
          · rintro t h0 h1 ⟨s, hs, hc⟩ ⟨hb, -⟩
            rw [List.mem_singleton.1 hs, p2] at hc
            exact absurd hb (not_lt.2 hc.2)
          · intro t h0 h1 hc
            refine ⟨_, List.mem_singleton.2 rfl, (p2 t).2 ⟨h0.le, ?_⟩⟩
            by_contra hn
            exact hc ⟨not_le.1 hn, lt_of_lt_of_le h1 (not_lt.1 hy1)⟩
          · intro s hs
            rw [List.mem_singleton.1 hs]
            exact p1

end Principia.Geometry.Perspectives
