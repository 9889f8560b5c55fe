import Verif.Physics.HierarchicalSpec
import Mathlib.Algebra.Order.Field.Basic
import Mathlib.Algebra.Order.BigOperators.Group.List
import Mathlib.Algebra.Order.Ring.Rat
import Mathlib.Algebra.Module.Rat
import Mathlib.Tactic.Abel

/-!
C35: Jacobi coordinates.
-/

set_option linter.unusedSimpArgs false
set_option linter.unusedVariables false
set_option linter.unusedSectionVars false

namespace Principia.Physics.Hierarchical

open Principia.Geometry.Barycentre

/-! ## Translations -/

section

variable {K V : Type} [Field K] [AddCommGroup V] [Module K V]

/-- A translation of bodies. -/
def translate (c : V) (l : List (V × K)) : List (V × K) := l.map fun x => (x.1 + c, x.2)

theorem total_translate (c : V) (l : List (V × K)) : total (translate c l) = total l := by
  simp [total, translate, Function.comp_def]

theorem balanced_translate {c b : V} {l : List (V × K)} (h : Balanced (V := V) l b) : Balanced (V := V) (translate c l) (b + c) := by
  unfold Balanced translate at *
  simpa [Function.comp_def] using h

theorem Chain.translate {r : List (K × V)} {l : List (V × K)} (c : V) (h : Chain r l) : Chain r (translate c l) := by
  induction h with
  | primary x μ => exact .primary _ _
  | add r l b μ d h hb ih =>
    have := Chain.add r _ _ μ d ih (balanced_translate (c := c) hb)
    simp only [Hierarchical.translate, List.map_append, List.map_cons, List.map_nil] at this ⊢
    rwa [add_right_comm b d c]

theorem balanced_unique {l : List (V × K)} {b c : V} (h : total l ≠ 0) (hb : Balanced (V := V) l b) (hc : Balanced (V := V) l c) : b = c := by
  classical
  rw [balanced_result (V := V) (0 : V) l h] at hb hc
  rw [hb, hc]

end

/-! ## Theorem -/

variable {K V : Type} [Field K] [LinearOrder K] [IsStrictOrderedRing K] [AddCommGroup V] [Module K V]

/-- Adding several bodies. -/
def Jacobi.addAll (j : Jacobi K V) : List (K × V) → Option (Jacobi K V)
  | [] => some j
  | (μ, d) :: l => (j.add μ d).bind fun j => j.addAll l

theorem total_pos {A : Type} {l : List (A × K)} (h : l ≠ []) (hp : ∀ x ∈ l, 0 < x.2) : 0 < total l := by
  unfold total
  induction l with
  | nil => exact absurd rfl h
  | cons x l ih =>
    rw [List.map_cons, List.sum_cons]
    cases l with
    | nil => simpa using hp x (by simp)
    | cons y l => exact add_pos (hp x (by simp)) (ih (by simp) fun z hz => hp z (List.mem_cons_of_mem _ hz))

theorem Chain.ne_nil {r : List (K × V)} {l : List (V × K)} (h : Chain r l) : l ≠ [] := by cases h <;> simp

theorem getPoint_of (l : List (V × K)) (h : l ≠ []) (hp : ∀ x ∈ l, 0 < x.2) :
    ∃ b, (⟨false, moment l (0 : V), total l⟩ : Calculator K V).getPoint (0 : V) = .ok b ∧ Balanced (V := V) l b := by
  have h0 := (total_pos h hp).ne'
  refine ⟨_, ?_, (balanced_result (0 : V) l h0 _).2 rfl⟩
  simp [Calculator.getPoint, h0]

theorem addAll_spec (relative : List (K × V)) (hr : ∀ x ∈ relative, 0 < x.1) (r : List (K × V)) (l : List (V × K)) (hl : ∀ x ∈ l, 0 < x.2)
    (h : Chain r l) :
    ∃ l', Jacobi.addAll ⟨l.map (·.1), ⟨false, moment l (0 : V), total l⟩⟩ relative = some ⟨l'.map (·.1), ⟨false, moment l' (0 : V), total l'⟩⟩ ∧
      Chain (r ++ relative) l' ∧ l'.map (·.2) = l.map (·.2) ++ relative.map (·.1) := by
  induction relative generalizing r l with
  | nil => exact ⟨l, rfl, by simpa using h, by simp⟩
  | cons x relative ih =>
    obtain ⟨μ, d⟩ := x
    obtain ⟨b, hb, hb'⟩ := getPoint_of l h.ne_nil hl
    have hμ : 0 < μ := hr (μ, d) (by simp)
    have hadd : Jacobi.add ⟨l.map (·.1), ⟨false, moment l (0 : V), total l⟩⟩ μ d =
        some ⟨(l ++ [(b + d, μ)]).map (·.1), ⟨false, moment (l ++ [(b + d, μ)]) (0 : V), total (l ++ [(b + d, μ)])⟩⟩ := by
      unfold Jacobi.add
      simp only [hb]
      simp [Calculator.addPoint, Calculator.accumulate, moment, total]
    obtain ⟨l', h1, h2, h3⟩ := ih (fun y hy => hr y (List.mem_cons_of_mem _ hy)) (r ++ [(μ, d)]) (l ++ [(b + d, μ)])
      (by
        intro y hy
        rcases List.mem_append.1 hy with hy | hy
        · exact hl y hy
        · rw [List.mem_singleton.1 hy]; exact hμ)
      (.add r l b μ d h hb')
    refine ⟨l', ?_, by simpa using h2, by simpa using h3⟩
    rw [Jacobi.addAll, hadd]
    exact h1

theorem addAll_init (primary : K) (relative : List (K × V)) (hp : 0 < primary) (hr : ∀ x ∈ relative, 0 < x.1) :
    ∃ l, (Jacobi.init primary).addAll relative = some ⟨l.map (·.1), ⟨false, moment l (0 : V), total l⟩⟩ ∧ Chain relative l ∧
      l.map (·.2) = primary :: relative.map (·.1) := by
  obtain ⟨l, h1, h2, h3⟩ := addAll_spec relative hr [] [((0 : V), primary)] (by simpa using hp) (.primary 0 primary)
  refine ⟨l, ?_, by simpa using h2, by simpa using h3⟩
  rw [← h1]
  simp [Jacobi.init, Calculator.init, Calculator.addPoint, Calculator.accumulate, moment, total]

theorem zip_map_fst_snd {A C : Type} (l : List (A × C)) : (l.map (·.1)).zip (l.map (·.2)) = l := by
  induction l with
  | nil => rfl
  | cons x l ih => simp [ih]

/-- C35: in Jacobi coordinates each body has the given displacement with respect to the barycentre of those that precede it, the barycentre of the
bodies is the origin, and the system has the sum of the masses. -/
theorem C35_jacobi (primary : K) (relative : List (K × V)) (hp : 0 < primary) (hr : ∀ x ∈ relative, 0 < x.1) :
    ∃ j x, (Jacobi.init primary).addAll relative = some j ∧ j.barycentric = some x ∧ x.length = relative.length + 1 ∧
      Chain relative (x.zip (primary :: relative.map (·.1))) ∧ Balanced (V := V) (x.zip (primary :: relative.map (·.1))) 0 ∧
      j.system = primary + (relative.map (·.1)).sum := by
  obtain ⟨l, h1, h2, h3⟩ := addAll_init primary relative hp hr
  have hpos : ∀ x ∈ l, 0 < x.2 := by
    intro x hx
    have : x.2 ∈ l.map (·.2) := List.mem_map_of_mem hx
    rw [h3] at this
    rcases List.mem_cons.1 this with h | h
    · rw [h]; exact hp
    · obtain ⟨y, hy, e⟩ := List.mem_map.1 h
      rw [← e]; exact hr y hy
  obtain ⟨b, hb, hb'⟩ := getPoint_of l h2.ne_nil hpos
  have hz : (l.map fun x => x.1 - b).zip (primary :: relative.map (·.1)) = translate (-b) l := by
    rw [← h3]
    have := zip_map_fst_snd (translate (-b) l)
    rw [← this]
    simp [translate, Function.comp_def, sub_eq_add_neg]
  refine ⟨_, (l.map fun x => x.1 - b), h1, ?_, ?_, ?_, ?_, ?_⟩
  · unfold Jacobi.barycentric
    simp only [hb]
    simp [Function.comp_def]
  · have := congrArg List.length h3
    simpa using this
  · rw [hz]; exact h2.translate (-b)
  · rw [hz]
    have := balanced_translate (c := -b) hb'
    rwa [add_neg_cancel] at this
  · simp only [Jacobi.system, total, h3, List.sum_cons]

/-- C35: these conditions determine the positions. -/
theorem C35_jacobi_unique (relative : List (K × V)) (l l' : List (V × K)) (hl : ∀ x ∈ l, 0 < x.2) (hm : l.map (·.2) = l'.map (·.2))
    (h : Chain relative l) (h' : Chain relative l') (hb : Balanced (V := V) l 0) (hb' : Balanced (V := V) l' 0) : l = l' := by
  have key : ∀ (relative : List (K × V)) (l : List (V × K)), Chain relative l → ∀ l', (∀ x ∈ l, 0 < x.2) → l.map (·.2) = l'.map (·.2) →
      Chain relative l' → ∃ c, l' = translate c l := by
    intro relative l h
    induction h with
    | primary x μ =>
      intro l' hl hm h'
      generalize hr : ([] : List (K × V)) = r' at h'
      cases h' with
      | primary x' μ' =>
        simp at hm
        exact ⟨x' - x, by simp [translate, hm]⟩
      | add r l₂ b₂ μ₂ d₂ h₂ hb₂ => simp at hr
    | add r l b μ d h hb ih =>
      intro l' hl hm h'
      generalize hr : r ++ [(μ, d)] = r' at h'
      cases h' with
      | primary x' μ' => simp at hr
      | add r₂ l₂ b₂ μ₂ d₂ h₂ hb₂ =>
        obtain ⟨e1, e2⟩ := List.append_inj' hr rfl
        simp only [List.cons.injEq, Prod.mk.injEq, and_true] at e2
        obtain ⟨rfl, rfl⟩ := e2
        subst e1
        rw [List.map_append, List.map_append] at hm
        have e3 := List.append_inj_left' hm rfl
        have hl' : ∀ x ∈ l, 0 < x.2 := fun x hx => hl x (List.mem_append_left _ hx)
        obtain ⟨c, rfl⟩ := ih l₂ hl' e3 h₂
        refine ⟨c, ?_⟩
        have e4 : b₂ = b + c := by
          refine balanced_unique ?_ hb₂ (balanced_translate hb)
          rw [total_translate]
          exact (total_pos h.ne_nil hl').ne'
        rw [e4]
        simp [translate, add_right_comm b c d]
  obtain ⟨c, rfl⟩ := key relative l h l' hl hm h'
  have := balanced_translate (c := c) hb
  rw [zero_add] at this
  have ht : total (translate c l) ≠ 0 := by rw [total_translate]; exact (total_pos h.ne_nil hl).ne'
  rw [balanced_unique ht this hb']
  simp [translate]

/-- Three bodies on a line. -/
example : ((Jacobi.init (3 : ℚ)).addAll [((1 : ℚ), (8 : ℚ)), (4, -10)]).bind Jacobi.barycentric = some [3, 11, -5] ∧ (0 : ℚ) < 3 ∧
    ∀ x ∈ [((1 : ℚ), (8 : ℚ)), (4, -10)], 0 < x.1 := by
  refine ⟨by decide +kernel, by decide +kernel, by decide +kernel⟩

end Principia.Physics.Hierarchical
