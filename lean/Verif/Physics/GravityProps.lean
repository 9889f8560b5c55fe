import Verif.Physics.GravityLemmas
import Verif.Integrators.SymplecticProps

/-!
# Properties of the gravitational accelerations
-/

set_option linter.unusedSimpArgs false
set_option linter.unusedVariables false
set_option linter.unusedSectionVars false

namespace Principia.Gravity

variable {V : Type*} [NormedAddCommGroup V] [InnerProductSpace ℝ V]

section Sums

theorem sum_erase_fin {W : Type*} [AddCommGroup W] {n : ℕ} (b : Fin n) (g : ℕ → W) : ∑ j ∈ (Finset.range n).erase b, g j = ∑ c ∈ Finset.univ.erase b, g (c : Fin n) := by
  rw [Finset.sum_erase_eq_sub (Finset.mem_range.2 b.2), Finset.sum_erase_eq_sub (Finset.mem_univ b), Finset.sum_range]

theorem sum_erase_ite {W ι : Type*} [AddCommGroup W] [Fintype ι] [DecidableEq ι] (b : ι) (g : ι → W) : ∑ c ∈ Finset.univ.erase b, g c = ∑ c, if c = b then 0 else g c := by
  rw [Finset.sum_erase_eq_sub (Finset.mem_univ b), ← Finset.sum_erase_add Finset.univ (fun c => if c = b then 0 else g c) (Finset.mem_univ b), if_pos rfl, add_zero,
    ← Finset.sum_erase_add Finset.univ g (Finset.mem_univ b), add_sub_cancel_right]
  apply Finset.sum_congr rfl
  intro c hc
  rw [if_neg (Finset.ne_of_mem_erase hc)]

/-- The sum over the pairs of distinct indices may be computed in any order. -/
theorem sum_pairs_comm {W ι : Type*} [AddCommGroup W] [Fintype ι] [DecidableEq ι] (g : ι → ι → W) : ∑ b, ∑ c ∈ Finset.univ.erase b, g b c = ∑ b, ∑ c ∈ Finset.univ.erase b, g c b := by
  simp only [sum_erase_ite]
  rw [Finset.sum_comm]
  apply Finset.sum_congr rfl
  intro b _
  apply Finset.sum_congr rfl
  intro c _
  by_cases h : b = c
  · rw [if_pos h, if_pos h.symm]
  · rw [if_neg h, if_neg (Ne.symm h)]

theorem sum_pairs_antisymm {W ι : Type*} [AddCommGroup W] [Module ℝ W] [Fintype ι] [DecidableEq ι] (g : ι → ι → W) (hg : ∀ b c, b ≠ c → g b c = -g c b) : ∑ b, ∑ c ∈ Finset.univ.erase b, g b c = 0 := by
  have h : ∑ b, ∑ c ∈ Finset.univ.erase b, g b c = -∑ b, ∑ c ∈ Finset.univ.erase b, g b c := by
    conv_rhs => rw [sum_pairs_comm, ← Finset.sum_neg_distrib]
    apply Finset.sum_congr rfl
    intro b _
    rw [← Finset.sum_neg_distrib]
    apply Finset.sum_congr rfl
    intro c hc
    exact hg b c (Finset.ne_of_mem_erase hc).symm
  have h2 : (2 : ℝ) • ∑ b, ∑ c ∈ Finset.univ.erase b, g b c = 0 := by
    rw [two_smul]
    nth_rewrite 1 [h]
    exact neg_add_cancel _
  exact (smul_eq_zero.1 h2).resolve_left (by norm_num)

end Sums

/-- The construction of an ephemeris keeps each body with its position and its velocity. -/
theorem C69_construction (l : List (Body V × V × V)) :
    (System.construct l).bodies.length = l.length ∧ ((System.construct l).bodies.zip ((System.construct l).positions.zip (System.construct l).velocities)).Perm l := by
  obtain ⟨h1, h2⟩ := construct_spec l
  refine ⟨?_, h2⟩
  have := h2.length_eq
  rw [System.entries, List.length_zip, List.length_zip, h1.positions, h1.velocities, Nat.min_self, Nat.min_self] at this
  exact this

/-! ### Massive bodies -/

theorem pulls_eq {s : System V} (h : WellFormed s) (t : ℝ) (q : ℕ → V) (b : Fin s.bodies.length) :
    ∑ j ∈ (Finset.range (s.oblate + s.spherical)).erase b, s.pull t q b j = ∑ c ∈ Finset.univ.erase b, accelerationBy t s.bodies[b] (q b) s.bodies[c] (q c) := by
  rw [← h.bodies, sum_erase_fin]
  apply Finset.sum_congr rfl
  intro c _
  exact pull_eq h t q (List.getElem?_eq_getElem b.2) (List.getElem?_eq_getElem c.2)

theorem accelerations {s : System V} (h : WellFormed s) (t : ℝ) (q : ℕ → V) (b : Fin s.bodies.length) :
    betweenAll s t q b = ∑ c ∈ Finset.univ.erase b, accelerationBy t s.bodies[b] (q b) s.bodies[c] (q c) := by
  rw [betweenAll_eq s t q (by rw [← h.bodies]; exact b.2), pulls_eq h]

/-- The acceleration of each body is the sum of the accelerations caused by all the others: no pair of bodies is forgotten or counted twice, and the geopotentials are those of the right bodies. -/
theorem C69_accelerations (l : List (Body V × V × V)) (t : ℝ) (q : ℕ → V) (b : Fin (System.construct l).bodies.length) :
    betweenAll (System.construct l) t q b = ∑ c ∈ Finset.univ.erase b, accelerationBy t (System.construct l).bodies[b] (q b) (System.construct l).bodies[c] (q c) :=
  accelerations (construct_spec l).1 t q b

theorem initial_accelerations {s : System V} (h : WellFormed s) {l₁ l₂ : List (Body V × V × V)} {body : Body V} {q v : V} (hp : s.entries.Perm (l₁ ++ (body, q, v) :: l₂)) (t : ℝ) :
    ∃ b : Fin s.bodies.length, s.bodies[b] = body ∧ s.positions[b]? = some q ∧ s.velocities[b]? = some v ∧
      betweenAll s t (fun c => (s.positions[c]?).getD 0) b = ((l₁ ++ l₂).map fun e => accelerationBy t body q e.1 e.2.1).sum := by
  have hlen : s.entries.length = s.bodies.length := by rw [System.entries, List.length_zip, List.length_zip, h.positions, h.velocities, Nat.min_self, Nat.min_self]
  have hmem : (body, q, v) ∈ s.entries := hp.mem_iff.2 (by simp)
  obtain ⟨k, hk, hke⟩ := List.mem_iff_getElem.1 hmem
  rw [hlen] at hk
  have entry : ∀ c (hc : c < s.bodies.length), s.entries[c]'(by rw [hlen]; exact hc) = (s.bodies[c], s.positions[c]'(by rw [h.positions]; exact hc), s.velocities[c]'(by rw [h.velocities]; exact hc)) := by
    intro c hc
    simp only [System.entries, List.getElem_zip]
  have hk' := entry k hk
  rw [hke] at hk'
  simp only [Prod.mk.injEq] at hk'
  obtain ⟨e1, e2, e3⟩ := hk'
  refine ⟨⟨k, hk⟩, e1.symm, ?_, ?_, ?_⟩
  · rw [e2]; exact List.getElem?_eq_getElem _
  · rw [e3]; exact List.getElem?_eq_getElem _
  · rw [accelerations h t _ ⟨k, hk⟩]
    have pos : ∀ c (hc : c < s.bodies.length), (s.positions[c]?).getD 0 = s.positions[c]'(by rw [h.positions]; exact hc) := by
      intro c hc
      rw [List.getElem?_eq_getElem (by rw [h.positions]; exact hc)]
      rfl
    rw [Finset.sum_erase_eq_sub (Finset.mem_univ _)]
    have hsum : ∑ c : Fin s.bodies.length, accelerationBy t body q s.bodies[c] ((s.positions[(c : ℕ)]?).getD 0) = (s.entries.map fun e => accelerationBy t body q e.1 e.2.1).sum := by
      rw [← List.sum_ofFn]
      congr 1
      apply List.ext_getElem
      · simp [hlen]
      · intro c h1 h2
        simp only [List.getElem_ofFn, List.getElem_map]
        rw [List.length_ofFn] at h1
        rw [entry c h1]
        simp only [Fin.getElem_fin]
        rw [pos c h1]
    have hb : s.bodies[(⟨k, hk⟩ : Fin s.bodies.length)] = body := e1.symm
    have hq : (s.positions[((⟨k, hk⟩ : Fin s.bodies.length) : ℕ)]?).getD 0 = q := by rw [pos k hk, ← e2]
    rw [hb, hq, hsum, (hp.map _).sum_eq, List.map_append, List.map_cons, List.sum_append, List.sum_cons, List.map_append, List.sum_append]
    abel

/-- The same in terms of the bodies, positions and velocities given to the constructor, whatever their order. -/
theorem C69_initial_accelerations (l₁ l₂ : List (Body V × V × V)) (body : Body V) (q v : V) (t : ℝ) :
    ∃ b : Fin (System.construct (l₁ ++ (body, q, v) :: l₂)).bodies.length, (System.construct (l₁ ++ (body, q, v) :: l₂)).bodies[b] = body ∧
      (System.construct (l₁ ++ (body, q, v) :: l₂)).positions[b]? = some q ∧ (System.construct (l₁ ++ (body, q, v) :: l₂)).velocities[b]? = some v ∧
      betweenAll (System.construct (l₁ ++ (body, q, v) :: l₂)) t (fun c => ((System.construct (l₁ ++ (body, q, v) :: l₂)).positions[c]?).getD 0) b =
        ((l₁ ++ l₂).map fun e => accelerationBy t body q e.1 e.2.1).sum :=
  initial_accelerations (construct_spec _).1 (construct_spec _).2 t

/-- The two functions that compute the acceleration of a massive body agree. -/
theorem C69_on_massive_body (l : List (Body V × V × V)) (t : ℝ) (q : ℕ → V) (b : Fin (System.construct l).bodies.length) : onMassive (System.construct l) t q b = betweenAll (System.construct l) t q b := by
  have h := (construct_spec l).1
  rw [betweenAll_eq _ t q (by rw [← h.bodies]; exact b.2), onMassive_eq h t q (by rw [← h.bodies]; exact b.2)]

theorem linear_momentum {s : System V} (h : WellFormed s) (t : ℝ) (q : ℕ → V) : ∑ b : Fin s.bodies.length, s.bodies[b].gravitationalParameter • betweenAll s t q b = 0 := by
  simp only [accelerations h, Finset.smul_sum]
  apply sum_pairs_antisymm (fun b c : Fin s.bodies.length => s.bodies[b].gravitationalParameter • accelerationBy t s.bodies[b] (q b) s.bodies[c] (q c))
  intro b c _
  exact accelerationBy_antisymm t _ _ _ _

/-- The sum of the forces is zero, even if there are oblate bodies. -/
theorem C69_linear_momentum (l : List (Body V × V × V)) (t : ℝ) (q : ℕ → V) :
    ∑ b : Fin (System.construct l).bodies.length, (System.construct l).bodies[b].gravitationalParameter • betweenAll (System.construct l) t q b = 0 :=
  linear_momentum (construct_spec l).1 t q

theorem WellFormed.of_input {s : System V} (h : WellFormed s) {l : List (Body V × V × V)} (hp : s.entries.Perm l) {P : Body V → Prop} (hl : ∀ e ∈ l, P e.1) (b : Fin s.bodies.length) : P s.bodies[b] := by
  have hlen : (b : ℕ) < s.entries.length := by rw [System.entries, List.length_zip, List.length_zip, h.positions, h.velocities, Nat.min_self, Nat.min_self]; exact b.2
  have h1 := hl _ (hp.mem_iff.1 (List.getElem_mem hlen))
  simpa [System.entries, List.getElem_zip] using h1

theorem angular_momentum {s : System V} (h : WellFormed s) (hs' : ∀ b : Fin s.bodies.length, s.bodies[b].geopotential = none) (t : ℝ) (q : ℕ → V) {W : Type*} [AddCommGroup W] [Module ℝ W] (moment : V →ₗ[ℝ] V →ₗ[ℝ] W) (halt : ∀ x, moment x x = 0) :
    ∑ b : Fin s.bodies.length, s.bodies[b].gravitationalParameter • moment (q b) (betweenAll s t q b) = 0 := by
  have hanti : ∀ x y, moment x y = -moment y x := by
    intro x y
    have := halt (x + y)
    simp only [map_add, LinearMap.add_apply, halt, zero_add, add_zero] at this
    exact eq_neg_of_add_eq_zero_right this
  simp only [accelerations h, map_sum, Finset.smul_sum]
  apply sum_pairs_antisymm (fun b c : Fin s.bodies.length => s.bodies[b].gravitationalParameter • moment (q b) (accelerationBy t s.bodies[b] (q b) s.bodies[c] (q c)))
  intro b c _
  unfold accelerationBy attraction reaction
  rw [hs' b, hs' c]
  simp only [Option.elim_none, smul_zero, neg_zero, add_zero, map_smul, map_sub, halt, sub_zero]
  rw [norm_sub_rev, hanti (q c) (q b)]
  module

/-- The sum of the torques is zero, if the bodies are spherical. -/
theorem C69_angular_momentum (l : List (Body V × V × V)) (hs : ∀ e ∈ l, e.1.geopotential = none) (t : ℝ) (q : ℕ → V) {W : Type*} [AddCommGroup W] [Module ℝ W] (moment : V →ₗ[ℝ] V →ₗ[ℝ] W) (halt : ∀ x, moment x x = 0) :
    ∑ b : Fin (System.construct l).bodies.length, (System.construct l).bodies[b].gravitationalParameter • moment (q b) (betweenAll (System.construct l) t q b) = 0 :=
  angular_momentum (construct_spec l).1 ((construct_spec l).1.of_input (construct_spec l).2 (P := fun b => b.geopotential = none) hs) t q moment halt

/-! ### Conservation of the energy -/

/-- The geopotentials are static and conservative. -/
def Conservative (l : List (Body V × V × V)) : Prop :=
  ∀ e ∈ l, ∀ g, e.1.geopotential = some g → ∃ U : V → ℝ, (∀ t x, g.potential t x = U x) ∧ ∀ t x, x ≠ 0 → HasFDerivAt U (-innerSL ℝ (g.acceleration t x)) x

/-- The mechanical energy, multiplied by the constant of gravitation: the kinetic energies, the energies of the pairs of bodies seen as point masses, and the energies of the bodies in the geopotentials of the others. -/
noncomputable def energy (bodies : List (Body V)) (t : ℝ) (q v : ℕ → V) : ℝ :=
  ∑ b : Fin bodies.length, (bodies[b].gravitationalParameter * ‖v b‖ ^ 2 / 2 +
    ∑ c ∈ Finset.univ.erase b, (-(bodies[b].gravitationalParameter * bodies[c].gravitationalParameter / ‖q b - q c‖) / 2 +
      bodies[b].gravitationalParameter * bodies[c].gravitationalParameter * bodies[b].geopotential.elim 0 fun g => g.potential t (q c - q b)))

theorem energy_conserved {s : System V} (h : WellFormed s)
    (hc' : ∀ b : Fin s.bodies.length, ∀ g, s.bodies[b].geopotential = some g → ∃ U : V → ℝ, (∀ t x, g.potential t x = U x) ∧ ∀ t x, x ≠ 0 → HasFDerivAt U (-innerSL ℝ (g.acceleration t x)) x)
    (q v : ℝ → ℕ → V) (t : ℝ) (hq : ∀ b < s.bodies.length, HasDerivAt (fun τ => q τ b) (v t b) t)
    (hv : ∀ b < s.bodies.length, HasDerivAt (fun τ => v τ b) (betweenAll s t (q t) b) t)
    (hne : ∀ b < s.bodies.length, ∀ c < s.bodies.length, b ≠ c → q t b ≠ q t c) : HasDerivAt (fun τ => energy s.bodies τ (q τ) (v τ)) 0 t := by
  have hkin : ∀ b : Fin s.bodies.length, HasDerivAt (fun τ => s.bodies[b].gravitationalParameter * ‖v τ b‖ ^ 2 / 2) (s.bodies[b].gravitationalParameter * inner ℝ (v t b) (betweenAll s t (q t) b)) t := by
    intro b
    have := (((hv b b.2).norm_sq).const_mul s.bodies[b].gravitationalParameter).div_const 2
    refine this.congr_deriv ?_
    ring
  have hpoint : ∀ b c : Fin s.bodies.length, b ≠ c → HasDerivAt (fun τ => -(s.bodies[b].gravitationalParameter * s.bodies[c].gravitationalParameter / ‖q τ b - q τ c‖) / 2)
      (s.bodies[b].gravitationalParameter * s.bodies[c].gravitationalParameter * (1 / ‖q t b - q t c‖ ^ 3) * inner ℝ (q t b - q t c) (v t b - v t c) / 2) t := by
    intro b c hbc
    have h1 := (hasFDerivAt_inv_norm (sub_ne_zero.2 (hne b b.2 c c.2 (fun e => hbc (Fin.ext e))))).comp_hasDerivAt t ((hq b b.2).sub (hq c c.2))
    have h2 := (h1.const_mul (s.bodies[b].gravitationalParameter * s.bodies[c].gravitationalParameter)).neg.div_const 2
    refine (h2.congr_deriv ?_).congr_of_eventuallyEq (Filter.Eventually.of_forall fun τ => ?_)
    · simp only [ContinuousLinearMap.smul_apply, innerSL_apply_apply, smul_eq_mul]
      ring
    · simp [div_eq_mul_inv]
  have hgeo : ∀ b c : Fin s.bodies.length, b ≠ c → HasDerivAt (fun τ => s.bodies[b].gravitationalParameter * s.bodies[c].gravitationalParameter * s.bodies[b].geopotential.elim 0 fun g => g.potential τ (q τ c - q τ b))
      (s.bodies[b].gravitationalParameter * s.bodies[c].gravitationalParameter * -(inner ℝ (s.bodies[b].geopotential.elim 0 fun g => g.acceleration t (q t c - q t b)) (v t c - v t b))) t := by
    intro b c hbc
    cases hg : s.bodies[b].geopotential with
    | none =>
      simp only [Option.elim_none, mul_zero, inner_zero_left, neg_zero]
      exact hasDerivAt_const _ _
    | some g =>
      simp only [Option.elim_some]
      obtain ⟨U, hU, hU'⟩ := hc' b g hg
      simp only [hU]
      have h1 := (hU' t _ (sub_ne_zero.2 (hne c c.2 b b.2 (fun e => hbc (Fin.ext e.symm))))).comp_hasDerivAt t ((hq c c.2).sub (hq b b.2))
      have h2 := h1.const_mul (s.bodies[b].gravitationalParameter * s.bodies[c].gravitationalParameter)
      refine h2.congr_deriv ?_
      simp [innerSL_apply_apply]
  have htotal : HasDerivAt (fun τ => energy s.bodies τ (q τ) (v τ)) (∑ b : Fin s.bodies.length, (s.bodies[b].gravitationalParameter * inner ℝ (v t b) (betweenAll s t (q t) b) +
      ∑ c ∈ Finset.univ.erase b, (s.bodies[b].gravitationalParameter * s.bodies[c].gravitationalParameter * (1 / ‖q t b - q t c‖ ^ 3) * inner ℝ (q t b - q t c) (v t b - v t c) / 2 +
        s.bodies[b].gravitationalParameter * s.bodies[c].gravitationalParameter * -(inner ℝ (s.bodies[b].geopotential.elim 0 fun g => g.acceleration t (q t c - q t b)) (v t c - v t b))))) t := by
    unfold energy
    apply HasDerivAt.fun_sum
    intro b _
    apply (hkin b).add
    apply HasDerivAt.fun_sum
    intro c hc
    have hbc := (Finset.ne_of_mem_erase hc).symm
    exact (hpoint b c hbc).add (hgeo b c hbc)
  refine htotal.congr_deriv ?_
  simp only [accelerations h, inner_sum, Finset.mul_sum, ← Finset.sum_add_distrib]
  apply sum_pairs_antisymm (fun b c : Fin s.bodies.length => s.bodies[b].gravitationalParameter * inner ℝ (v t b) (accelerationBy t s.bodies[b] (q t b) s.bodies[c] (q t c)) +
    (s.bodies[b].gravitationalParameter * s.bodies[c].gravitationalParameter * (1 / ‖q t b - q t c‖ ^ 3) * inner ℝ (q t b - q t c) (v t b - v t c) / 2 +
        s.bodies[b].gravitationalParameter * s.bodies[c].gravitationalParameter * -(inner ℝ (s.bodies[b].geopotential.elim 0 fun g => g.acceleration t (q t c - q t b)) (v t c - v t b))))
  intro b c _
  unfold accelerationBy attraction reaction
  rw [norm_sub_rev (q t c) (q t b)]
  generalize (s.bodies[b].geopotential.elim 0 fun g => g.acceleration t (q t c - q t b)) = gb
  generalize (s.bodies[c].geopotential.elim 0 fun g => g.acceleration t (q t b - q t c)) = gc
  simp only [inner_add_right, inner_neg_right, inner_smul_right, inner_sub_right, inner_sub_left, real_inner_comm gb, real_inner_comm gc, real_inner_comm (q t b) (v t b), real_inner_comm (q t c) (v t b), real_inner_comm (q t b) (v t c), real_inner_comm (q t c) (v t c)]
  ring

/-- If the bodies follow the equations of motion without colliding, the energy doesn't change. -/
theorem C69_energy (l : List (Body V × V × V)) (hc : Conservative l) (q v : ℝ → ℕ → V) (t : ℝ) (hq : ∀ b < (System.construct l).bodies.length, HasDerivAt (fun τ => q τ b) (v t b) t)
    (hv : ∀ b < (System.construct l).bodies.length, HasDerivAt (fun τ => v τ b) (betweenAll (System.construct l) t (q t) b) t)
    (hne : ∀ b < (System.construct l).bodies.length, ∀ c < (System.construct l).bodies.length, b ≠ c → q t b ≠ q t c) : HasDerivAt (fun τ => energy (System.construct l).bodies τ (q τ) (v τ)) 0 t :=
  energy_conserved (construct_spec l).1 ((construct_spec l).1.of_input (construct_spec l).2 (P := fun b => ∀ g, b.geopotential = some g → ∃ U : V → ℝ, (∀ t x, g.potential t x = U x) ∧ ∀ t x, x ≠ 0 → HasFDerivAt U (-innerSL ℝ (g.acceleration t x)) x) hc) q v t hq hv hne

/-! ### Massless bodies -/

theorem massless {s : System V} (h : WellFormed s) (t : ℝ) (p : ℕ → V) (q : List V) :
    (onMassless s t p q).1 = q.map (fun x => ∑ b : Fin s.bodies.length, attraction t s.bodies[b] (p b) x) ∧
      ((onMassless s t p q).2 = 0 ∨ (onMassless s t p q).2 = 11) ∧ ((onMassless s t p q).2 = 11 ↔ ∃ b : Fin s.bodies.length, ∃ x ∈ q, ‖p b - x‖ ≤ 99 / 100 * s.bodies[b].minRadius) := by
  rw [onMassless_eq h]
  refine ⟨?_, ?_, ?_⟩
  · simp only
    apply List.map_congr_left
    intro x _
    rw [← h.bodies, Finset.sum_range]
    apply Finset.sum_congr rfl
    intro b _
    rw [System.attract, List.getElem?_eq_getElem b.2]
    rfl
  · simp only
    by_cases hb : ∃ b < s.oblate + s.spherical, ∃ x ∈ q, ‖p b - x‖ ≤ minRadiusTolerance * s.minRadius b
    · rw [if_pos hb]; exact .inr rfl
    · rw [if_neg hb]; exact .inl rfl
  · simp only
    have key : (∃ b < s.oblate + s.spherical, ∃ x ∈ q, ‖p b - x‖ ≤ minRadiusTolerance * s.minRadius b) ↔ ∃ b : Fin s.bodies.length, ∃ x ∈ q, ‖p b - x‖ ≤ 99 / 100 * s.bodies[b].minRadius := by
      have e : minRadiusTolerance = 99 / 100 := by unfold minRadiusTolerance; norm_num
      constructor
      · rintro ⟨b, hb, x, hx, hle⟩
        rw [← h.bodies] at hb
        rw [h.minRadius_eq (List.getElem?_eq_getElem hb), e] at hle
        exact ⟨⟨b, hb⟩, x, hx, hle⟩
      · rintro ⟨b, x, hx, hle⟩
        refine ⟨b, by rw [← h.bodies]; exact b.2, x, hx, ?_⟩
        rw [h.minRadius_eq (List.getElem?_eq_getElem b.2), e]
        exact hle
    rw [← key]
    by_cases hb : ∃ b < s.oblate + s.spherical, ∃ x ∈ q, ‖p b - x‖ ≤ minRadiusTolerance * s.minRadius b
    · rw [if_pos hb]; exact ⟨fun _ => hb, fun _ => rfl⟩
    · rw [if_neg hb]; exact ⟨fun h => absurd h (by norm_num), fun h => absurd h hb⟩

/-- The acceleration of each massless body is the sum of the attractions of all the massive bodies, and the status is an error (`OUT_OF_RANGE`) if, and only if, one of them is closer to the centre of a massive body than 99 % of its minimum radius. -/
theorem C69_massless (l : List (Body V × V × V)) (t : ℝ) (p : ℕ → V) (q : List V) :
    (onMassless (System.construct l) t p q).1 = q.map (fun x => ∑ b : Fin (System.construct l).bodies.length, attraction t (System.construct l).bodies[b] (p b) x) ∧
      ((onMassless (System.construct l) t p q).2 = 0 ∨ (onMassless (System.construct l) t p q).2 = 11) ∧
      ((onMassless (System.construct l) t p q).2 = 11 ↔ ∃ b : Fin (System.construct l).bodies.length, ∃ x ∈ q, ‖p b - x‖ ≤ 99 / 100 * (System.construct l).bodies[b].minRadius) :=
  massless (construct_spec l).1 t p q

theorem potential {s : System V} (h : WellFormed s) (t : ℝ) (p : ℕ → V) (q : List V) :
    potentials s t p q = q.map (fun x => ∑ b : Fin s.bodies.length, potentialBy t s.bodies[b] (p b) x) := by
  rw [potentials_eq h]
  apply List.map_congr_left
  intro x _
  rw [← h.bodies, Finset.sum_range]
  apply Finset.sum_congr rfl
  intro b _
  rw [System.potentialOf, List.getElem?_eq_getElem b.2]
  rfl

/-- The potential at each position is the sum of the potentials of all the massive bodies. -/
theorem C69_potential (l : List (Body V × V × V)) (t : ℝ) (p : ℕ → V) (q : List V) :
    potentials (System.construct l) t p q = q.map (fun x => ∑ b : Fin (System.construct l).bodies.length, potentialBy t (System.construct l).bodies[b] (p b) x) :=
  potential (construct_spec l).1 t p q

theorem gradient {s : System V} (h : WellFormed s)
    (t : ℝ) (hc' : ∀ b : Fin s.bodies.length, ∀ g, s.bodies[b].geopotential = some g → ∀ x, x ≠ 0 → HasFDerivAt (g.potential t) (-innerSL ℝ (g.acceleration t x)) x)
    (p : ℕ → V) (x : V) (hx : ∀ b < s.bodies.length, x ≠ p b) {a : V} (ha : (onMassless s t p [x]).1 = [a]) :
    ∃ U : V → ℝ, (∀ y, potentials s t p [y] = [U y]) ∧ HasFDerivAt U (-innerSL ℝ a) x := by
  refine ⟨_, fun y => by rw [potential h]; rfl, ?_⟩
  rw [(massless h t p [x]).1] at ha
  simp only [List.map_cons, List.map_nil, List.cons.injEq, and_true] at ha
  subst ha
  rw [map_sum, ← Finset.sum_neg_distrib]
  apply HasFDerivAt.fun_sum
  intro b _
  unfold attraction potentialBy
  have hne : p b - x ≠ 0 := sub_ne_zero.2 (hx b b.2).symm
  have h1 : HasFDerivAt (fun y => -(s.bodies[b].gravitationalParameter / ‖p b - y‖)) (-innerSL ℝ ((s.bodies[b].gravitationalParameter / ‖p b - x‖ ^ 3) • (p b - x))) x := by
    have := (((hasFDerivAt_inv_norm hne).comp x ((hasFDerivAt_id x).const_sub (p b))).const_mul s.bodies[b].gravitationalParameter).neg
    refine (this.congr_fderiv ?_).congr_of_eventuallyEq (Filter.Eventually.of_forall fun y => ?_)
    · ext y
      simp [innerSL_apply_apply, inner_smul_left]
      ring
    · simp [div_eq_mul_inv]
  have h2 : HasFDerivAt (fun y => s.bodies[b].gravitationalParameter * (s.bodies[b].geopotential.elim 0 fun g => g.potential t (y - p b)))
      (-innerSL ℝ (s.bodies[b].gravitationalParameter • (s.bodies[b].geopotential.elim 0 fun g => g.acceleration t (x - p b)))) x := by
    cases hg : s.bodies[b].geopotential with
    | none =>
      simp only [Option.elim_none, mul_zero, smul_zero, map_zero, neg_zero]
      exact hasFDerivAt_const _ _
    | some g =>
      simp only [Option.elim_some]
      have := ((hc' b g hg (x - p b) (sub_ne_zero.2 (hx b b.2))).comp x ((hasFDerivAt_id x).sub_const (p b))).const_mul s.bodies[b].gravitationalParameter
      refine this.congr_fderiv ?_
      ext y
      simp [innerSL_apply_apply, inner_smul_left]
  refine (h1.add h2).congr_fderiv ?_
  rw [map_add, neg_add]

/-- At the time `t`, the geopotentials are conservative. -/
def ConservativeAt (t : ℝ) (l : List (Body V × V × V)) : Prop := ∀ e ∈ l, ∀ g, e.1.geopotential = some g → ∀ x, x ≠ 0 → HasFDerivAt (g.potential t) (-innerSL ℝ (g.acceleration t x)) x

theorem Conservative.at {l : List (Body V × V × V)} (h : Conservative l) (t : ℝ) : ConservativeAt t l := by
  intro e he g hg x hx
  obtain ⟨U, hU, hU'⟩ := h e he g hg
  rw [show g.potential t = U from funext (hU t)]
  exact hU' t x hx

/-- The acceleration of a massless body is the opposite of the gradient of the potential. -/
theorem C69_gradient (l : List (Body V × V × V)) (t : ℝ) (hc : ConservativeAt t l) (p : ℕ → V) (x : V) (hx : ∀ b < (System.construct l).bodies.length, x ≠ p b) {a : V} (ha : (onMassless (System.construct l) t p [x]).1 = [a]) :
    ∃ U : V → ℝ, (∀ y, potentials (System.construct l) t p [y] = [U y]) ∧ HasFDerivAt U (-innerSL ℝ a) x :=
  gradient (construct_spec l).1 t ((construct_spec l).1.of_input (construct_spec l).2 (P := fun b => ∀ g, b.geopotential = some g → ∀ x, x ≠ 0 → HasFDerivAt (g.potential t) (-innerSL ℝ (g.acceleration t x)) x) hc) p x hx ha

/-! ### Derivatives of the accelerations -/

theorem accelerations_spherical {s : System V} (h : WellFormed s) (hs' : ∀ b : Fin s.bodies.length, s.bodies[b].geopotential = none) (t : ℝ) (q : ℕ → V) (b : Fin s.bodies.length) :
    betweenAll s t q b = ∑ c ∈ Finset.univ.erase b, (-s.bodies[c].gravitationalParameter) • ((1 / ‖q b - q c‖ ^ 3) • (q b - q c)) := by
  rw [accelerations h]
  apply Finset.sum_congr rfl
  intro c _
  unfold accelerationBy attraction reaction
  rw [hs' b, hs' c, norm_sub_rev]
  simp only [Option.elim_none, smul_zero, neg_zero, add_zero]
  module

theorem jacobian {s : System V} (h : WellFormed s) (hs' : ∀ b : Fin s.bodies.length, s.bodies[b].geopotential = none) (t : ℝ) (q : ℕ → V) (b : Fin s.bodies.length) (hne : ∀ c < s.bodies.length, c ≠ b → q b ≠ q c) :
    HasFDerivAt (fun x => betweenAll s t (Function.update q b x) b) (jacobianOnMassive s q b) (q b) := by
  rw [jacobianOnMassive_eq s q (by rw [← h.bodies]; exact b.2), ← h.bodies, sum_erase_fin b]
  simp only [accelerations_spherical h hs']
  apply HasFDerivAt.fun_sum
  intro c hc
  have hcb := Finset.ne_of_mem_erase hc
  have hcb' : (c : ℕ) ≠ b := fun e => hcb (Fin.ext e)
  simp only [Function.update_self, Function.update_of_ne hcb']
  have h1 := (((hasFDerivAt_newton (sub_ne_zero.2 (hne c c.2 hcb'))).comp (q b) ((hasFDerivAt_id (q b)).sub_const (q c))).const_smul (-s.bodies[c].gravitationalParameter))
  refine h1.congr_fderiv ?_
  rw [h.μ_eq (List.getElem?_eq_getElem c.2)]
  ext y
  simp

/-- The Jacobian is the derivative of the acceleration of a body when it alone is moved (the bodies being spherical: the code ignores the geopotential). -/
theorem C69_jacobian (l : List (Body V × V × V)) (hs : ∀ e ∈ l, e.1.geopotential = none) (t : ℝ) (q : ℕ → V) (b : Fin (System.construct l).bodies.length) (hne : ∀ c < (System.construct l).bodies.length, c ≠ b → q b ≠ q c) :
    HasFDerivAt (fun x => betweenAll (System.construct l) t (Function.update q b x) b) (jacobianOnMassive (System.construct l) q b) (q b) :=
  jacobian (construct_spec l).1 ((construct_spec l).1.of_input (construct_spec l).2 (P := fun b => b.geopotential = none) hs) t q b hne

theorem jerk {s : System V} (h : WellFormed s) (hs' : ∀ b : Fin s.bodies.length, s.bodies[b].geopotential = none) (q v : ℝ → ℕ → V) (t : ℝ) (hq : ∀ b < s.bodies.length, HasDerivAt (fun τ => q τ b) (v t b) t)
    (b : Fin s.bodies.length) (hne : ∀ c < s.bodies.length, c ≠ b → q t b ≠ q t c) : HasDerivAt (fun τ => betweenAll s τ (q τ) b) (jerkOnMassive s (q t) (v t) b) t := by
  rw [jerkOnMassive_eq s (q t) (v t) (by rw [← h.bodies]; exact b.2), ← h.bodies, sum_erase_fin b]
  simp only [accelerations_spherical h hs']
  apply HasDerivAt.fun_sum
  intro c hc
  have hcb := Finset.ne_of_mem_erase hc
  have hcb' : (c : ℕ) ≠ b := fun e => hcb (Fin.ext e)
  have h1 := ((hasFDerivAt_newton (sub_ne_zero.2 (hne c c.2 hcb'))).comp_hasDerivAt t ((hq b b.2).sub (hq c c.2))).const_smul (-s.bodies[c].gravitationalParameter)
  refine h1.congr_deriv ?_
  rw [h.μ_eq (List.getElem?_eq_getElem c.2)]
  simp
  module

/-- The jerk of a massive body is the derivative of its acceleration along the motion (the bodies being spherical: the code ignores the geopotential). -/
theorem C69_jerk (l : List (Body V × V × V)) (hs : ∀ e ∈ l, e.1.geopotential = none) (q v : ℝ → ℕ → V) (t : ℝ) (hq : ∀ b < (System.construct l).bodies.length, HasDerivAt (fun τ => q τ b) (v t b) t)
    (b : Fin (System.construct l).bodies.length) (hne : ∀ c < (System.construct l).bodies.length, c ≠ b → q t b ≠ q t c) :
    HasDerivAt (fun τ => betweenAll (System.construct l) τ (q τ) b) (jerkOnMassive (System.construct l) (q t) (v t) b) t :=
  jerk (construct_spec l).1 ((construct_spec l).1.of_input (construct_spec l).2 (P := fun b => b.geopotential = none) hs) q v t hq b hne

theorem jerk_massless {s : System V} (h : WellFormed s) (hs' : ∀ b : Fin s.bodies.length, s.bodies[b].geopotential = none) (p w : ℝ → ℕ → V) (q v : ℝ → V) (t : ℝ) (hp : ∀ b < s.bodies.length, HasDerivAt (fun τ => p τ b) (w t b) t)
    (hq : HasDerivAt q (v t) t) (hne : ∀ c < s.bodies.length, q t ≠ p t c) (a : ℝ → V) (ha : ∀ τ, (onMassless s τ (p τ) [q τ]).1 = [a τ]) : HasDerivAt a (jerkOnMassless s (p t) (w t) (q t) (v t)) t := by
  have e : a = fun τ => ∑ c : Fin s.bodies.length, (-s.bodies[c].gravitationalParameter) • ((1 / ‖q τ - p τ c‖ ^ 3) • (q τ - p τ c)) := by
    funext τ
    have := ha τ
    rw [(massless h τ (p τ) [q τ]).1] at this
    simp only [List.map_cons, List.map_nil, List.cons.injEq, and_true] at this
    rw [← this]
    apply Finset.sum_congr rfl
    intro c _
    unfold attraction
    rw [hs' c, norm_sub_rev]
    simp only [Option.elim_none, smul_zero, neg_zero, add_zero]
    module
  rw [e, jerkOnMassless_eq, ← h.bodies, Finset.sum_range]
  apply HasDerivAt.fun_sum
  intro c hc
  have h1 := ((hasFDerivAt_newton (sub_ne_zero.2 (hne c c.2))).comp_hasDerivAt t (hq.sub (hp c c.2))).const_smul (-s.bodies[c].gravitationalParameter)
  refine h1.congr_deriv ?_
  rw [h.μ_eq (List.getElem?_eq_getElem c.2)]
  simp
  module

/-- The jerk of a massless body is the derivative of its acceleration along the motion (the massive bodies being spherical: the code ignores the geopotential). -/
theorem C69_jerk_massless (l : List (Body V × V × V)) (hs : ∀ e ∈ l, e.1.geopotential = none) (p w : ℝ → ℕ → V) (q v : ℝ → V) (t : ℝ) (hp : ∀ b < (System.construct l).bodies.length, HasDerivAt (fun τ => p τ b) (w t b) t)
    (hq : HasDerivAt q (v t) t) (hne : ∀ c < (System.construct l).bodies.length, q t ≠ p t c) (a : ℝ → V) (ha : ∀ τ, (onMassless (System.construct l) τ (p τ) [q τ]).1 = [a τ]) :
    HasDerivAt a (jerkOnMassless (System.construct l) (p t) (w t) (q t) (v t)) t :=
  jerk_massless (construct_spec l).1 ((construct_spec l).1.of_input (construct_spec l).2 (P := fun b => b.geopotential = none) hs) p w q v t hp hq hne a ha

/-! ### Integration -/

open Principia.Integrators in
/-- physics/ephemeris_body.hpp:162-171: the right-hand side of the equation of motion of the massive bodies. -/
noncomputable def rightHandSide (s : System V) : RightHandSide (Fin s.bodies.length → V) :=
  fun t q => (fun b => betweenAll s t (fun c => if h : c < s.bodies.length then q ⟨c, h⟩ else 0) b, .ok)

open Principia.Integrators in
/-- When the motion of the massive bodies is computed by any of the symplectic methods, with any step, the total momentum has the same value at all the times, even though the method isn't exact. -/
theorem C69_integrated_momentum (l : List (Body V × V × V)) (m : SRKN) (hm : m.CheckedButSum) (hcons : m.Consistent (rightHandSide (System.construct l)))
    (stop : List (NState (Fin (System.construct l).bodies.length → V)) → Bool) (h tFinal : ℝ) (fuel : ℕ) (x : NState (Fin (System.construct l).bodies.length → V)) (r : Result (NState (Fin (System.construct l).bodies.length → V)))
    (hr : (m.stepper (rightHandSide (System.construct l))).solve stop true h fuel tFinal x = .ok r) :
    ∀ y ∈ r.state :: r.appended, ∑ b, (System.construct l).bodies[b].gravitationalParameter • y.velocities b = ∑ b, (System.construct l).bodies[b].gravitationalParameter • x.velocities b := by
  have key := C66_linear_momentum m hm (rightHandSide (System.construct l)) hcons
    (∑ b : Fin (System.construct l).bodies.length, (System.construct l).bodies[b].gravitationalParameter • LinearMap.proj (R := ℝ) (φ := fun _ => V) b)
    (fun t q => by simpa [LinearMap.sum_apply, rightHandSide] using C69_linear_momentum l t (fun c => if h : c < (System.construct l).bodies.length then q ⟨c, h⟩ else 0)) stop h tFinal fuel x r hr
  intro y hy
  simpa [LinearMap.sum_apply] using key y hy

open Principia.Integrators in
/-- Similarly for the angular momentum, if the bodies are spherical. -/
theorem C69_integrated_angular_momentum (l : List (Body V × V × V)) (hs : ∀ e ∈ l, e.1.geopotential = none) (m : SRKN) (hm : m.CheckedButSum) (hcons : m.Consistent (rightHandSide (System.construct l)))
    {W : Type*} [AddCommGroup W] [Module ℝ W] (moment : V →ₗ[ℝ] V →ₗ[ℝ] W) (halt : ∀ x, moment x x = 0)
    (stop : List (NState (Fin (System.construct l).bodies.length → V)) → Bool) (h tFinal : ℝ) (fuel : ℕ) (x : NState (Fin (System.construct l).bodies.length → V)) (r : Result (NState (Fin (System.construct l).bodies.length → V)))
    (hr : (m.stepper (rightHandSide (System.construct l))).solve stop true h fuel tFinal x = .ok r) :
    ∀ y ∈ r.state :: r.appended, ∑ b, (System.construct l).bodies[b].gravitationalParameter • moment (y.positions b) (y.velocities b) =
      ∑ b, (System.construct l).bodies[b].gravitationalParameter • moment (x.positions b) (x.velocities b) := by
  have key := C66_angular_momentum m hm (rightHandSide (System.construct l)) hcons
    (∑ b : Fin (System.construct l).bodies.length, (System.construct l).bodies[b].gravitationalParameter • moment.compl₁₂ (LinearMap.proj (R := ℝ) (φ := fun _ => V) b) (LinearMap.proj (R := ℝ) (φ := fun _ => V) b))
    (fun v => by simp [LinearMap.sum_apply, halt])
    (fun t q => by
      have := C69_angular_momentum l hs t (fun c => if h : c < (System.construct l).bodies.length then q ⟨c, h⟩ else 0) moment halt
      simpa [LinearMap.sum_apply, rightHandSide] using this) stop h tFinal fuel x r hr
  intro y hy
  simpa [LinearMap.sum_apply] using key y hy

/-! ### Examples -/

namespace Example

/-- A spherical body. -/
def sphere : Body ℝ := ⟨2, 1, none⟩

/-- An oblate body. -/
def planet : Body ℝ := ⟨3, 1, some ⟨fun _ x => -2 * x, fun _ x => x ^ 2⟩⟩

/-- Two bodies on a line. -/
def bodies : List (Body ℝ × ℝ × ℝ) := [(sphere, 0, 1), (planet, 2, 0)]

/-- The oblate body comes first. -/
example : (System.construct bodies).bodies = [planet, sphere] ∧ (System.construct bodies).positions = [2, 0] ∧ (System.construct bodies).velocities = [0, 1] ∧ (System.construct bodies).oblate = 1 := ⟨rfl, rfl, rfl, rfl⟩

theorem conservative : Conservative bodies := by
  intro e he g hg
  simp only [bodies, List.mem_cons, List.not_mem_nil, or_false] at he
  rcases he with rfl | rfl
  · simp [sphere] at hg
  · simp only [planet, Option.some.injEq] at hg
    subst hg
    refine ⟨fun x => x ^ 2, fun _ _ => rfl, fun _ x _ => ?_⟩
    have := (hasDerivAt_pow 2 x).hasFDerivAt
    refine this.congr_fderiv ?_
    ext
    simp [innerSL_apply_apply]

/-- The acceleration of the spherical body: the attraction 3 / 2², and the effect -3 × 2 × (-2) of the oblateness. -/
example : ∃ b : Fin (System.construct bodies).bodies.length, (System.construct bodies).bodies[b] = sphere ∧ betweenAll (System.construct bodies) 0 (fun c => ((System.construct bodies).positions[c]?).getD 0) b = 51 / 4 := by
  obtain ⟨b, h1, -, -, h2⟩ := C69_initial_accelerations [] [(planet, 2, 0)] sphere 0 1 0
  refine ⟨b, h1, h2.trans ?_⟩
  simp [sphere, planet, accelerationBy, attraction, reaction]
  norm_num

/-- There are motions which meet the hypotheses of the conservation of the energy. -/
example : ∃ q v : ℝ → ℕ → ℝ, (∀ b < (System.construct bodies).bodies.length, HasDerivAt (fun τ => q τ b) (v 0 b) 0) ∧
    (∀ b < (System.construct bodies).bodies.length, HasDerivAt (fun τ => v τ b) (betweenAll (System.construct bodies) 0 (q 0) b) 0) ∧
    (∀ b < (System.construct bodies).bodies.length, ∀ c < (System.construct bodies).bodies.length, b ≠ c → q 0 b ≠ q 0 c) := by
  refine ⟨fun τ b => (b : ℝ) + τ * b, fun τ b => (b : ℝ) + τ * betweenAll (System.construct bodies) 0 (fun b => (b : ℝ)) b, fun b _ => ?_, fun b _ => ?_, fun b _ c _ hbc => ?_⟩
  · have := ((hasDerivAt_id (0 : ℝ)).mul_const (b : ℝ)).const_add (b : ℝ)
    simpa using this
  · have := ((hasDerivAt_id (0 : ℝ)).mul_const (betweenAll (System.construct bodies) 0 (fun b => (b : ℝ)) b)).const_add (b : ℝ)
    simpa using this
  · simpa using hbc

/-- A massless body at 5 is not too close to the bodies, but a massless body at 5/2 is. -/
example : (onMassless (System.construct bodies) 0 (fun c => ((System.construct bodies).positions[c]?).getD 0) [5]).2 = 0 ∧ (onMassless (System.construct bodies) 0 (fun c => ((System.construct bodies).positions[c]?).getD 0) [5, 5 / 2]).2 = 11 := by
  constructor
  · rcases (C69_massless bodies 0 (fun c => ((System.construct bodies).positions[c]?).getD 0) [5]).2.1 with h | h
    · exact h
    · obtain ⟨b, x, hx, hle⟩ := (C69_massless bodies 0 (fun c => ((System.construct bodies).positions[c]?).getD 0) [5]).2.2.1 h
      rw [List.mem_singleton] at hx
      subst hx
      change Fin 2 at b
      fin_cases b <;> simp [System.construct, bodies, System.add, sphere, planet, Body.isOblate] at hle <;> norm_num [abs_of_pos, abs_of_neg] at hle
  · refine (C69_massless bodies 0 _ [5, 5 / 2]).2.2.2 ⟨(⟨0, by decide⟩ : Fin 2), 5 / 2, by simp, ?_⟩
    simp [System.construct, bodies, System.add, sphere, planet, Body.isOblate]
    norm_num [abs_of_pos, abs_of_neg]

end Example

end Principia.Gravity
