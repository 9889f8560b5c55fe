import Verif.Ksp.ManoeuvreModel
import Mathlib.Analysis.Calculus.MeanValue

set_option linter.unusedSimpArgs false
set_option linter.unusedVariables false
set_option linter.unusedSectionVars false

/-!
C48: manœuvres honour the rocket equation.
-/

noncomputable section

namespace Principia.Manoeuvre

variable {E : Type} [NormedAddCommGroup E] [NormedSpace ℝ E]

/-- The mass, thrust and specific impulse of an actual vessel. -/
structure Spec.Physical (m : ℝ) (b : Burn E) : Prop where
  mass : 0 < m
  thrust : 0 < b.thrust
  specificImpulse : 0 < b.specificImpulse

open Spec

/-- The ratio of the final mass to the initial mass. -/
def ratio (b : Burn E) : ℝ := Real.exp (-(‖b.Δv‖ / b.specificImpulse))

theorem ratio_pos (b : Burn E) : 0 < ratio b := Real.exp_pos _

theorem ratio_le {m : ℝ} {b : Burn E} (h : Physical m b) : ratio b ≤ 1 := by
  unfold ratio
  rw [Real.exp_le_one_iff, neg_nonpos]
  exact div_nonneg (norm_nonneg _) h.specificImpulse.le

theorem duration_eq {m : ℝ} {b : Burn E} (h : Physical m b) :
    durationOf m b = some (m * b.specificImpulse * (1 - ratio b) / b.thrust) := by
  unfold durationOf ratio
  split
  · rename_i h0
    rw [h0]; simp
  · rw [divide, if_neg h.specificImpulse.ne', Option.bind_some, divide, if_neg h.thrust.ne']

theorem massFlow_eq {m : ℝ} {b : Burn E} (h : Physical m b) : massFlow b = some (b.thrust / b.specificImpulse) := by
  rw [massFlow, divide, if_neg h.specificImpulse.ne']

theorem finalMass_eq {m : ℝ} {b : Burn E} (h : Physical m b) : finalMassOf m b = some (m * ratio b) := by
  rw [finalMassOf, massFlow_eq h, duration_eq h, Option.bind_some, Option.bind_some]
  have := h.thrust.ne'
  have := h.specificImpulse.ne'
  congr 1
  field_simp
  ring

theorem timeToHalf_eq {m : ℝ} {b : Burn E} (h : Physical m b) :
    timeToHalfΔv m b = some (b.specificImpulse * m * (1 - Real.sqrt (ratio b)) / b.thrust) := by
  rw [timeToHalfΔv, finalMass_eq h, Option.bind_some, divide, if_neg h.mass.ne', Option.bind_some, divide, if_neg h.thrust.ne',
    mul_div_cancel_left₀ _ h.mass.ne']

/-- The constructor accepts a burn if and only if exactly one of the members of its timing is given. -/
theorem C48_constructor (m : ℝ) (b : Burn E) :
    (∃ x, make m b = some x) ↔ Xor' (b.timing.initialTime.isSome = true) (b.timing.timeOfHalfΔv.isSome = true) := by
  unfold make
  rcases b.timing.initialTime with _ | t <;> rcases b.timing.timeOfHalfΔv with _ | u <;> simp [Xor']

/-- The values of a manœuvre. -/
theorem make_values {m : ℝ} {b : Burn E} {x : Manoeuvre E} (h : Physical m b) (hx : make m b = some x) :
    ∃ t, x = ⟨m, b, some (m * b.specificImpulse * (1 - ratio b) / b.thrust), some t,
        some (t + b.specificImpulse * m * (1 - Real.sqrt (ratio b)) / b.thrust)⟩ ∧
      (∀ u, b.timing.initialTime = some u → u = t) ∧
      (∀ u, b.timing.timeOfHalfΔv = some u → u = t + b.specificImpulse * m * (1 - Real.sqrt (ratio b)) / b.thrust) := by
  unfold make at hx
  split at hx
  · rename_i t e1 e2
    rw [Option.some.injEq] at hx
    refine ⟨t, ?_, ?_, ?_⟩
    · rw [← hx, duration_eq h, timeToHalf_eq h]; rfl
    · intro u hu; rw [e1] at hu; exact (Option.some.inj hu).symm
    · intro u hu; rw [e2] at hu; exact absurd hu (by simp)
  · rename_i t e1 e2
    rw [Option.some.injEq] at hx
    refine ⟨t - b.specificImpulse * m * (1 - Real.sqrt (ratio b)) / b.thrust, ?_, ?_, ?_⟩
    · rw [← hx, duration_eq h, timeToHalf_eq h]
      simp
    · intro u hu; rw [e1] at hu; exact absurd hu (by simp)
    · intro u hu; rw [e2] at hu; rw [← Option.some.inj hu]; ring
  · exact absurd hx (by simp)

/-- C48: the final mass obeys the rocket equation, the timing given at construction is honoured, and the instant when half of the Δv was
expended lies between the initial and final times. -/
theorem C48_rocket_equation (m : ℝ) (b : Burn E) (x : Manoeuvre E) (h : Physical m b) (hx : make m b = some x) :
    x.initialMass = m ∧ x.burn = b ∧
    x.finalMass = some (m * Real.exp (-(‖b.Δv‖ / b.specificImpulse))) ∧
    (∀ u, b.timing.initialTime = some u → x.initialTime = some u) ∧
    (∀ u, b.timing.timeOfHalfΔv = some u → x.timeOfHalfΔv = some u) ∧
    ∃ ti th tf, x.initialTime = some ti ∧ x.timeOfHalfΔv = some th ∧ x.finalTime = some tf ∧ ti ≤ th ∧ th ≤ tf ∧
      (b.Δv ≠ 0 → ti < th ∧ th < tf) := by
  obtain ⟨t, rfl, e1, e2⟩ := make_values h hx
  have hs : Real.sqrt (ratio b) * Real.sqrt (ratio b) = ratio b := Real.mul_self_sqrt (ratio_pos b).le
  have hsp : 0 < Real.sqrt (ratio b) := Real.sqrt_pos.2 (ratio_pos b)
  have hs1 : Real.sqrt (ratio b) ≤ 1 := Real.sqrt_le_one.2 (ratio_le h)
  have hsr : ratio b ≤ Real.sqrt (ratio b) := by nlinarith
  have hk : 0 < b.specificImpulse * m / b.thrust := div_pos (mul_pos h.specificImpulse h.mass) h.thrust
  refine ⟨rfl, rfl, ?_, fun u hu => by rw [e1 u hu], fun u hu => by rw [e2 u hu], t, _, _, rfl, rfl, rfl, ?_, ?_, ?_⟩
  · exact finalMass_eq h ▸ by rw [Manoeuvre.finalMass, finalMassOf, duration_eq h]
  · have : b.specificImpulse * m * (1 - Real.sqrt (ratio b)) / b.thrust = b.specificImpulse * m / b.thrust * (1 - Real.sqrt (ratio b)) := by ring
    rw [this]; nlinarith
  · have e3 : b.specificImpulse * m * (1 - Real.sqrt (ratio b)) / b.thrust = b.specificImpulse * m / b.thrust * (1 - Real.sqrt (ratio b)) := by ring
    have e4 : m * b.specificImpulse * (1 - ratio b) / b.thrust = b.specificImpulse * m / b.thrust * (1 - ratio b) := by ring
    rw [e3, e4]; nlinarith
  · intro hv
    have hr : ratio b < 1 := by
      unfold ratio
      rw [Real.exp_lt_one_iff, neg_lt_zero]
      exact div_pos (norm_pos_iff.2 hv) h.specificImpulse
    have hs2 : Real.sqrt (ratio b) < 1 := by
      by_contra hc
      have : Real.sqrt (ratio b) = 1 := le_antisymm hs1 (not_lt.1 hc)
      rw [this] at hs; linarith
    have e3 : b.specificImpulse * m * (1 - Real.sqrt (ratio b)) / b.thrust = b.specificImpulse * m / b.thrust * (1 - Real.sqrt (ratio b)) := by ring
    have e4 : m * b.specificImpulse * (1 - ratio b) / b.thrust = b.specificImpulse * m / b.thrust * (1 - ratio b) := by ring
    rw [e3, e4]
    constructor
    · have := mul_pos hk (sub_pos.2 hs2); linarith
    · have : ratio b < Real.sqrt (ratio b) := by nlinarith
      have := mul_lt_mul_of_pos_left this hk
      linarith

/-- The velocity gained since the initial time. -/
def gained (m : ℝ) (b : Burn E) (t₀ : ℝ) (d : E) (t : ℝ) : E :=
  (b.specificImpulse * (Real.log m - Real.log (m - (t - t₀) * (b.thrust / b.specificImpulse)))) • d

theorem gained_deriv {m : ℝ} {b : Burn E} (h : Physical m b) (t₀ : ℝ) (d : E) (t : ℝ) (s : Set ℝ)
    (hm : 0 < m - (t - t₀) * (b.thrust / b.specificImpulse)) :
    HasDerivWithinAt (gained m b t₀ d) ((m - (t - t₀) * (b.thrust / b.specificImpulse))⁻¹ • (b.thrust • d)) s t := by
  have h1 : HasDerivAt (fun t => m - (t - t₀) * (b.thrust / b.specificImpulse)) (-(b.thrust / b.specificImpulse)) t := by
    have := (((hasDerivAt_id t).sub_const t₀).mul_const (b.thrust / b.specificImpulse)).const_sub m
    simpa using this
  have h2 := ((h1.log hm.ne').const_sub (Real.log m)).const_mul b.specificImpulse
  have h3 := (h2.smul_const d).hasDerivWithinAt (s := s)
  unfold gained
  convert h3 using 1
  rw [smul_smul]
  congr 1
  have := h.specificImpulse.ne'
  field_simp

theorem mass_pos {m : ℝ} {b : Burn E} (h : Physical m b) (t₀ t : ℝ) (ht : t ≤ t₀ + m * b.specificImpulse * (1 - ratio b) / b.thrust) :
    0 < m - (t - t₀) * (b.thrust / b.specificImpulse) := by
  have h1 : (t - t₀) * (b.thrust / b.specificImpulse) ≤ m * b.specificImpulse * (1 - ratio b) / b.thrust * (b.thrust / b.specificImpulse) :=
    mul_le_mul_of_nonneg_right (by linarith) (div_pos h.thrust h.specificImpulse).le
  have h2 : m * b.specificImpulse * (1 - ratio b) / b.thrust * (b.thrust / b.specificImpulse) = m * (1 - ratio b) := by
    have := h.thrust.ne'
    have := h.specificImpulse.ne'
    field_simp
  have := mul_pos h.mass (ratio_pos b)
  linarith [h1, h2 ▸ h1, this]

theorem smul_direction (v : E) : ‖v‖ • normalizeOrZero v = v := by
  unfold normalizeOrZero
  split
  · rename_i h0
    rw [smul_zero]; exact (norm_eq_zero.1 h0).symm
  · rename_i h0
    rw [smul_smul, mul_inv_cancel₀ h0, one_smul]

/-- C48: whatever other accelerations vanish, a vessel that is subject to the acceleration of the manœuvre in the direction of its Δv accumulates
exactly that Δv between its initial and final times, and half of it at the time of half Δv. -/
theorem C48_accumulated_delta_v (m : ℝ) (b : Burn E) (x : Manoeuvre E) (h : Physical m b) (hx : make m b = some x)
    (ti th tf : ℝ) (hti : x.initialTime = some ti) (hth : x.timeOfHalfΔv = some th) (htf : x.finalTime = some tf)
    (v a : ℝ → E) (hv : ∀ t ∈ Set.Icc ti tf, HasDerivWithinAt v (a t) (Set.Icc ti tf) t)
    (ha : ∀ t ∈ Set.Icc ti tf, x.acceleration t (normalizeOrZero b.Δv) = some (a t)) :
    v tf - v ti = b.Δv ∧ v th - v ti = (1 / 2 : ℝ) • b.Δv := by
  obtain ⟨_, _, _, _, _, ti', th', tf', e1, e2, e3, hle1, hle2, _⟩ := C48_rocket_equation m b x h hx
  obtain ⟨t, rfl, _, _⟩ := make_values h hx
  obtain rfl : ti = t := (Option.some.inj hti).symm
  obtain rfl : th = _ := (Option.some.inj hth).symm
  obtain rfl : tf = _ := (Option.some.inj htf).symm
  rw [← Option.some.inj e1, ← Option.some.inj e2] at hle1
  rw [← Option.some.inj e2, ← Option.some.inj e3] at hle2
  set th := ti + b.specificImpulse * m * (1 - Real.sqrt (ratio b)) / b.thrust with hth'
  set tf := ti + m * b.specificImpulse * (1 - ratio b) / b.thrust with htf'
  set d := normalizeOrZero b.Δv with hd
  set w := gained m b ti d with hw
  have hder : ∀ t ∈ Set.Icc ti tf, HasDerivWithinAt (fun t => v t - w t) 0 (Set.Icc ti tf) t := by
    intro t ht
    have hm := mass_pos h ti t ht.2
    have e := ha t ht
    unfold Manoeuvre.acceleration at e
    rw [if_pos, massFlow_eq h] at e
    · simp only [Option.bind_some] at e
      rw [if_neg hm.ne', Option.some.injEq] at e
      have := (hv t ht).sub (gained_deriv h ti d t (Set.Icc ti tf) hm)
      rwa [e, sub_self] at this
    · refine ⟨?_, ?_, rfl, rfl⟩
      · rintro ⟨p, q, hp, hq, hlt⟩
        cases hp; cases hq; exact absurd ht.1 (not_le.2 hlt)
      · rintro ⟨p, q, hp, hq, hlt⟩
        cases hq
        rw [htf] at hp
        cases hp; exact absurd ht.2 (not_le.2 hlt)
  have hconst := constant_of_derivWithin_zero (f := fun t => v t - w t) (a := ti) (b := tf)
    (fun t ht => (hder t ht).differentiableWithinAt)
    (fun t ht => (hder t ⟨ht.1, ht.2.le⟩).derivWithin
      (uniqueDiffOn_Icc (lt_of_le_of_lt ht.1 ht.2) t ⟨ht.1, ht.2.le⟩))
  have w0 : w ti = 0 := by
    rw [hw]; unfold gained
    simp
  have hsr : 0 < Real.sqrt (ratio b) := Real.sqrt_pos.2 (ratio_pos b)
  have k1 : m - (tf - ti) * (b.thrust / b.specificImpulse) = m * ratio b := by
    rw [htf']
    have := h.thrust.ne'
    have := h.specificImpulse.ne'
    field_simp
    ring
  have k2 : m - (th - ti) * (b.thrust / b.specificImpulse) = m * Real.sqrt (ratio b) := by
    rw [hth']
    have := h.thrust.ne'
    have := h.specificImpulse.ne'
    field_simp
    ring
  have hlr : Real.log (ratio b) = -(‖b.Δv‖ / b.specificImpulse) := Real.log_exp _
  have w1 : w tf = b.Δv := by
    rw [hw]; unfold gained
    rw [k1, Real.log_mul h.mass.ne' (ratio_pos b).ne', hlr]
    have e : b.specificImpulse * (Real.log m - (Real.log m + -(‖b.Δv‖ / b.specificImpulse))) = ‖b.Δv‖ := by
      have := h.specificImpulse.ne'
      field_simp
      ring
    rw [e, hd, smul_direction]
  have w2 : w th = (1 / 2 : ℝ) • b.Δv := by
    rw [hw]; unfold gained
    rw [k2, Real.log_mul h.mass.ne' hsr.ne', Real.log_sqrt (ratio_pos b).le, hlr]
    have e : b.specificImpulse * (Real.log m - (Real.log m + -(‖b.Δv‖ / b.specificImpulse) / 2)) = 1 / 2 * ‖b.Δv‖ := by
      have := h.specificImpulse.ne'
      field_simp
      ring
    rw [e, mul_smul, hd, smul_direction]
  have c1 := hconst tf ⟨hle1.trans hle2, le_rfl⟩
  have c2 := hconst th ⟨hle1, hle2⟩
  simp only [w0, w1, w2, sub_zero] at c1 c2
  constructor
  · rw [← c1]; abel
  · rw [← c2]; abel

/-- C48: there is no acceleration before the initial time and after the final time. -/
theorem C48_no_acceleration_outside (x : Manoeuvre E) (t ti tf : ℝ) (d : E) (hti : x.initialTime = some ti) (htf : x.finalTime = some tf)
    (h : t < ti ∨ tf < t) : x.acceleration t d = some 0 := by
  unfold Manoeuvre.acceleration
  rw [if_neg]
  rintro ⟨h1, h2, _⟩
  rcases h with h | h
  · exact h1 ⟨t, ti, rfl, hti, h⟩
  · exact h2 ⟨tf, t, htf, rfl, h⟩

/-- C48: reading what was written yields a manœuvre with the same mass, Δv, initial time, time of half Δv, duration and final mass.  Note
that the timing is always given by the initial time after reading. -/
theorem C48_serialization (m : ℝ) (b : Burn E) (x : Manoeuvre E) (h : Physical m b) (hx : make m b = some x) :
    ∃ msg y, x.write = some msg ∧ read msg = some y ∧
      y.initialMass = x.initialMass ∧ y.burn.Δv = x.burn.Δv ∧ y.burn.isInertiallyFixed = x.burn.isInertiallyFixed ∧
      y.initialTime = x.initialTime ∧ y.timeOfHalfΔv = x.timeOfHalfΔv ∧ y.duration = x.duration ∧ y.finalMass = x.finalMass := by
  obtain ⟨t, rfl, _, _⟩ := make_values h hx
  have h' : Physical m (⟨b.Δv, ⟨some t, none⟩, b.thrust, b.specificImpulse, b.isInertiallyFixed⟩ : Burn E) := ⟨h.mass, h.thrust, h.specificImpulse⟩
  set b' : Burn E := ⟨b.Δv, ⟨some t, none⟩, b.thrust, b.specificImpulse, b.isInertiallyFixed⟩ with hb'
  refine ⟨_, ⟨m, b', durationOf m b', some t, (timeToHalfΔv m b').map (t + ·)⟩, rfl, ?_, rfl, rfl, rfl, rfl, ?_, ?_, ?_⟩
  · unfold read Message.Δv
    simp [make]
    exact ⟨rfl, rfl, rfl⟩
  · rw [timeToHalf_eq h']; rfl
  · rw [duration_eq h']; rfl
  · unfold Manoeuvre.finalMass
    simp only [duration_eq h']
    rfl

/-- C48: a manœuvre saved before Levi-Civita, by a direction and a duration that does not exhaust the mass, is read as a manœuvre of that
duration, with the same final mass. -/
theorem C48_old_serialization (d : E) (hd : ‖d‖ = 1) (m duration thrust specificImpulse t : ℝ) (fixed : Bool) (h1 : 0 < m) (h2 : 0 < thrust)
    (h3 : 0 < specificImpulse) (h4 : 0 ≤ duration) (h5 : thrust / specificImpulse * duration < m) :
    ∃ y, read (⟨thrust, m, specificImpulse, none, some d, some duration, t, fixed⟩ : Message E) = some y ∧
      y.initialMass = m ∧ y.initialTime = some t ∧ y.duration = some duration ∧ y.finalMass = some (m - thrust / specificImpulse * duration) ∧
      ∃ k : ℝ, 0 ≤ k ∧ y.burn.Δv = k • d := by
  set f := m - thrust / specificImpulse * duration with hf
  have hf0 : 0 < f := by linarith
  have hfm : f ≤ m := by
    have := mul_nonneg (div_pos h2 h3).le h4
    linarith
  have hlog : 0 ≤ Real.log (m / f) := Real.log_nonneg ((one_le_div hf0).2 hfm)
  set Δv := Real.log (m / f) • (specificImpulse • d) with hΔv
  have hnorm : ‖Δv‖ = Real.log (m / f) * specificImpulse := by
    rw [hΔv, norm_smul, norm_smul, hd, Real.norm_of_nonneg hlog, Real.norm_of_nonneg h3.le, mul_one]
  set b : Burn E := ⟨Δv, ⟨some t, none⟩, thrust, specificImpulse, fixed⟩ with hb
  have hP : Physical m b := ⟨h1, h2, h3⟩
  have hr : ratio b = f / m := by
    unfold ratio
    show Real.exp (-(‖Δv‖ / specificImpulse)) = _
    rw [hnorm, mul_div_cancel_right₀ _ h3.ne', Real.exp_neg, Real.exp_log (div_pos h1 hf0), inv_div]
  have hread : read (⟨thrust, m, specificImpulse, none, some d, some duration, t, fixed⟩ : Message E) =
      some ⟨m, b, durationOf m b, some t, (timeToHalfΔv m b).map (t + ·)⟩ := by
    unfold read Message.Δv tsiolkovskyΔv
    simp only [Option.isSome_some, true_or, if_true, Option.getD_some]
    rw [divide, if_neg h3.ne', Option.bind_some, divide, if_neg (by rw [← hf]; exact hf0.ne')]
    rfl
  refine ⟨_, hread, rfl, rfl, ?_, ?_, Real.log (m / f) * specificImpulse, mul_nonneg hlog h3.le, ?_⟩
  · show durationOf m b = _
    rw [duration_eq hP, hr]
    congr 1
    show m * specificImpulse * (1 - f / m) / thrust = duration
    rw [hf]
    have := h1.ne'
    have := h2.ne'
    have := h3.ne'
    field_simp
    ring
  · show finalMassOf m b = _
    rw [finalMass_eq hP, hr]
    congr 1
    field_simp
  · show Δv = _
    rw [hΔv, smul_smul]

/-- C48: for a given burn the duration is proportional to the initial mass, so that a heavier vessel burns for longer. -/
theorem C48_duration_mass (m m' : ℝ) (b : Burn E) (x x' : Manoeuvre E) (h : Physical m b) (h' : Physical m' b) (hx : make m b = some x)
    (hx' : make m' b = some x') (d d' : ℝ) (hd : x.duration = some d) (hd' : x'.duration = some d') : d * m' = d' * m := by
  obtain ⟨t, rfl, _, _⟩ := make_values h hx
  obtain ⟨t', rfl, _, _⟩ := make_values h' hx'
  obtain rfl : d = _ := (Option.some.inj hd).symm
  obtain rfl : d' = _ := (Option.some.inj hd').symm
  ring

/-- C48: a manœuvre fits between two instants if it starts after the first one and ends before the second one, and is after an instant if it
starts after it. -/
theorem C48_fits_between (x : Manoeuvre E) (s t ti tf : ℝ) (hti : x.initialTime = some ti) (htf : x.finalTime = some tf) :
    (x.FitsBetween s t ↔ s < ti ∧ tf < t) ∧ (x.IsAfter s ↔ s < ti) := by
  simp [Manoeuvre.FitsBetween, Manoeuvre.IsAfter, less, hti, htf]

/-- C48: the comment in the constructor says that it handles the case where the thrust vanishes, but the time of half Δv is then 0 / 0, and so
is the initial time if the timing is given by the time of half Δv: that manœuvre never fits in a flight plan. -/
theorem C48_zero_thrust_counterexample :
    (∃ x, make 1 (⟨0, ⟨some 0, none⟩, 0, 1, true⟩ : Burn ℝ) = some x ∧ x.duration = some 0 ∧ x.timeOfHalfΔv = none) ∧
    (∃ x, make 1 (⟨0, ⟨none, some 0⟩, 0, 1, true⟩ : Burn ℝ) = some x ∧ x.duration = some 0 ∧ x.initialTime = none ∧ ∀ s t, ¬ x.FitsBetween s t) := by
  refine ⟨⟨_, rfl, ?_, ?_⟩, ⟨_, rfl, ?_, ?_, ?_⟩⟩
  · simp [durationOf]
  · simp [timeToHalfΔv, finalMassOf, massFlow, durationOf, divide]
  · simp [durationOf]
  · simp [timeToHalfΔv, finalMassOf, massFlow, durationOf, divide]
  · rintro s t ⟨⟨a, b, _, hb, _⟩, _⟩
    simp [timeToHalfΔv, finalMassOf, massFlow, durationOf, divide] at hb

/-- A burn that halves the mass. -/
example : ∃ x, make 4 (⟨Real.log 2, ⟨some 10, none⟩, 1, 1, true⟩ : Burn ℝ) = some x ∧ x.finalMass = some 2 ∧ x.finalTime = some 12 := by
  have hP : Physical 4 (⟨Real.log 2, ⟨some 10, none⟩, 1, 1, true⟩ : Burn ℝ) := ⟨by norm_num, by norm_num, by norm_num⟩
  have hl : 0 < Real.log 2 := Real.log_pos (by norm_num)
  have hr : ratio (⟨Real.log 2, ⟨some 10, none⟩, 1, 1, true⟩ : Burn ℝ) = 1 / 2 := by
    unfold ratio
    show Real.exp (-(‖Real.log 2‖ / 1)) = _
    rw [Real.norm_of_nonneg hl.le, div_one, Real.exp_neg, Real.exp_log (by norm_num)]
    norm_num
  refine ⟨_, rfl, ?_, ?_⟩
  · show finalMassOf 4 _ = _
    rw [finalMass_eq hP, hr]; norm_num
  · show Option.map _ (durationOf 4 _) = _
    rw [duration_eq hP, hr]; norm_num

end Principia.Manoeuvre
