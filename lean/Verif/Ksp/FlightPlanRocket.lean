import Verif.Ksp.FlightPlanProgress
import Verif.Ksp.ManoeuvreProps

set_option linter.unusedSimpArgs false
set_option linter.unusedVariables false

/-!
The flight plans of C31–C34, C49, C50, with the manœuvres of C48.
-/

noncomputable section

namespace Principia.FlightPlanRocket

open Principia.Manoeuvre Principia.Manoeuvre.Spec FlightPlan.Spec

variable {V : Type} [NormedAddCommGroup V] [NormedSpace ℝ V]

/-- The masses of vessels. -/
abbrev Mass := { m : ℝ // 0 < m }

/-- The burns that may be executed: the engine has a thrust and a specific impulse, the timing is given in exactly one way. -/
def Executable (b : Burn V) : Prop :=
  0 < b.thrust ∧ 0 < b.specificImpulse ∧ Xor' (b.timing.initialTime.isSome = true) (b.timing.timeOfHalfΔv.isSome = true)

theorem physical (m : Mass) (b : { b : Burn V // Executable b }) : Physical m.1 b.1 := ⟨m.2, b.2.1, b.2.2.1⟩

theorem make_some (m : Mass) (b : { b : Burn V // Executable b }) : ∃ x, Principia.Manoeuvre.make m.1 b.1 = some x := (C48_constructor m.1 b.1).2 b.2.2.2

/-- ksp_plugin/manœuvre_body.hpp:143-168, 246-265: the mass and the times of a manœuvre given by the constructor of `Manœuvre`.  The manœuvres are never
singular (262-265) since they are modelled by real numbers.  The values after `getD` are not used, see `rocket_values`. -/
def rocket : FlightPlan.Engine ℝ Mass { b : Burn V // Executable b } where
  initialTime m b := ((Principia.Manoeuvre.make m.1 b.1).bind fun x => x.initialTime).getD 0
  finalTime m b := ((Principia.Manoeuvre.make m.1 b.1).bind fun x => x.finalTime).getD 0
  finalMass m b := ⟨((Principia.Manoeuvre.make m.1 b.1).bind fun x => x.finalMass).getD 0, by
    obtain ⟨x, hx⟩ := make_some m b
    rw [hx, Option.bind_some, (C48_rocket_equation m.1 b.1 x (physical m b) hx).2.2.1, Option.getD_some]
    exact mul_pos m.2 (Real.exp_pos _)⟩
  singular _ := false
  inertial b := b.1.isInertiallyFixed

/-- The values are those of the manœuvre that is constructed. -/
theorem rocket_values (m : Mass) (b : { b : Burn V // Executable b }) : ∃ x, Principia.Manoeuvre.make m.1 b.1 = some x ∧
    x.initialTime = some (rocket.initialTime m b) ∧ x.finalTime = some (rocket.finalTime m b) ∧ x.finalMass = some (rocket.finalMass m b).1 := by
  obtain ⟨x, hx⟩ := make_some m b
  obtain ⟨_, _, e1, _, _, ti, th, tf, e2, e3, e4, _⟩ := C48_rocket_equation m.1 b.1 x (physical m b) hx
  refine ⟨x, hx, ?_, ?_, ?_⟩
  · simp only [rocket, hx, Option.bind_some, e2, Option.getD_some]
  · simp only [rocket, hx, Option.bind_some, e4, Option.getD_some]
  · simp only [rocket, hx, Option.bind_some, e1, Option.getD_some]

theorem rocket_times (m : Mass) (b : { b : Burn V // Executable b }) :
    (rocket.finalMass m b).1 = m.1 * ratio b.1 ∧
    ((∃ t, b.1.timing.initialTime = some t ∧ rocket.initialTime m b = t ∧
        rocket.finalTime m b = t + m.1 * (b.1.specificImpulse * (1 - ratio b.1) / b.1.thrust)) ∨
      ∃ t, b.1.timing.initialTime = none ∧ b.1.timing.timeOfHalfΔv = some t ∧
        rocket.initialTime m b = t - m.1 * (b.1.specificImpulse * (1 - Real.sqrt (ratio b.1)) / b.1.thrust) ∧
        rocket.finalTime m b = t + m.1 * (b.1.specificImpulse * (Real.sqrt (ratio b.1) - ratio b.1) / b.1.thrust)) := by
  obtain ⟨x, hx, h1, h2, h3⟩ := rocket_values m b
  have hm := (C48_rocket_equation m.1 b.1 x (physical m b) hx).2.2.1
  rw [h3] at hm
  refine ⟨Option.some.inj hm, ?_⟩
  obtain ⟨t, rfl, k1, k2⟩ := make_values (physical m b) hx
  have e1 : t = rocket.initialTime m b := Option.some.inj h1
  have e2 : t + m.1 * b.1.specificImpulse * (1 - ratio b.1) / b.1.thrust = rocket.finalTime m b := Option.some.inj h2
  cases hi : b.1.timing.initialTime with
  | some u =>
    left
    have := k1 u hi
    subst this
    exact ⟨u, rfl, e1.symm, by rw [← e2]; ring⟩
  | none =>
    right
    have hx := b.2.2.2
    rw [hi] at hx
    cases hh : b.1.timing.timeOfHalfΔv with
    | none => rw [hh] at hx; simp [Xor'] at hx
    | some u =>
      have := k2 u hh
      subst this
      exact ⟨_, rfl, rfl, by rw [← e1]; ring, by rw [← e2]; ring⟩

/-- **C50.**  The manœuvres have the properties that are required by `C50_rocket_insert` and `C50_rocket_replace`. -/
theorem C50_rocket : FlightPlan.Spec.Monotone (rocket (V := V)) := by
  have hr : ∀ (m : Mass) (b : { b : Burn V // Executable b }), ratio b.1 ≤ 1 := fun m b => ratio_le (physical m b)
  have hs : ∀ (m : Mass) (b : { b : Burn V // Executable b }), ratio b.1 ≤ Real.sqrt (ratio b.1) ∧ Real.sqrt (ratio b.1) ≤ 1 := by
    intro m b
    refine ⟨?_, Real.sqrt_le_one.2 (hr m b)⟩
    apply Real.le_sqrt_of_sq_le
    nlinarith [hr m b, ratio_pos b.1]
  have nn : ∀ (b : { b : Burn V // Executable b }) (k : ℝ), 0 ≤ k → 0 ≤ b.1.specificImpulse * k / b.1.thrust := fun b k hk =>
    div_nonneg (mul_nonneg b.2.2.1.le hk) b.2.1.le
  refine ⟨fun m b => ?_, fun m m' b h => ?_, fun m m' b h => ?_, fun m m' b h => ?_, fun m b => ?_⟩
  · show (rocket.finalMass m b).1 ≤ m.1
    rw [(rocket_times m b).1]
    exact mul_le_of_le_one_right m.2.le (hr m b)
  · show (rocket.finalMass m b).1 ≤ (rocket.finalMass m' b).1
    rw [(rocket_times m b).1, (rocket_times m' b).1]
    exact mul_le_mul_of_nonneg_right h (ratio_pos _).le
  · rcases (rocket_times m b).2 with ⟨t, h1, h2, h3⟩ | ⟨t, h1, h2, h3, h4⟩ <;>
      rcases (rocket_times m' b).2 with ⟨t', h1', h2', h3'⟩ | ⟨t', h1', h2', h3', h4'⟩
    · rw [h1] at h1'; rw [h2, h2', Option.some.inj h1']
    · rw [h1] at h1'; exact absurd h1' (by simp)
    · rw [h1] at h1'; exact absurd h1' (by simp)
    · rw [h2] at h2'; rw [h3, h3', Option.some.inj h2']
      have := mul_le_mul_of_nonneg_right (show m.1 ≤ m'.1 from h) (nn b _ (by linarith [(hs m b).2] : 0 ≤ 1 - Real.sqrt (ratio b.1)))
      linarith
  · rcases (rocket_times m b).2 with ⟨t, h1, h2, h3⟩ | ⟨t, h1, h2, h3, h4⟩ <;>
      rcases (rocket_times m' b).2 with ⟨t', h1', h2', h3'⟩ | ⟨t', h1', h2', h3', h4'⟩
    · rw [h1] at h1'; rw [h3, h3', Option.some.inj h1']
      have := mul_le_mul_of_nonneg_right (show m.1 ≤ m'.1 from h) (nn b _ (by linarith [hr m b] : 0 ≤ 1 - ratio b.1))
      linarith
    · rw [h1] at h1'; exact absurd h1' (by simp)
    · rw [h1] at h1'; exact absurd h1' (by simp)
    · rw [h2] at h2'; rw [h4, h4', Option.some.inj h2']
      have := mul_le_mul_of_nonneg_right (show m.1 ≤ m'.1 from h) (nn b _ (by linarith [(hs m b).1] : 0 ≤ Real.sqrt (ratio b.1) - ratio b.1))
      linarith
  · rcases (rocket_times m b).2 with ⟨t, h1, h2, h3⟩ | ⟨t, h1, h2, h3, h4⟩
    · rw [h2, h3]
      have := mul_nonneg m.2.le (nn b _ (by linarith [hr m b] : 0 ≤ 1 - ratio b.1))
      linarith
    · rw [h3, h4]
      have := mul_nonneg m.2.le (nn b _ (by linarith [(hs m b).2] : 0 ≤ 1 - Real.sqrt (ratio b.1)))
      have := mul_nonneg m.2.le (nn b _ (by linarith [(hs m b).1] : 0 ≤ Real.sqrt (ratio b.1) - ratio b.1))
      linarith

/-- A burn that starts at time 10 exists, so that `rocket` is not an empty notion. -/
example : Executable (⟨100, ⟨some 10, none⟩, 20, 3000, true⟩ : Burn ℝ) := ⟨by norm_num, by norm_num, by simp [Xor']⟩

end Principia.FlightPlanRocket
