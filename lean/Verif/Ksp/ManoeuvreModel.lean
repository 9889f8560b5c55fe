import Mathlib.Analysis.SpecialFunctions.Log.Deriv
import Mathlib.Analysis.SpecialFunctions.Sqrt
import Mathlib.Analysis.InnerProductSpace.Basic

/-!
A model of the manœuvres of ksp_plugin/manœuvre_body.hpp.

Simplifications: doubles are modelled by real numbers, and by `none` if they are not finite, which happens when dividing by 0.  The reference frame of a
burn is not modelled: the direction of the burn is a vector, and that of the acceleration is given separately.  The cartesian or spherical
coordinates used to specify the Δv are not modelled, nor are units.
-/

noncomputable section

namespace Principia.Manoeuvre

variable {E : Type} [NormedAddCommGroup E] [NormedSpace ℝ E]

/-- ksp_plugin/manœuvre.hpp:95-102: exactly one of the fields is set by the client. -/
structure Timing where
  initialTime : Option ℝ
  timeOfHalfΔv : Option ℝ

/-- ksp_plugin/manœuvre.hpp:104-123. -/
structure Burn (E : Type) where
  Δv : E
  timing : Timing
  thrust : ℝ
  specificImpulse : ℝ
  isInertiallyFixed : Bool

/-- The members of a manœuvre, ksp_plugin/manœuvre.hpp:223-227; `initialTime` and `timeOfHalfΔv` are those of `burn_.timing`; the other members of
`burn_` are those of `construction_burn_`. -/
structure Manoeuvre (E : Type) where
  initialMass : ℝ
  burn : Burn E
  duration : Option ℝ
  initialTime : Option ℝ
  timeOfHalfΔv : Option ℝ

/-- Division of doubles. -/
def divide (x y : ℝ) : Option ℝ := if y = 0 then none else some (x / y)

/-- ksp_plugin/manœuvre_body.hpp:149-157: the duration computed by the constructor. -/
def durationOf (m : ℝ) (b : Burn E) : Option ℝ :=
  open Classical in
  if ‖b.Δv‖ = 0 then some 0
  else (divide ‖b.Δv‖ b.specificImpulse).bind fun x => divide (m * b.specificImpulse * (1 - Real.exp (-x))) b.thrust

/-- ksp_plugin/manœuvre_body.hpp:241-244 `Manœuvre::mass_flow`. -/
def massFlow (b : Burn E) : Option ℝ := divide b.thrust b.specificImpulse

/-- ksp_plugin/manœuvre_body.hpp:246-249 `Manœuvre::final_mass`. -/
def finalMassOf (m : ℝ) (b : Burn E) : Option ℝ :=
  (massFlow b).bind fun flow => (durationOf m b).bind fun d => some (m - flow * d)

/-- ksp_plugin/manœuvre_body.hpp:251-255 `Manœuvre::time_to_half_Δv`. -/
def timeToHalfΔv (m : ℝ) (b : Burn E) : Option ℝ :=
  (finalMassOf m b).bind fun f => (divide f m).bind fun r => divide (b.specificImpulse * m * (1 - Real.sqrt r)) b.thrust

/-- ksp_plugin/manœuvre_body.hpp:143-168 `Manœuvre::Manœuvre`.  `none` if a check fails. -/
def make (m : ℝ) (b : Burn E) : Option (Manoeuvre E) :=
  match b.timing.initialTime, b.timing.timeOfHalfΔv with
  | some t, none => some ⟨m, b, durationOf m b, some t, (timeToHalfΔv m b).map (t + ·)⟩
  | none, some t => some ⟨m, b, durationOf m b, (timeToHalfΔv m b).map (t - ·), some t⟩
  | _, _ => none

/-- ksp_plugin/manœuvre_body.hpp:246-249 `Manœuvre::final_mass`. -/
def Manoeuvre.finalMass (x : Manoeuvre E) : Option ℝ :=
  (massFlow x.burn).bind fun flow => x.duration.bind fun d => some (x.initialMass - flow * d)

/-- ksp_plugin/manœuvre_body.hpp:257-260 `Manœuvre::final_time`. -/
def Manoeuvre.finalTime (x : Manoeuvre E) : Option ℝ := x.initialTime.bind fun t => x.duration.map (t + ·)

/-- Comparison of doubles: false if one of the operands is not a number.  (Infinities are not distinguished from NaN, but the only non-finite
values that occur here are the quotients by a zero thrust or specific impulse.) -/
def less (x y : Option ℝ) : Prop := ∃ a b, x = some a ∧ y = some b ∧ a < b

/-- ksp_plugin/manœuvre_body.hpp:267-270 `Manœuvre::IsAfter`. -/
def Manoeuvre.IsAfter (x : Manoeuvre E) (t : ℝ) : Prop := less (some t) x.initialTime

/-- ksp_plugin/manœuvre_body.hpp:272-276 `Manœuvre::FitsBetween`. -/
def Manoeuvre.FitsBetween (x : Manoeuvre E) (s t : ℝ) : Prop := less (some s) x.initialTime ∧ less x.finalTime (some t)

/-- ksp_plugin/manœuvre_body.hpp:23-25 `NormalizeOrZero`, from geometry/grassmann_body.hpp. -/
def normalizeOrZero (v : E) : E := open Classical in if ‖v‖ = 0 then 0 else ‖v‖⁻¹ • v

/-- ksp_plugin/manœuvre_body.hpp:395-406 `Manœuvre::ComputeIntrinsicAcceleration`; `none` if a division by 0 occurs. -/
def Manoeuvre.acceleration (x : Manoeuvre E) (t : ℝ) (direction : E) : Option E :=
  open Classical in
  if ¬ less (some t) x.initialTime ∧ ¬ less x.finalTime (some t) ∧ x.initialTime.isSome ∧ x.finalTime.isSome then
    (massFlow x.burn).bind fun flow => x.initialTime.bind fun t₀ =>
      if x.initialMass - (t - t₀) * flow = 0 then none
      else some ((x.initialMass - (t - t₀) * flow)⁻¹ • (x.burn.thrust • direction))
  else some 0

/-- ksp_plugin/manœuvre_body.hpp:414-426 `Manœuvre::ComputeЦиолковскийΔv`. -/
def tsiolkovskyΔv (direction : E) (m duration thrust specificImpulse : ℝ) : Option E :=
  (divide thrust specificImpulse).bind fun flow =>
    (divide m (m - flow * duration)).map fun r => Real.log r • (specificImpulse • direction)

/-- The message, serialization/ksp_plugin.proto `Manoeuvre`, with the fields used before Levi-Civita. -/
structure Message (E : Type) where
  thrust : ℝ
  initialMass : ℝ
  specificImpulse : ℝ
  intensity : Option E
  direction : Option E
  duration : Option ℝ
  initialTime : ℝ
  isInertiallyFixed : Bool

/-- ksp_plugin/manœuvre_body.hpp:331-341 `Manœuvre::WriteToMessage`; `none` if the time is not finite. -/
def Manoeuvre.write (x : Manoeuvre E) : Option (Message E) :=
  x.initialTime.map fun t => ⟨x.burn.thrust, x.initialMass, x.burn.specificImpulse, some x.burn.Δv, none, none, t, x.burn.isInertiallyFixed⟩

/-- ksp_plugin/manœuvre_body.hpp:358-369: the intensity. -/
def Message.Δv (m : Message E) : Option E :=
  if m.direction.isSome ∨ m.duration.isSome then
    tsiolkovskyΔv (m.direction.getD 0) m.initialMass (m.duration.getD 0) m.thrust m.specificImpulse
  else m.intensity

/-- ksp_plugin/manœuvre_body.hpp:343-379 `Manœuvre::ReadFromMessage`. -/
def read (m : Message E) : Option (Manoeuvre E) :=
  m.Δv.bind fun Δv => make m.initialMass ⟨Δv, ⟨some m.initialTime, none⟩, m.thrust, m.specificImpulse, m.isInertiallyFixed⟩

end Principia.Manoeuvre
