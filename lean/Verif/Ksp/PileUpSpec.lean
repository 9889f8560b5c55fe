import Verif.Ksp.PileUpModel
import Verif.Physics.MechanicalSystemSpec
import Verif.Physics.EulerSolverSpec

/-!
What the parts of a pile-up are made of, and what the integrators do.
-/

set_option linter.unusedVariables false

namespace Principia.Ksp.PileUp

open Geometry Physics.Motion Physics.Mechanical Physics.Euler

/-- The particles that a part is made of, given by their masses and their positions in the frame of the part. -/
abbrev Matter := ℕ → List (ℝ × R3 ℝ)

/-- The mass and the inertia tensor of a part are those of its particles, the origin of its frame is their centre of mass, the masses are positive and the particles do not lie
on a line. -/
structure Describes (p : Part) (l : List (ℝ × R3 ℝ)) : Prop where
  mass : p.mass = totalMass (l.map fun x => ⟨x.1, ⟨x.2, 0⟩⟩)
  centred : firstMoment (l.map fun x => ⟨x.1, ⟨x.2, 0⟩⟩) = 0
  inertia : ∀ ω, p.inertiaTensor.mulVec ω = spin 0 (l.map fun x => ⟨x.1, ⟨x.2, 0⟩⟩) ω
  positive : ∀ x ∈ l, 0 < x.1
  solid : ∀ ω : R3 ℝ, ω ≠ 0 → 0 < ω.dot (p.inertiaTensor.mulVec ω)

/-- The particles of some parts, as they move when the parts have the given motions. -/
noncomputable def moving (matter : Matter) (motions : PartTo RigidMotion) : List Particle :=
  motions.flatMap fun x => (matter x.1).map fun y => ⟨y.1, x.2.apply ⟨y.2, 0⟩⟩

/-- The particles are in the frame of their centre of mass. -/
def Centred (ps : List Particle) : Prop := firstMoment ps = 0 ∧ momentum ps = 0

/-- The angular momentum of the particles with respect to the origin is `L`, up to the accuracy of the diagonalization of their inertia tensor `J`; `ω` is their overall angular
velocity. -/
def HasAngularMomentum (ps : List Particle) (L : R3 ℝ) : Prop :=
  ∃ (J : M3 ℝ) (ω : R3 ℝ), (∀ v, J.mulVec v = spin 0 ps v) ∧ angularMomentumAbout ⟨0, 0⟩ ps = J.mulVec ω ∧
    (angularMomentumAbout ⟨0, 0⟩ ps - L).norm ≤ 2 ^ (-57 : ℤ) * Form.frobeniusNorm J * ω.norm

/-! ## Deformations -/

/-- What becomes of a state when its centre of mass `c` is brought to the origin, its overall angular velocity `ωₐ` is removed, it is turned by `Q`, and the overall angular
velocity `ω` is added. -/
noncomputable def turned (c : DegreesOfFreedom) (ωₐ : R3 ℝ) (Q : Rotation ℝ) (ω : R3 ℝ) (d : DegreesOfFreedom) : DegreesOfFreedom :=
  ⟨Q.apply (d.position - c.position), Q.apply (d.velocity - c.velocity - ωₐ.cross (d.position - c.position)) + ω.cross (Q.apply (d.position - c.position))⟩

/-- The particles in these states. -/
noncomputable def turn (c : DegreesOfFreedom) (ωₐ : R3 ℝ) (Q : Rotation ℝ) (ω : R3 ℝ) (ps : List Particle) : List Particle :=
  ps.map fun p => ⟨p.mass, turned c ωₐ Q ω p.state⟩

/-- The particles without their velocities. -/
noncomputable def still (ps : List Particle) : List Particle := ps.map fun p => ⟨p.mass, ⟨p.state.position, 0⟩⟩

/-- `Q` is a rotation as a function of time, and `ω` is its angular velocity. -/
structure Turning (Q : ℝ → Rotation ℝ) (ω : ℝ → R3 ℝ) : Prop where
  unit : ∀ t, (Q t).IsUnit
  velocity : ∀ t v, HasDeriv (fun s => (Q s).apply v) ((ω t).cross ((Q t).apply v)) t

/-- The axes of the parts, given their motions. -/
noncomputable def axes (parts : List ℕ) (motion : ℕ → RigidMotion) : List (R3 ℝ) :=
  parts.flatMap fun p => [(motion p).orthogonalMap.apply ⟨1, 0, 0⟩, (motion p).orthogonalMap.apply ⟨0, 1, 0⟩, (motion p).orthogonalMap.apply ⟨0, 0, 1⟩]

/-! ## Integration -/

/-- The times are in increasing order. -/
def Increasing (l : List Point) : Prop := l.Pairwise fun p q => p.time < q.time

/-- What is assumed of the integrators and of Davenport's method.  `position` is the last point that was computed by an instance of the fixed-step integrator. -/
structure Env.Correct {ι : Type} (env : Env ι) (position : ι → Point) : Prop where
  /-- Davenport's method yields a rotation. -/
  davenport : ∀ a b w, (env.davenport a b w).IsUnit
  /-- An instance starts at the given point. -/
  new : ∀ p, position (env.newInstance p) = p
  /-- The points appended by the fixed-step integrator come after the last one, and are not after the requested time. -/
  fixed : ∀ t i, Increasing (position i :: (env.flowFixed t i).1) ∧ ∀ p ∈ (env.flowFixed t i).1, p.time ≤ t
  /-- The instance remembers the last point. -/
  last : ∀ t i, (position i :: (env.flowFixed t i).1).getLast? = some (position (env.flowFixed t i).2.1)
  /-- The points appended by the adaptive-step integrator come after the last one, and are not after the requested time. -/
  adaptive : ∀ a t p, Increasing (p :: (env.flowAdaptive a t p).1) ∧ ∀ q ∈ (env.flowAdaptive a t p).1, q.time ≤ t
  /-- If there is no error, the last one is at the requested time. -/
  reached : ∀ a t p, p.time < t → (env.flowAdaptive a t p).2 = true → ∃ q, (p :: (env.flowAdaptive a t p).1).getLast? = some q ∧ q.time = t

/-! ## The life of a pile-up -/

/-- The apparent motions of all the parts, and only these, have been given, or none has been. -/
def Covered {ι : Type} (u : PileUp ι) : Prop := u.apparent = [] ∨ ∀ p, p ∈ u.parts ↔ ∃ m, (p, m) ∈ u.apparent

/-- The trajectories of the parts do not extend beyond the history of the pile-up. -/
def Ready {ι : Type} (w : World) (u : PileUp ι) : Prop :=
  ∀ p ∈ u.parts, (w p).psychohistory = none ∧ Increasing (w p).history ∧ ∀ q ∈ (w p).history, ∀ last, u.history.getLast? = some last → q.time ≤ last.time

/-- The states of the world and of a pile-up that its clients may reach, if they construct it from distinct parts, give it motions that are rigid, advance it when its parts
are ready, and change the parts as they want between the calls, as long as the parts are made of particles.  The number is the time at which the pile-up was constructed, or
the last time to which it was advanced.  (Advancing it to a time that is not after the end of its trajectory does nothing, see `C72_no_crash`.) -/
inductive Reach {ι : Type} (env : Env ι) : World → PileUp ι → ℝ → Prop
  | make {w : World} {parts : List ℕ} {t : ℝ} {u : PileUp ι} : parts ≠ [] → parts.Nodup → (∀ p ∈ parts, (∃ l, Describes (w p) l) ∧ (w p).rigidMotion.orthogonalMap.IsUnit) →
      PileUp.make w parts t = some u → Reach env w u t
  | world {w : World} {u : PileUp ι} {s : ℝ} (w' : World) : Reach env w u s → (∀ p ∈ u.parts, ∃ l, Describes (w' p) l) → Reach env w' u s
  | recompute {w : World} {u u' : PileUp ι} {s : ℝ} : Reach env w u s → u.recomputeFromParts w = some u' → Reach env w u' s
  | set {w : World} {u u' : PileUp ι} {p : ℕ} {m : RigidMotion} {s : ℝ} : Reach env w u s → m.orthogonalMap.IsUnit → u.setPartApparentRigidMotion p m = some u' → Reach env w u' s
  | advance {w w' : World} {u u' : PileUp ι} {s t : ℝ} {ok : Bool} {back : Point} : Reach env w u s → Covered u → Ready w u → u.back = some back → back.time < t →
      u.deformAndAdvanceTime env w t = some (w', u', ok) → Reach env w' u' t

/-- The states of a pile-up whose parts are made of the given particles that may be reached from its construction, or from a time when its parts were given apparent motions,
without giving other apparent motions.  The number is as in `Reach`. -/
inductive Run {ι : Type} (env : Env ι) (matter : Matter) : PileUp ι → ℝ → Prop
  | make {w : World} {parts : List ℕ} {t : ℝ} {u : PileUp ι} : parts ≠ [] → parts.Nodup → (∀ p ∈ parts, Describes (w p) (matter p) ∧ (w p).rigidMotion.orthogonalMap.IsUnit) →
      PileUp.make w parts t = some u → Run env matter u t
  | deform {w w' : World} {u u' : PileUp ι} {t : ℝ} {ok : Bool} {back : Point} {s : ℝ} : Reach env w u s → u.apparent ≠ [] → (∀ p ∈ u.parts, Describes (w p) (matter p)) → Covered u →
      Ready w u → u.back = some back → back.time < t → u.deformAndAdvanceTime env w t = some (w', u', ok) → Run env matter u' t
  | warp {w w' : World} {u u' : PileUp ι} {s t : ℝ} {ok : Bool} {back : Point} : Run env matter u s → (∀ p ∈ u.parts, Describes (w p) (matter p)) → Ready w u →
      u.back = some back → back.time < t → u.deformAndAdvanceTime env w t = some (w', u', ok) → Run env matter u' t
  | recompute {w : World} {u u' : PileUp ι} {s : ℝ} : Run env matter u s → (∀ p ∈ u.parts, Describes (w p) (matter p)) → u.recomputeFromParts w = some u' → Run env matter u' s

/-- The state of the origin of a part in the barycentric frame, at a point of the trajectory of the pile-up, given its state with respect to the pile-up. -/
noncomputable def placed (d : DegreesOfFreedom) (q : Point) : Point := ⟨q.time, ⟨d.position + q.state.position, d.velocity + q.state.velocity⟩⟩

end Principia.Ksp.PileUp
