import Mathlib.Analysis.InnerProductSpace.Calculus

/-!
# Model of the gravitational accelerations, `physics/ephemeris_body.hpp`

The order of the bodies in an ephemeris, the accelerations of the massive and massless bodies, the potential, the Jacobians and the jerks.  The computations are in ℝ and in an inner product space, so rounding is not modelled;
neither are the NaNs obtained when two bodies are at the same place.  The contents of the vectors `positions` and `accelerations` are functions of the index.  The geopotential of an oblate body (physics/geopotential_body.hpp) is
a parameter, it is modelled in `GeopotentialModel`.
-/

namespace Principia.Gravity

variable {V : Type*} [NormedAddCommGroup V] [InnerProductSpace ℝ V]

/-- physics/geopotential.hpp:43-57: the functions of a geopotential, per unit of gravitational parameter.  They depend on the time and on the position with respect to the centre of the body.  The other parameters are redundant. -/
structure Geopotential (V : Type*) where
  acceleration : ℝ → V → V
  potential : ℝ → V → ℝ

/-- The values read out of the bounds of the vector of geopotentials. -/
def Geopotential.absent : Geopotential V := ⟨fun _ _ => 0, fun _ _ => 0⟩

/-- physics/massive_body.hpp: a massive body; it is oblate if it has a geopotential. -/
structure Body (V : Type*) where
  gravitationalParameter : ℝ
  minRadius : ℝ
  geopotential : Option (Geopotential V)

/-- physics/massive_body.hpp `is_oblate`. -/
def Body.isOblate (b : Body V) : Bool := b.geopotential.isSome

/-- physics/ephemeris.hpp: `bodies_`, `geopotentials_`, the positions and the velocities of the initial state of the integrator, `number_of_oblate_bodies_`, `number_of_spherical_bodies_`. -/
structure System (V : Type*) where
  bodies : List (Body V)
  geopotentials : List (Geopotential V)
  positions : List V
  velocities : List V
  oblate : ℕ
  spherical : ℕ

/-- physics/ephemeris_body.hpp:121-159: the body of the loop of the constructor. -/
def System.add (s : System V) (b : Body V × V × V) : System V :=
  match b.1.geopotential with
  | some g =>
    { bodies := b.1 :: s.bodies, geopotentials := g :: s.geopotentials, positions := b.2.1 :: s.positions, velocities := b.2.2 :: s.velocities, oblate := s.oblate + 1, spherical := s.spherical }
  | none => { s with bodies := s.bodies ++ [b.1], positions := s.positions ++ [b.2.1], velocities := s.velocities ++ [b.2.2], spherical := s.spherical + 1 }

/-- physics/ephemeris_body.hpp:93-171: the constructor, for bodies with given positions and velocities. -/
def System.construct (l : List (Body V × V × V)) : System V := l.foldl System.add ⟨[], [], [], [], 0, 0⟩

/-- The gravitational parameter of the body of index `b`. -/
def System.μ (s : System V) (b : ℕ) : ℝ := ((s.bodies[b]?).map Body.gravitationalParameter).getD 0

/-- `geopotentials_[b]`. -/
def System.geopotential (s : System V) (b : ℕ) : Geopotential V := (s.geopotentials[b]?).getD Geopotential.absent

/-- physics/ephemeris_body.hpp:1359-1408: the body of the loop of `ComputeGravitationalAccelerationByMassiveBodyOnMassiveBodies`. -/
noncomputable def pair (s : System V) (oblate1 oblate2 : Bool) (t : ℝ) (q : ℕ → V) (b1 : ℕ) (a : ℕ → V) (b2 : ℕ) : ℕ → V :=
  let Δq := q b1 - q b2;
  let Δq2 := ‖Δq‖ ^ 2;
  let Δq_norm := √Δq2;
  let oneOverΔq3 := Δq_norm / (Δq2 * Δq2);
  let a1 := Function.update a b2 (a b2 + (s.μ b1 * oneOverΔq3) • Δq);
  let a2 := Function.update a1 b1 (a1 b1 - (s.μ b2 * oneOverΔq3) • Δq);
  let a4 :=
    if oblate1 then
      let effect := (s.geopotential b1).acceleration t (-Δq);
      let a3 := Function.update a2 b1 (a2 b1 - s.μ b2 • effect);
      Function.update a3 b2 (a3 b2 + s.μ b1 • effect)
    else a2;
  if oblate2 then
    let effect := (s.geopotential b2).acceleration t Δq;
    let a5 := Function.update a4 b1 (a4 b1 + s.μ b2 • effect);
    Function.update a5 b2 (a5 b2 - s.μ b1 • effect)
  else a4

/-- physics/ephemeris_body.hpp:1340-1410 `ComputeGravitationalAccelerationByMassiveBodyOnMassiveBodies`. -/
noncomputable def byMassiveOnMassive (s : System V) (oblate1 oblate2 : Bool) (t : ℝ) (q : ℕ → V) (b1 b2Begin b2End : ℕ) (a : ℕ → V) : ℕ → V :=
  (List.range' b2Begin (b2End - b2Begin)).foldl (pair s oblate1 oblate2 t q b1) a

/-- physics/ephemeris_body.hpp:1502-1552 `ComputeGravitationalAccelerationBetweenAllMassiveBodies`. -/
noncomputable def betweenAll (s : System V) (t : ℝ) (q : ℕ → V) : ℕ → V :=
  let a := (List.range' 0 s.oblate).foldl (fun a b1 => byMassiveOnMassive s true false t q b1 s.oblate (s.oblate + s.spherical) (byMassiveOnMassive s true true t q b1 (b1 + 1) s.oblate a)) (fun _ => 0);
  (List.range' s.oblate s.spherical).foldl (fun a b1 => byMassiveOnMassive s false false t q b1 (b1 + 1) (s.oblate + s.spherical) a) a

/-- physics/ephemeris_body.hpp:1249-1315 `ComputeGravitationalAccelerationOnMassiveBody`, for the body of index `b1`. -/
noncomputable def onMassive (s : System V) (t : ℝ) (q : ℕ → V) (b1 : ℕ) : V :=
  if ((s.bodies[b1]?).map Body.isOblate).getD false then
    byMassiveOnMassive s true false t q b1 s.oblate (s.oblate + s.spherical) (byMassiveOnMassive s true true t q b1 (b1 + 1) s.oblate (byMassiveOnMassive s true true t q b1 0 b1 fun _ => 0)) b1
  else
    byMassiveOnMassive s false false t q b1 (b1 + 1) (s.oblate + s.spherical) (byMassiveOnMassive s false false t q b1 s.oblate b1 (byMassiveOnMassive s false true t q b1 0 s.oblate fun _ => 0)) b1

/-- `absl::StatusCode::kOutOfRange`. -/
def outOfRange : ℕ := 11

/-- physics/ephemeris_body.hpp:64 `min_radius_tolerance`. -/
noncomputable def minRadiusTolerance : ℝ := 0.99

/-- physics/ephemeris_body.hpp:1412-1461 `ComputeGravitationalAccelerationByMassiveBodyOnMasslessBodies`, when the massive body is at `position1`: the accelerations and the error. -/
noncomputable def byMassiveOnMassless (s : System V) (oblate1 : Bool) (t : ℝ) (b1 : ℕ) (position1 : V) (minRadius : ℝ) (q : List V) (a : List V × ℕ) : List V × ℕ :=
  (List.zipWith (fun x y =>
      let Δq := position1 - x;
      let Δq2 := ‖Δq‖ ^ 2;
      let Δq_norm := √Δq2;
      let oneOverΔq3 := Δq_norm / (Δq2 * Δq2);
      let y1 := y + (s.μ b1 * oneOverΔq3) • Δq;
      if oblate1 then y1 + s.μ b1 • (s.geopotential b1).acceleration t (-Δq) else y1) q a.1,
    q.foldl (fun e x => open Classical in e ||| (if √(‖position1 - x‖ ^ 2) > minRadiusTolerance * minRadius then 0 else outOfRange)) a.2)

/-- The minimal radius of the body of index `b`. -/
def System.minRadius (s : System V) (b : ℕ) : ℝ := ((s.bodies[b]?).map Body.minRadius).getD 0

/-- physics/ephemeris_body.hpp:1554-1590 `ComputeGravitationalAccelerationByAllMassiveBodiesOnMasslessBodies`, when the massive bodies are at `p`. -/
noncomputable def onMassless (s : System V) (t : ℝ) (p : ℕ → V) (q : List V) : List V × ℕ :=
  let a := (List.range' 0 s.oblate).foldl (fun a b1 => byMassiveOnMassless s true t b1 (p b1) (s.minRadius b1) q a) (q.map fun _ => 0, 0);
  (List.range' s.oblate s.spherical).foldl (fun a b1 => byMassiveOnMassless s false t b1 (p b1) (s.minRadius b1) q a) a

/-- physics/ephemeris_body.hpp:1463-1500 `ComputeGravitationalPotentialsOfMassiveBody`. -/
noncomputable def potentialsOf (s : System V) (oblate1 : Bool) (t : ℝ) (b1 : ℕ) (position1 : V) (q : List V) (u : List ℝ) : List ℝ :=
  List.zipWith (fun x y =>
    let Δq := position1 - x;
    let Δq_norm := √(‖Δq‖ ^ 2);
    let y1 := y - s.μ b1 * (1 / Δq_norm);
    if oblate1 then y1 + s.μ b1 * (s.geopotential b1).potential t (-Δq) else y1) q u

/-- physics/ephemeris_body.hpp:1592-1622 `ComputeGravitationalPotentialsOfAllMassiveBodies`. -/
noncomputable def potentials (s : System V) (t : ℝ) (p : ℕ → V) (q : List V) : List ℝ :=
  let u := (List.range' 0 s.oblate).foldl (fun u b1 => potentialsOf s true t b1 (p b1) q u) (q.map fun _ => 0);
  (List.range' s.oblate s.spherical).foldl (fun u b1 => potentialsOf s false t b1 (p b1) q u) u

/-- physics/ephemeris_body.hpp:1196-1202, 1235-1241: the form used by the Jacobian and the jerk, as a linear map. -/
noncomputable def form (Δq : V) : V →L[ℝ] V :=
  let Δq2 := ‖Δq‖ ^ 2;
  let Δq_norm := √Δq2;
  let Δq3 := Δq2 * Δq_norm;
  let Δq5 := Δq3 * Δq2;
  -((1 / Δq3) • ContinuousLinearMap.id ℝ V) + (3 / Δq5) • (innerSL ℝ Δq).smulRight Δq

/-- physics/ephemeris_body.hpp:1174-1208 `ComputeJacobianByMassiveBodyOnMassiveBodies`. -/
noncomputable def jacobianByMassiveOnMassive (s : System V) (q : ℕ → V) (b1 b2Begin b2End : ℕ) (j : ℕ → V →L[ℝ] V) : ℕ → V →L[ℝ] V :=
  (List.range' b2Begin (b2End - b2Begin)).foldl (fun j b2 =>
    let f := form (q b1 - q b2);
    let j1 := Function.update j b2 (j b2 + s.μ b1 • f);
    Function.update j1 b1 (j1 b1 + s.μ b2 • f)) j

/-- physics/ephemeris_body.hpp:495-535 `ComputeJacobianOnMassiveBody`. -/
noncomputable def jacobianOnMassive (s : System V) (q : ℕ → V) (b1 : ℕ) : V →L[ℝ] V :=
  jacobianByMassiveOnMassive s q b1 (b1 + 1) (s.oblate + s.spherical) (jacobianByMassiveOnMassive s q b1 0 b1 fun _ => 0) b1

/-- physics/ephemeris_body.hpp:1210-1247 `ComputeGravitationalJerkByMassiveBodyOnMassiveBodies`. -/
noncomputable def jerkByMassiveOnMassive (s : System V) (q v : ℕ → V) (b1 b2Begin b2End : ℕ) (j : ℕ → V) : ℕ → V :=
  (List.range' b2Begin (b2End - b2Begin)).foldl (fun j b2 =>
    let w := form (q b1 - q b2) (v b1 - v b2);
    let j1 := Function.update j b2 (j b2 - s.μ b1 • w);
    Function.update j1 b1 (j1 b1 + s.μ b2 • w)) j

/-- physics/ephemeris_body.hpp:1317-1338 `ComputeGravitationalJerkOnMassiveBody`. -/
noncomputable def jerkOnMassive (s : System V) (q v : ℕ → V) (b1 : ℕ) : V :=
  jerkByMassiveOnMassive s q v b1 (b1 + 1) (s.oblate + s.spherical) (jerkByMassiveOnMassive s q v b1 0 b1 fun _ => 0) b1

/-- physics/ephemeris_body.hpp:537-574 `ComputeGravitationalJerkOnMasslessBody`, for a massless body with the given position and velocity, when the positions and the velocities of the massive bodies are `p` and `w`. -/
noncomputable def jerkOnMassless (s : System V) (p w : ℕ → V) (q v : V) : V :=
  (List.range' 0 (s.oblate + s.spherical)).foldl (fun j b2 => j + s.μ b2 • form (q - p b2) (v - w b2)) 0

end Principia.Gravity
