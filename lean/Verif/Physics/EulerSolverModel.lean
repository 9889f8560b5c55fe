import Verif.Physics.RigidMotionModel
import Verif.Geometry.FormsModel
import Verif.Numerics.EllipticModel
import Mathlib.Analysis.SpecialFunctions.Artanh

/-!
A model of the solver of Euler's equations for the free rotation of a rigid body, physics/euler_solver_body.hpp.

Simplifications: exact real arithmetic.  The elliptic integrals and functions are those of `Verif.Numerics.EllipticModel`.  The units are not modelled, so the multiplications
by a radian disappear.  The infinities are modelled where the code relies on them, i.e., for the argument of the hyperbolic functions of formula (iii).  The data members that
are not assigned have an arbitrary value, 0.  `none` is a failed check, or a moment of inertia that is zero (the computations then yield infinities and NaNs).
-/

set_option linter.unusedSimpArgs false
set_option linter.unusedVariables false
set_option linter.unusedSectionVars false

namespace Principia.Physics.Euler

open Geometry Motion Numerics.Elliptic

noncomputable section

/-- The two-argument arctangent, numerics/elementary_functions_body.hpp (`ArcTan`). -/
def arcTan (y x : ℝ) : ℝ := Complex.arg ⟨x, y⟩

/-- An angle that may be infinite. -/
inductive Extended
  | finite (x : ℝ)
  | infinite (s : Sign)

namespace Extended

/-- Unary minus. -/
def neg : Extended → Extended
  | finite x => finite (-x)
  | infinite s => infinite (s.mul .Negative)

/-- The difference of a (finite) angle and an angle. -/
def realSub (a : ℝ) : Extended → Extended
  | finite x => finite (a - x)
  | infinite s => infinite (s.mul .Negative)

/-- The product by 0.5. -/
def half : Extended → Extended
  | finite x => finite (0.5 * x)
  | infinite s => infinite s

/-- `Tanh`. -/
def tanh : Extended → ℝ
  | finite x => Real.tanh x
  | infinite s => s.act 1

/-- `1.0 / Cosh`. -/
def sech : Extended → ℝ
  | finite x => 1 / Real.cosh x
  | infinite _ => 0

/-- The value of a finite angle. -/
def real : Extended → ℝ
  | finite x => x
  | infinite _ => 0

end Extended

/-- `ArcTanh`. -/
def arcTanh (x : ℝ) : Extended :=
  if x = 1 then .infinite .Positive else if x = -1 then .infinite .Negative else .finite (Real.artanh x)

/-- physics/euler_solver.hpp:107-112: `Formula`. -/
inductive Formula
  | i
  | ii
  | iii
  | Sphere
  deriving DecidableEq

/-- physics/euler_solver.hpp:117-121: `Region`. -/
inductive Region
  | e₁
  | e₃
  | Motionless
  deriving DecidableEq

/-- physics/euler_solver.hpp:127-173: the data members of `EulerSolver`. -/
structure EulerSolver where
  momentsOfInertia : R3 ℝ
  serializedInitialAngularMomentum : R3 ℝ
  initialAttitude : Rotation ℝ
  initialTime : ℝ
  G : ℝ
  initialAngularMomentum : R3 ℝ
  ℛ : Rotation ℝ
  𝒮 : Signature
  formula : Formula
  region : Region
  B₁₃ : ℝ := 0
  B₃₁ : ℝ := 0
  B₂₁ : ℝ := 0
  B₂₃ : ℝ := 0
  n : ℝ := 0
  mc : ℝ := 0
  ν : Extended := .finite 0
  lam : ℝ := 0
  ψOffset : ℝ := 0
  ψArctanMultiplier : ℝ := 0
  ψEllipticPiMultiplier : ℝ := 0
  ψCnMultiplier : ℝ := 0
  ψSnMultiplier : ℝ := 0
  ψCoshMultiplier : ℝ := 0
  ψSinhMultiplier : ℝ := 0
  ψTMultiplier : ℝ := 0

/-- physics/euler_solver_body.hpp:462-502 (`Compute𝒫ₜ`). -/
def computeP (region : Region) (G : ℝ) (m : R3 ℝ) : Rotation ℝ :=
  match region with
  | .e₁ =>
    let realPart := √(0.5 * (1 + m.x / G));
    let denominator := 2 * G * realPart;
    ⟨⟨realPart, ⟨0, m.z / denominator, -m.y / denominator⟩⟩⟩
  | .e₃ =>
    let realPart := √(0.5 * (1 + m.z / G));
    let denominator := 2 * G * realPart;
    ⟨⟨realPart, ⟨m.y / denominator, -m.x / denominator, 0⟩⟩⟩
  | .Motionless => ⟨Quat.ofReal 1⟩

/-- physics/euler_solver_body.hpp:75: `Δ₁`. -/
def Δ₁ (I m : R3 ℝ) : ℝ := m.y * m.y * (I.y - I.x) / I.y + m.z * m.z * (I.z - I.x) / I.z

/-- physics/euler_solver_body.hpp:76: `Δ₂`. -/
def Δ₂ (I m : R3 ℝ) : ℝ := m.z * m.z * (I.z - I.y) / I.z + m.x * m.x * -(I.y - I.x) / I.x

/-- physics/euler_solver_body.hpp:77: `Δ₃`. -/
def Δ₃ (I m : R3 ℝ) : ℝ := m.x * m.x * -(I.z - I.x) / I.x + m.y * m.y * -(I.z - I.y) / I.y

open Classical in
/-- physics/euler_solver_body.hpp:90-123: the choice of the formula and of the region. -/
def choose (I m : R3 ℝ) (G B₁₃ B₃₁ : ℝ) : Option (Formula × Region) :=
  if Δ₂ I m < 0 then some (.i, .e₁)
  else if 0 < Δ₂ I m then some (.ii, .e₃)
  else if G = 0 then some (.Sphere, .Motionless)
  else if I.z - I.x = 0 then
    if I.y - I.x = 0 ∧ I.z - I.y = 0 then some (.Sphere, if |m.x| < |m.z| then .e₁ else .e₃) else none
  else some (.iii, if B₁₃ < B₃₁ then .e₁ else .e₃)

/-- physics/euler_solver_body.hpp:125-154: the choice of the signature. -/
def chooseSignature (formula : Formula) (region : Region) (m : R3 ℝ) : Signature :=
  if formula = .iii then .ofXZ true (Sign.ofReal m.x) (Sign.ofReal m.z)
  else
    match region with
    | .e₁ => .ofXY true (Sign.ofReal m.x) .Positive
    | .e₃ => .ofYZ true .Positive (Sign.ofReal m.z)
    | .Motionless => .identity

/-- physics/euler_solver_body.hpp:175-258: the computation of the coefficients, where `m` is now the initial angular momentum in the preferred principal axes, and where the
first argument has the values of the data members that were computed earlier. -/
def coefficients (s : EulerSolver) (Δ₁ Δ₂ Δ₃ : ℝ) : Option EulerSolver :=
  let I := s.momentsOfInertia;
  let m := s.initialAngularMomentum;
  match s.formula with
  | .i =>
    let B₂₁sq := I.y * Δ₁ / (I.y - I.x);
    if 0 ≤ B₂₁sq then
      let B₂₁ := √B₂₁sq;
      let mc := min (Δ₂ * (I.z - I.x) / (Δ₃ * (I.y - I.x))) 1.0;
      let ν := ellipticF (arcTan (m.y * s.B₃₁) (m.z * B₂₁)) mc;
      let lam := -√(Δ₃ * -(I.y - I.x) / (I.x * I.y * I.z));
      let j := jacobiSNCNDN (-ν) mc;
      let n := I.x * (I.z - I.y) / (I.z * -(I.y - I.x));
      let cnMultiplier := √(I.z * (I.y - I.x));
      let snMultiplier := √(I.y * (I.z - I.x));
      let ellipticPiMultiplier := s.G * -(I.z - I.x) / (lam * I.x * I.z);
      some { s with
        B₂₁ := B₂₁, mc := mc, ν := .finite ν, lam := lam, n := n, ψCnMultiplier := cnMultiplier, ψSnMultiplier := snMultiplier, ψArctanMultiplier := -1
        ψEllipticPiMultiplier := ellipticPiMultiplier
        ψOffset := ellipticPiMultiplier * ellipticPi (jacobiAmplitude (-ν) mc) n mc + -1 * arcTan (snMultiplier * j.sn) (cnMultiplier * j.cn)
        ψTMultiplier := s.G / I.x }
    else none
  | .ii =>
    let B₂₃sq := I.y * Δ₃ / -(I.z - I.y);
    if 0 ≤ B₂₃sq then
      let B₂₃ := √B₂₃sq;
      let mc := min (Δ₂ * (I.z - I.x) / (Δ₁ * (I.z - I.y))) 1.0;
      let ν := ellipticF (arcTan (m.y * s.B₁₃) (m.x * B₂₃)) mc;
      let lam := -√(Δ₁ * (I.z - I.y) / (I.x * I.y * I.z));
      let j := jacobiSNCNDN (-ν) mc;
      let n := I.z * (I.y - I.x) / (I.x * -(I.z - I.y));
      let cnMultiplier := √(I.x * (I.z - I.y));
      let snMultiplier := √(I.y * (I.z - I.x));
      let ellipticPiMultiplier := s.G * (I.z - I.x) / (lam * I.x * I.z);
      some { s with
        B₂₃ := B₂₃, mc := mc, ν := .finite ν, lam := lam, n := n, ψCnMultiplier := cnMultiplier, ψSnMultiplier := snMultiplier, ψArctanMultiplier := 1
        ψEllipticPiMultiplier := ellipticPiMultiplier
        ψOffset := ellipticPiMultiplier * ellipticPi (jacobiAmplitude (-ν) mc) n mc + 1 * arcTan (snMultiplier * j.sn) (cnMultiplier * j.cn)
        ψTMultiplier := s.G / I.z }
    else none
  | .iii =>
    let ν := (arcTanh (m.y / s.G)).neg;
    let lam := √(-Δ₁ * Δ₃ / (I.x * I.z)) / s.G;
    let multipliers : Option (ℝ × ℝ × ℝ) :=
      match s.region with
      | .e₁ => some (-2, s.B₃₁, s.B₁₃ - s.G)
      | .e₃ => some (2, s.B₁₃, s.B₃₁ - s.G)
      | .Motionless => none
    multipliers.map fun x =>
      { s with
        ν := ν, lam := lam, ψArctanMultiplier := x.1, ψCoshMultiplier := x.2.1, ψSinhMultiplier := x.2.2
        ψOffset := arcTan (x.2.2 * ν.half.neg.tanh) x.2.1
        ψTMultiplier := s.G / I.y }
  | .Sphere => some { s with ψTMultiplier := s.G / I.y }

open Classical in
/-- physics/euler_solver_body.hpp:34-259: the constructor. -/
def make (inertiaTensor : M3 ℝ) (initialAngularMomentum : R3 ℝ) (initialAttitude : Rotation ℝ) (initialTime : ℝ) : Option EulerSolver :=
  let I : R3 ℝ := ⟨inertiaTensor.at' 0 0, inertiaTensor.at' 1 1, inertiaTensor.at' 2 2⟩;
  let G := initialAngularMomentum.norm;
  let inPrincipalAxes := initialAttitude.inverse.apply initialAngularMomentum;
  let m := inPrincipalAxes;
  if Form.isDiagonalized inertiaTensor ∧ I.x ≤ I.y ∧ I.y ≤ I.z then
    if I.x = 0 ∨ I.y = 0 ∨ I.z = 0 then none
    else if 0 ≤ Δ₁ I m ∧ Δ₃ I m ≤ 0 then
      let B₃₁ := √(I.z * Δ₁ I m / (I.z - I.x));
      let B₁₃ := √(I.x * Δ₃ I m / -(I.z - I.x));
      (choose I m G B₁₃ B₃₁).bind fun c =>
        let 𝒮 := chooseSignature c.1 c.2 m;
        let preferred := 𝒮.applyBivector inPrincipalAxes;
        let ℛ := ((Rotation.mk 𝒮.inverse.forget).mul (computeP c.2 G preferred).inverse).mul .identity;
        coefficients
          { momentsOfInertia := I, serializedInitialAngularMomentum := initialAngularMomentum, initialAttitude := initialAttitude, initialTime := initialTime
            G := G, initialAngularMomentum := preferred, ℛ := initialAttitude.mul ℛ, 𝒮 := 𝒮, formula := c.1, region := c.2, B₁₃ := B₁₃, B₃₁ := B₃₁ }
          (Δ₁ I m) (Δ₂ I m) (Δ₃ I m)
    else none
  else none

namespace EulerSolver

/-- physics/euler_solver_body.hpp:267-305 (`AngularMomentumAt`). -/
def angularMomentumAt (s : EulerSolver) (time : ℝ) : R3 ℝ :=
  let Δt := time - s.initialTime;
  let m : R3 ℝ :=
    match s.formula with
    | .i =>
      let j := jacobiSNCNDN (s.lam * Δt - s.ν.real) s.mc;
      ⟨s.B₁₃ * j.dn, -s.B₂₁ * j.sn, s.B₃₁ * j.cn⟩
    | .ii =>
      let j := jacobiSNCNDN (s.lam * Δt - s.ν.real) s.mc;
      ⟨s.B₁₃ * j.cn, -s.B₂₃ * j.sn, s.B₃₁ * j.dn⟩
    | .iii =>
      let angle := s.ν.realSub (s.lam * Δt);
      let sech := angle.sech;
      ⟨s.B₁₃ * sech, s.G * angle.tanh, s.B₃₁ * sech⟩
    | .Sphere => s.initialAngularMomentum
  s.𝒮.inverse.applyBivector m

/-- physics/euler_solver_body.hpp:307-322 (`AngularVelocityFor`). -/
def angularVelocityFor (s : EulerSolver) (m : R3 ℝ) : R3 ℝ :=
  ⟨m.x / s.momentsOfInertia.x, m.y / s.momentsOfInertia.y, m.z / s.momentsOfInertia.z⟩

/-- physics/euler_solver_body.hpp:332-371: the computation of `ψ`. -/
def ψAt (s : EulerSolver) (time : ℝ) : ℝ :=
  let Δt := time - s.initialTime;
  let ψ := s.ψTMultiplier * Δt;
  match s.formula with
  | .i =>
    let j := jacobiSNCNDN (s.lam * Δt - s.ν.real) s.mc;
    let φ := jacobiAmplitude (s.lam * Δt - s.ν.real) s.mc;
    ψ + (s.ψEllipticPiMultiplier * ellipticPi φ s.n s.mc + s.ψArctanMultiplier * arcTan (s.ψSnMultiplier * j.sn) (s.ψCnMultiplier * j.cn) - s.ψOffset)
  | .ii =>
    let j := jacobiSNCNDN (s.lam * Δt - s.ν.real) s.mc;
    let φ := jacobiAmplitude (s.lam * Δt - s.ν.real) s.mc;
    ψ + (s.ψEllipticPiMultiplier * ellipticPi φ s.n s.mc + s.ψArctanMultiplier * arcTan (s.ψSnMultiplier * j.sn) (s.ψCnMultiplier * j.cn) - s.ψOffset)
  | .iii =>
    ψ + s.ψArctanMultiplier * (arcTan (s.ψSinhMultiplier * (s.ν.realSub (s.lam * Δt)).half.tanh) s.ψCoshMultiplier - s.ψOffset)
  | .Sphere => ψ

/-- physics/euler_solver_body.hpp:373-406: the axis around which the body has turned by `ψ`. -/
def axis (region : Region) : R3 ℝ :=
  match region with
  | .e₁ => ⟨1, 0, 0⟩
  | .e₃ => ⟨0, 0, 1⟩
  | .Motionless => ⟨0, 1, 0⟩

/-- physics/euler_solver_body.hpp:324-407 (`AttitudeAt`).  `none` is an axis that cannot be normalized. -/
def attitudeAt (s : EulerSolver) (angularMomentum : R3 ℝ) (time : ℝ) : Option (Rotation ℝ) :=
  let P := computeP s.region s.G (s.𝒮.applyBivector angularMomentum);
  (Rotation.definesFromFrame (s.ψAt time) (axis s.region)).map fun 𝒴 => ((s.ℛ.mul 𝒴).mul P).mul ⟨s.𝒮.forget⟩

/-- physics/euler_solver_body.hpp:416-435 (`MotionAt`). -/
def motionAt (s : EulerSolver) (time : ℝ) (linearMotion : DegreesOfFreedom) : Option RigidMotion :=
  let angularMomentum := s.angularMomentumAt time;
  (s.attitudeAt angularMomentum time).map fun attitude =>
    let angularVelocity := attitude.apply (s.angularVelocityFor angularMomentum);
    RigidMotion.ofFromFrame ⟨0, linearMotion.position, attitude.forgetOrthogonal⟩ angularVelocity linearMotion.velocity

/-- physics/euler_solver_body.hpp:437-445 (`WriteToMessage`): the moments of inertia, the angular momentum, the attitude and the time. -/
def write (s : EulerSolver) : R3 ℝ × R3 ℝ × Rotation ℝ × ℝ :=
  (s.momentsOfInertia, s.serializedInitialAngularMomentum, s.initialAttitude, s.initialTime)

/-- physics/euler_solver_body.hpp:447-460 (`ReadFromMessage`). -/
def read (message : R3 ℝ × R3 ℝ × Rotation ℝ × ℝ) : Option EulerSolver :=
  make (M3.diagonal message.1) message.2.1 message.2.2.1 message.2.2.2

end EulerSolver

end

end Principia.Physics.Euler
