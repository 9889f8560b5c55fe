import Verif.Geometry.R3Model

/-!
A model of the quaternions of geometry/quaternion_body.hpp and of the rotations of geometry/rotation_body.hpp.

Simplifications: doubles are modelled by real numbers (or by the elements of any field where only field operations are used) and NaNs by `none`.  Frames
are not modelled: the constructors whose behaviour depends on the frame that is being defined are modelled by different functions.
-/

set_option linter.unusedSimpArgs false
set_option linter.unusedVariables false
set_option linter.unusedSectionVars false

namespace Principia.Geometry

/-- geometry/quaternion.hpp: `Quaternion`. -/
@[ext]
structure Quat (K : Type) where
  re : K
  im : R3 K
  deriving DecidableEq

namespace Quat

variable {K : Type}

section Ring

variable [CommRing K]

/-- geometry/quaternion_body.hpp:20-21: the quaternion with the given real part. -/
def ofReal (a : K) : Quat K := ⟨a, 0⟩

/-- geometry/quaternion_body.hpp:105-107 (unary `operator-`). -/
instance : Neg (Quat K) := ⟨fun q => ⟨-q.re, -q.im⟩⟩

/-- geometry/quaternion_body.hpp:28-32, 109-112 (`operator+=`, `operator+`). -/
instance : Add (Quat K) := ⟨fun l r => ⟨l.re + r.re, l.im + r.im⟩⟩

/-- geometry/quaternion_body.hpp:34-38, 114-117 (`operator-=`, `operator-`). -/
instance : Sub (Quat K) := ⟨fun l r => ⟨l.re - r.re, l.im - r.im⟩⟩

/-- geometry/quaternion_body.hpp:40-43, 119-125 (`operator*=`, `operator*`). -/
instance : Mul (Quat K) :=
  ⟨fun l r => ⟨l.re * r.re - l.im.dot r.im, l.re • r.im + r.re • l.im + l.im.cross r.im⟩⟩

/-- geometry/quaternion_body.hpp:75-77 (`Norm²`). -/
def normSq (q : Quat K) : K :=
  q.re * q.re + q.im.normSq

/-- geometry/quaternion_body.hpp:79-81 (`Conjugate`). -/
def conjugate (q : Quat K) : Quat K :=
  ⟨q.re, -q.im⟩

@[simp] theorem neg_re (q : Quat K) : (-q).re = -q.re := rfl
@[simp] theorem neg_im (q : Quat K) : (-q).im = -q.im := rfl
@[simp] theorem add_re (p q : Quat K) : (p + q).re = p.re + q.re := rfl
@[simp] theorem add_im (p q : Quat K) : (p + q).im = p.im + q.im := rfl
@[simp] theorem sub_re (p q : Quat K) : (p - q).re = p.re - q.re := rfl
@[simp] theorem sub_im (p q : Quat K) : (p - q).im = p.im - q.im := rfl
@[simp] theorem mul_re (p q : Quat K) : (p * q).re = p.re * q.re - p.im.dot q.im := rfl
@[simp] theorem mul_im (p q : Quat K) : (p * q).im = p.re • q.im + q.re • p.im + p.im.cross q.im := rfl

end Ring

/-- geometry/quaternion_body.hpp:56-60, 141-144 (division by a scalar). -/
def divScalar [Field K] (q : Quat K) (a : K) : Quat K :=
  ⟨q.re / a, q.im.div a⟩

/-- geometry/quaternion_body.hpp:83-86 (`Inverse`). -/
def inverse [Field K] (q : Quat K) : Quat K :=
  q.conjugate.divScalar (q.re * q.re + q.im.dot q.im)

/-- geometry/quaternion_body.hpp:45-48, 127-129 (`operator/`). -/
def div [Field K] (l r : Quat K) : Quat K :=
  l * r.inverse

/-- geometry/quaternion_body.hpp:71-73 (`Norm`). -/
noncomputable def norm (q : Quat ℝ) : ℝ :=
  √q.normSq

/-- geometry/quaternion_body.hpp:146-148 (`Normalize`): of 0, it yields NaNs. -/
noncomputable def normalize (q : Quat ℝ) : Option (Quat ℝ) :=
  if q.norm = 0 then none else some (q.divScalar q.norm)

end Quat

/-- geometry/rotation.hpp: a `Rotation` holds nothing but a quaternion. -/
@[ext]
structure Rotation (K : Type) where
  quaternion : Quat K
  deriving DecidableEq

namespace Rotation

variable {K : Type}

section Ring

variable [CommRing K]

/-- geometry/rotation_body.hpp:353-362 (`operator()` on the coordinates), used at 220-232 for vectors and bivectors. -/
def apply (r : Rotation K) (v : R3 K) : R3 K :=
  v + (2 : K) • r.quaternion.im.cross (r.quaternion.im.cross v + r.quaternion.re • v)

/-- geometry/rotation_body.hpp:234-239 (`operator()` for trivectors). -/
def applyTrivector (_ : Rotation K) (t : K) : K := t

/-- geometry/rotation_body.hpp:374-380 (`operator*`). -/
def mul (left right : Rotation K) : Rotation K :=
  ⟨left.quaternion * right.quaternion⟩

/-- geometry/rotation_body.hpp:197-201 (`Inverse`). -/
def inverse (r : Rotation K) : Rotation K :=
  ⟨r.quaternion.conjugate⟩

/-- geometry/rotation_body.hpp:313-316 (`Identity`). -/
def identity : Rotation K :=
  ⟨Quat.ofReal 1⟩

end Ring

/-- geometry/rotation_body.hpp:241-289 (`operator()` for symmetric bilinear forms). -/
def applyForm [Field K] (r : Rotation K) (form : M3 K) : M3 K :=
  let intermediate : M3 K := M3.transpose ⟨r.apply form.rowX, r.apply form.rowY, r.apply form.rowZ⟩
  let result : M3 K := ⟨r.apply intermediate.rowX, r.apply intermediate.rowY, r.apply intermediate.rowZ⟩
  (1 / 2 : K) • (result + result.transpose)

noncomputable section

/-- geometry/rotation_body.hpp:22-64 (`ToQuaternion`). -/
def toQuaternion (m : M3 ℝ) : Quat ℝ :=
  let t := m.trace
  if t > 0 then
    let r := √(1 + t)
    let s := 1 / 2 / r
    ⟨1 / 2 * r, (m.at' 2 1 - m.at' 1 2) * s, (m.at' 0 2 - m.at' 2 0) * s, (m.at' 1 0 - m.at' 0 1) * s⟩
  else if m.at' 0 0 > max (m.at' 1 1) (m.at' 2 2) then
    let r := √(1 + m.at' 0 0 - m.at' 1 1 - m.at' 2 2)
    let s := 1 / 2 / r
    ⟨(m.at' 2 1 - m.at' 1 2) * s, 1 / 2 * r, (m.at' 0 1 + m.at' 1 0) * s, (m.at' 2 0 + m.at' 0 2) * s⟩
  else if m.at' 1 1 > m.at' 2 2 then
    let r := √(1 - m.at' 0 0 + m.at' 1 1 - m.at' 2 2)
    let s := 1 / 2 / r
    ⟨(m.at' 0 2 - m.at' 2 0) * s, (m.at' 0 1 + m.at' 1 0) * s, 1 / 2 * r, (m.at' 1 2 + m.at' 2 1) * s⟩
  else
    let r := √(1 - m.at' 0 0 - m.at' 1 1 + m.at' 2 2)
    let s := 1 / 2 / r
    ⟨(m.at' 1 0 - m.at' 0 1) * s, (m.at' 0 2 + m.at' 2 0) * s, (m.at' 1 2 + m.at' 2 1) * s, 1 / 2 * r⟩

/-- geometry/rotation_body.hpp:66-71 (`AngleAxis`). -/
def angleAxis (angle : ℝ) (axis : R3 ℝ) : Quat ℝ :=
  let halfAngle := 1 / 2 * angle
  ⟨Real.cos halfAngle, Real.sin halfAngle • axis⟩

/-- geometry/rotation.hpp:45-49 (`AxisConvention`). -/
def axisConvention (first second third : Nat) : Nat :=
  (((first <<< 2) + second) <<< 2) + third

/-- geometry/rotation_body.hpp:73-79 (`BinaryCodedTernaryDigit`). -/
def binaryCodedTernaryDigit (n number : Nat) : Nat :=
  (number >>> (2 * n)) &&& 3

/-- geometry/rotation_body.hpp:85-90: an active rotation around an axis. -/
def ofAngleAxis (angle : ℝ) (axis : R3 ℝ) : Option (Rotation ℝ) :=
  axis.normalize.map fun n => ⟨angleAxis angle n⟩

/-- geometry/rotation_body.hpp:92-105: a change of coordinates, from the axes of the `ToFrame` expressed in the `FromFrame`. -/
def ofToFrameAxes (x y z : R3 ℝ) : Rotation ℝ :=
  ⟨toQuaternion ⟨x, y, z⟩⟩

/-- geometry/rotation_body.hpp:107-122: a change of coordinates, from the axes of the `FromFrame` expressed in the `ToFrame`. -/
def ofFromFrameAxes (x y z : R3 ℝ) : Rotation ℝ :=
  ⟨toQuaternion (M3.transpose ⟨x, y, z⟩)⟩

/-- geometry/rotation_body.hpp:124-130: a change of coordinates to a frame defined by rotating the `FromFrame` around an axis. -/
def definesToFrame (angle : ℝ) (axis : R3 ℝ) : Option (Rotation ℝ) :=
  axis.normalize.map fun n => ⟨angleAxis (-angle) n⟩

/-- geometry/rotation_body.hpp:132-138: a change of coordinates from a frame defined by rotating the `ToFrame` around an axis. -/
def definesFromFrame (angle : ℝ) (axis : R3 ℝ) : Option (Rotation ℝ) :=
  axis.normalize.map fun n => ⟨angleAxis angle n⟩

/-- geometry/r3_element_body.hpp:611-617 (`BasisVector`), for an integer argument; any argument other than 0, 1, 2 yields zeroes if debug checks are
disabled. -/
def basisVector (i : Nat) : R3 ℝ :=
  ⟨if i = 0 then 1 else 0, if i = 1 then 1 else 0, if i = 2 then 1 else 0⟩

/-- geometry/rotation_body.hpp:153-164 and 179-190: from Euler or Cardano angles, which define the `FromFrame`. -/
def anglesDefineFromFrame (α β γ : ℝ) (axes : Nat) : Rotation ℝ :=
  ⟨angleAxis α (basisVector (binaryCodedTernaryDigit 2 axes)) * angleAxis β (basisVector (binaryCodedTernaryDigit 1 axes)) *
    angleAxis γ (basisVector (binaryCodedTernaryDigit 0 axes))⟩

/-- geometry/rotation_body.hpp:140-151 and 166-177: from Euler or Cardano angles, which define the `ToFrame`. -/
def anglesDefineToFrame (α β γ : ℝ) (axes : Nat) : Rotation ℝ :=
  (anglesDefineFromFrame α β γ axes).inverse

/-- geometry/rotation_body.hpp:203-208 (`RotationAxis`): NaNs for the identity. -/
def rotationAxis (r : Rotation ℝ) : Option (R3 ℝ) :=
  r.quaternion.im.normalize

/-- geometry/rotation_body.hpp:210-218 (`RotationAngle`): if the real part is 0 the quotient is infinite (the imaginary part of a rotation cannot vanish
as well), and its arctangent is π/2. -/
def rotationAngle (r : Rotation ℝ) : ℝ :=
  if r.quaternion.re = 0 then 2 * (Real.pi / 2) else 2 * Real.arctan (r.quaternion.im.norm / r.quaternion.re)

/-- geometry/rotation_body.hpp:364-372 (`Exp`). -/
def exp (exponent : R3 ℝ) : Option (Rotation ℝ) :=
  let angle := exponent.norm
  if angle = 0 then some identity else ofAngleAxis angle exponent

end

end Rotation

end Principia.Geometry
