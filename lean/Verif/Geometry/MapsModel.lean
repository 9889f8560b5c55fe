import Verif.Geometry.RotationModel

/-!
A model of the linear and affine maps of geometry/permutation_body.hpp, geometry/signature_body.hpp, geometry/orthogonal_map_body.hpp,
geometry/conformal_map_body.hpp, geometry/homothecy_body.hpp and geometry/affine_map_body.hpp, and of the multivectors of geometry/grassmann_body.hpp.

Simplifications: as in `Verif.Geometry.R3Model`.  Of the frames, only the handedness is modelled: `same` is true if, and only if, the frame from which a map
goes and the one to which it goes have the same handedness.  The coordinates of multivectors of ranks 1 and 2 are triples, those of trivectors are
scalars.
-/

set_option linter.unusedSimpArgs false
set_option linter.unusedVariables false
set_option linter.unusedSectionVars false

namespace Principia.Geometry

/-! ## Multivectors -/

section Grassmann

variable {K : Type} [CommRing K]

/-- geometry/grassmann_body.hpp:246-252 (`Wedge` of two vectors). -/
def wedge (left right : R3 K) : R3 K := left.cross right

/-- geometry/grassmann_body.hpp:254-260 (`Wedge` of a bivector and a vector). -/
def wedgeBivectorVector (left right : R3 K) : K := left.dot right

/-- geometry/grassmann_body.hpp:262-268 (`Wedge` of a vector and a bivector). -/
def wedgeVectorBivector (left right : R3 K) : K := left.dot right

/-- geometry/grassmann_body.hpp:270-276 (`Commutator`). -/
def commutator (left right : R3 K) : R3 K := left.cross right

/-- geometry/grassmann_body.hpp:324-330 (the action of a bivector on a vector). -/
def bivectorTimesVector (left right : R3 K) : R3 K := left.cross right

/-- geometry/grassmann_body.hpp:332-338 (the action of a bivector on a form). -/
def vectorTimesBivector (left right : R3 K) : R3 K := left.cross right

/-- geometry/grassmann_body.hpp:366-379 (the product of a bivector and a trivector). -/
def bivectorTimesTrivector (left : R3 K) (right : K) : R3 K := right • left

/-- geometry/grassmann_body.hpp:380-393 (the product of a vector and a trivector). -/
def vectorTimesTrivector (left : R3 K) (right : K) : R3 K := right • left

end Grassmann

/-- geometry/sign.hpp: `Sign`. -/
@[ext]
structure Sign where
  negative : Bool
  deriving DecidableEq

namespace Sign

/-- geometry/sign_body.hpp:37-39. -/
def Positive : Sign := ⟨false⟩

/-- geometry/sign_body.hpp:41-43. -/
def Negative : Sign := ⟨true⟩

/-- geometry/sign_body.hpp:31-35 (`Sign::OfNonZero`), for an int. -/
def ofNonZero (x : BitVec 32) : Option Sign :=
  if x = 0 then none else some ⟨x.slt 0⟩

/-- geometry/sign_body.hpp:25 (the constructor from a double, where there is only one zero). -/
noncomputable def ofReal (x : ℝ) : Sign := ⟨decide (x < 0)⟩

/-- geometry/sign_body.hpp:76-78 (the product of two signs). -/
def mul (left right : Sign) : Sign := ⟨left.negative != right.negative⟩

/-- geometry/sign_body.hpp:19-22 (the product of a sign and a number or vector). -/
def act {T : Type} [Neg T] (left : Sign) (right : T) : T := if left.negative then -right else right

end Sign

/-- geometry/grassmann_body.hpp:352-357 (`OrientedAngleBetween`, for vectors) and 359-364 (for bivectors). -/
noncomputable def orientedAngleBetween (v w positive : R3 ℝ) : ℝ :=
  (Sign.ofReal ((wedge v w).dot positive)).act (v.angleBetween w)

/-! ## Permutations -/

namespace Permutation

/-- serialization/geometry.proto:136-149 (`Permutation`): the enums. -/
def EVEN : BitVec 32 := 0
def ODD : BitVec 32 := 0x80000000#32
def X : Nat := 0
def Y : Nat := 1
def Z : Nat := 2
def INDEX : Nat := 6

/-- geometry/permutation.hpp:33-34. -/
def COORDINATE_MASK : BitVec 32 := 3
def INDEX_MASK : BitVec 32 := 7

/-- The formula of geometry/permutation.hpp:45-53. -/
def encode (parity : BitVec 32) (a b c index : Nat) : BitVec 32 :=
  parity + (BitVec.ofNat 32 a <<< (X * 2)) + (BitVec.ofNat 32 b <<< (Y * 2)) + (BitVec.ofNat 32 c <<< (Z * 2)) + (BitVec.ofNat 32 index <<< INDEX)

/-- geometry/permutation.hpp:44-48 (`EvenPermutation`). -/
def XYZ : BitVec 32 := encode EVEN X Y Z 0
def YZX : BitVec 32 := encode EVEN Y Z X 1
def ZXY : BitVec 32 := encode EVEN Z X Y 2

/-- geometry/permutation.hpp:50-54 (`OddPermutation`). -/
def XZY : BitVec 32 := encode ODD X Z Y 3
def ZYX : BitVec 32 := encode ODD Z Y X 4
def YXZ : BitVec 32 := encode ODD Y X Z 5

end Permutation

/-- geometry/permutation.hpp:59-122 (`Permutation`): the code is an `EvenPermutation` if the handedness is the same and an `OddPermutation` otherwise. -/
@[ext]
structure Permutation where
  same : Bool
  code : BitVec 32
  deriving DecidableEq

namespace Permutation

variable {K : Type}

/-- geometry/r3_element_body.hpp:83-97 (`operator[]`): any index other than 0, 1, 2 aborts. -/
def coordinate (v : R3 K) : Nat → Option K
  | 0 => some v.x
  | 1 => some v.y
  | 2 => some v.z
  | _ => none

/-- The index of a permutation in the tables, `INDEX_MASK & (code >> INDEX)`. -/
def index (p : Permutation) : Nat := (INDEX_MASK &&& p.code.sshiftRight INDEX).toNat

/-- geometry/permutation_body.hpp:31-34 (`Determinant`). -/
def determinant (p : Permutation) : Option Sign := Sign.ofNonZero p.code

/-- geometry/permutation_body.hpp:42-56 (`Inverse`); an out-of-bounds access is `none`. -/
def inverse (p : Permutation) : Option Permutation :=
  if p.same then ([XYZ, ZXY, YZX][p.index]?).map fun c => ⟨p.same, c⟩
  else some ⟨p.same, p.code⟩

/-- geometry/permutation_body.hpp:156-168 (`operator()` on the coordinates) and 58-63 (for vectors). -/
def apply (p : Permutation) (v : R3 K) : Option (R3 K) :=
  (coordinate v (COORDINATE_MASK &&& p.code.sshiftRight (X * 2)).toNat).bind fun x =>
    (coordinate v (COORDINATE_MASK &&& p.code.sshiftRight (Y * 2)).toNat).bind fun y =>
      (coordinate v (COORDINATE_MASK &&& p.code.sshiftRight (Z * 2)).toNat).map fun z => ⟨x, y, z⟩

/-- geometry/permutation_body.hpp:65-71 (`operator()` for bivectors). -/
def applyBivector [CommRing K] (p : Permutation) (b : R3 K) : Option (R3 K) :=
  p.determinant.bind fun d => (p.apply b).map fun c => d.act c

/-- geometry/permutation_body.hpp:73-78 (`operator()` for trivectors). -/
def applyTrivector [CommRing K] (p : Permutation) (t : K) : Option K :=
  p.determinant.map fun d => d.act t

/-- geometry/permutation_body.hpp:115-119 (`Identity`). -/
def identity : Permutation := ⟨true, XYZ⟩

/-- geometry/permutation_body.hpp:186-194: the multiplication table. -/
def multiplication : List (List (BitVec 32)) :=
  [[XYZ, YZX, ZXY, XZY, ZYX, YXZ],
    [YZX, ZXY, XYZ, ZYX, YXZ, XZY],
    [ZXY, XYZ, YZX, YXZ, XZY, ZYX],
    [XZY, YXZ, ZYX, XYZ, ZXY, YZX],
    [ZYX, XZY, YXZ, YZX, XYZ, ZXY],
    [YXZ, ZYX, XZY, ZXY, YZX, XYZ]]

/-- geometry/permutation_body.hpp:170-202 (`operator*`). -/
def mul (left right : Permutation) : Option Permutation :=
  (multiplication[left.index]?).bind fun row => (row[right.index]?).map fun c => ⟨left.same == right.same, c⟩

/-- geometry/permutation_body.hpp:92-99: the quaternions. -/
noncomputable def quaternions : List (Quat ℝ) :=
  let h := √(0.5 : ℝ)
  [Quat.ofReal 1, ⟨0.5, -0.5, -0.5, -0.5⟩, ⟨0.5, 0.5, 0.5, 0.5⟩, ⟨0, 0, -h, h⟩, ⟨0, -h, 0, h⟩, ⟨0, -h, h, 0⟩]

/-- geometry/permutation_body.hpp:87-105 (`Forget`): the quaternion of the resulting `Rotation` or `OrthogonalMap`. -/
noncomputable def forget (p : Permutation) : Option (Quat ℝ) := quaternions[p.index]?

end Permutation

/-! ## Signatures -/

/-- geometry/signature.hpp:36-115 (`Signature`). -/
@[ext]
structure Signature where
  same : Bool
  x : Sign
  y : Sign
  z : Sign
  deriving DecidableEq

namespace Signature

/-- geometry/signature.hpp:100-102 (`determinant_`). -/
def det (same : Bool) : Sign := if same then .Positive else .Negative

/-- geometry/signature_body.hpp:22-38: the constructors, which deduce a sign. -/
def ofXY (same : Bool) (x y : Sign) : Signature := ⟨same, x, y, (x.mul y).mul (det same)⟩
def ofXZ (same : Bool) (x z : Sign) : Signature := ⟨same, x, (x.mul (det same)).mul z, z⟩
def ofYZ (same : Bool) (y z : Sign) : Signature := ⟨same, ((det same).mul y).mul z, y, z⟩

/-- geometry/signature_body.hpp:40-43 (`Determinant`). -/
def determinant (s : Signature) : Sign := det s.same

/-- geometry/signature_body.hpp:45-49 (`Inverse`). -/
def inverse (s : Signature) : Signature := ⟨s.same, s.x, s.y, s.z⟩

/-- geometry/signature_body.hpp:51-58 (`Identity`). -/
def identity : Signature := ofXY true .Positive .Positive

/-- geometry/signature_body.hpp:60-67 (`CentralInversion`). -/
def centralInversion : Signature := ofXY false .Negative .Negative

/-- geometry/signature_body.hpp:189-195 (`operator*`). -/
def mul (left right : Signature) : Signature := ⟨left.same == right.same, left.x.mul right.x, left.y.mul right.y, left.z.mul right.z⟩

/-- geometry/signature_body.hpp:164-182 (`WriteToMessage`, `ReadFromMessage`); `none` is a failed check. -/
def read (same : Bool) (m : Sign × Sign × Sign) : Option Signature :=
  if (m.1.mul m.2.1).mul m.2.2 = det same then some ⟨same, m.1, m.2.1, m.2.2⟩ else none
def write (s : Signature) : Sign × Sign × Sign := (s.x, s.y, s.z)

section

variable {K : Type} [CommRing K]

/-- geometry/signature_body.hpp:69-76 (`operator()` for vectors). -/
def apply (s : Signature) (v : R3 K) : R3 K := ⟨s.x.act v.x, s.y.act v.y, s.z.act v.z⟩

/-- geometry/signature_body.hpp:78-86 (`operator()` for bivectors). -/
def applyBivector (s : Signature) (b : R3 K) : R3 K :=
  ⟨((det s.same).mul s.x).act b.x, ((det s.same).mul s.y).act b.y, ((det s.same).mul s.z).act b.z⟩

/-- geometry/signature_body.hpp:88-93 (`operator()` for trivectors). -/
def applyTrivector (s : Signature) (t : K) : K := (det s.same).act t

/-- geometry/signature_body.hpp:95-115 (`operator()` for symmetric bilinear forms). -/
def applyForm (s : Signature) (form : M3 K) : M3 K :=
  let c := form
  let c := if s.x ≠ s.y then (c.set 0 1 (c.at' 0 1 * -1)).set 1 0 (c.at' 1 0 * -1) else c
  let c := if s.y ≠ s.z then (c.set 1 2 (c.at' 1 2 * -1)).set 2 1 (c.at' 2 1 * -1) else c
  if s.z ≠ s.x then (c.set 2 0 (c.at' 2 0 * -1)).set 0 2 (c.at' 0 2 * -1) else c

/-- geometry/signature_body.hpp:117-137 (`Forget`): the quaternion of the resulting `Rotation` or `OrthogonalMap`. -/
def forget (s : Signature) : Quat K :=
  if s.x = s.y ∧ s.y = s.z then Quat.ofReal 1
  else
    let axis : R3 K := if !((det s.same).mul s.x).negative then ⟨1, 0, 0⟩ else if !((det s.same).mul s.y).negative then ⟨0, 1, 0⟩ else ⟨0, 0, 1⟩
    ⟨0, axis⟩

end

end Signature

/-! ## Orthogonal maps -/

/-- geometry/orthogonal_map.hpp:63-165 (`OrthogonalMap`). -/
@[ext]
structure OrthogonalMap (K : Type) where
  same : Bool
  quaternion : Quat K
  deriving DecidableEq

namespace OrthogonalMap

variable {K : Type}

/-- geometry/orthogonal_map_body.hpp:133-143 (`MakeSignature`). -/
def makeSignature (m : OrthogonalMap K) : Signature := if m.same then .identity else .centralInversion

/-- geometry/orthogonal_map_body.hpp:145-150 (`MakeRotation`). -/
def makeRotation (m : OrthogonalMap K) : Rotation K := ⟨m.quaternion⟩

/-- geometry/orthogonal_map_body.hpp:16-19 (`Determinant`), where `determinant_` is geometry/orthogonal_map.hpp:123-125. -/
def determinant (m : OrthogonalMap K) : Sign := if m.same then .Positive else .Negative

variable [CommRing K]

/-- geometry/orthogonal_map_body.hpp:28-33 (`Inverse`). -/
def inverse (m : OrthogonalMap K) : OrthogonalMap K := ⟨m.same, m.quaternion.conjugate⟩

/-- geometry/orthogonal_map_body.hpp:35-40 (`operator()` for vectors). -/
def apply (m : OrthogonalMap K) (v : R3 K) : R3 K := m.makeRotation.apply (m.makeSignature.apply v)

/-- geometry/orthogonal_map_body.hpp:42-47 (`operator()` for bivectors). -/
def applyBivector (m : OrthogonalMap K) (b : R3 K) : R3 K := m.makeRotation.apply (m.makeSignature.applyBivector b)

/-- geometry/orthogonal_map_body.hpp:49-54 (`operator()` for trivectors). -/
def applyTrivector (m : OrthogonalMap K) (t : K) : K := m.makeRotation.applyTrivector (m.makeSignature.applyTrivector t)

/-- geometry/orthogonal_map_body.hpp:56-62 (`operator()` for symmetric bilinear forms). -/
def applyForm {K : Type} [Field K] (m : OrthogonalMap K) (f : M3 K) : M3 K := m.makeRotation.applyForm (m.makeSignature.applyForm f)

/-- geometry/orthogonal_map_body.hpp:85-89 (`Identity`). -/
def identity : OrthogonalMap K := ⟨true, Quat.ofReal 1⟩

/-- geometry/orthogonal_map_body.hpp:152-158 (`operator*`). -/
def mul (left right : OrthogonalMap K) : OrthogonalMap K := ⟨left.same == right.same, left.quaternion * right.quaternion⟩

end OrthogonalMap

/-- geometry/permutation_body.hpp:87-105 (`Forget<OrthogonalMap>`). -/
noncomputable def Permutation.forgetOrthogonal (p : Permutation) : Option (OrthogonalMap ℝ) := p.forget.map fun q => ⟨p.same, q⟩

/-- geometry/signature_body.hpp:117-137 (`Forget<OrthogonalMap>`). -/
def Signature.forgetOrthogonal {K : Type} [CommRing K] (s : Signature) : OrthogonalMap K := ⟨s.same, s.forget⟩

/-- geometry/rotation_body.hpp:298-306 (`Forget<OrthogonalMap>`): between frames of the same handedness. -/
def Rotation.forgetOrthogonal {K : Type} (r : Rotation K) : OrthogonalMap K := ⟨true, r.quaternion⟩

/-! ## Homothecies and conformal maps -/

/-- geometry/homothecy.hpp:22-90 (`Homothecy`). -/
@[ext]
structure Homothecy where
  scale : ℝ

namespace Homothecy

noncomputable section

/-- geometry/homothecy_body.hpp:16-20 (the constructor); `none` is a failed check. -/
def make (scale : ℝ) : Option Homothecy := if 0 < scale then some ⟨scale⟩ else none

/-- geometry/homothecy_body.hpp:27-32 (`Inverse`). -/
def inverse (h : Homothecy) : Option Homothecy := make (1 / h.scale)

/-- geometry/homothecy_body.hpp:34-41 (`operator()` for vectors). -/
def apply (h : Homothecy) (v : R3 ℝ) : R3 ℝ := h.scale • v

/-- geometry/homothecy_body.hpp:43-47 (`operator()` for angular velocities). -/
def applyAngularVelocity (_ : Homothecy) (ω : R3 ℝ) : R3 ℝ := ω

/-- geometry/homothecy_body.hpp:103-110 (`operator*`). -/
def mul (left right : Homothecy) : Option Homothecy := make (left.scale * right.scale)

end

end Homothecy

/-- geometry/conformal_map.hpp:46-120 (`ConformalMap`). -/
@[ext]
structure ConformalMap where
  same : Bool
  scale : ℝ
  quaternion : Quat ℝ

namespace ConformalMap

noncomputable section

/-- geometry/conformal_map_body.hpp:108-115 (the constructor); `none` is a failed check. -/
def make (same : Bool) (scale : ℝ) (q : Quat ℝ) : Option ConformalMap := if 0 < scale then some ⟨same, scale, q⟩ else none

/-- geometry/conformal_map_body.hpp:23-26 (`Determinant`). -/
def determinant (m : ConformalMap) : ℝ := m.scale ^ 3

/-- geometry/conformal_map_body.hpp:28-34 (`Inverse`). -/
def inverse (m : ConformalMap) : Option ConformalMap := make m.same (1 / m.scale) m.quaternion.inverse

/-- geometry/conformal_map_body.hpp:36-41 (`Identity`). -/
def identity : Option ConformalMap := make true 1 (Quat.ofReal 1)

/-- geometry/conformal_map_body.hpp:117-125 (`MakeSignature`). -/
def makeSignature (m : ConformalMap) : Signature := if m.same then .identity else .centralInversion

/-- geometry/conformal_map_body.hpp:43-49 (`operator()` for vectors). -/
def apply (m : ConformalMap) (v : R3 ℝ) : Option (R3 ℝ) :=
  (Homothecy.make m.scale).map fun h => h.apply (Rotation.apply ⟨m.quaternion⟩ (m.makeSignature.apply v))

/-- geometry/conformal_map_body.hpp:51-55 (`operator()` for angular velocities, which are bivectors). -/
def applyAngularVelocity (m : ConformalMap) (ω : R3 ℝ) : Option (R3 ℝ) :=
  (Homothecy.make m.scale).map fun h => h.applyAngularVelocity (Rotation.apply ⟨m.quaternion⟩ (m.makeSignature.applyBivector ω))

/-- geometry/conformal_map_body.hpp:64-68 (`orthogonal_map¹₁`). -/
def orthogonalMap (m : ConformalMap) : OrthogonalMap ℝ := ⟨m.same, m.quaternion⟩

/-- geometry/conformal_map_body.hpp:139-149 (`operator*`). -/
def mul (left right : ConformalMap) : Option ConformalMap :=
  make (left.same == right.same) (left.scale * right.scale) (left.quaternion * right.quaternion)

end

end ConformalMap

/-- geometry/orthogonal_map_body.hpp:71-83 (`Forget<ConformalMap>`). -/
noncomputable def OrthogonalMap.forgetConformal (m : OrthogonalMap ℝ) : Option ConformalMap := ConformalMap.make m.same 1 m.quaternion

/-- geometry/homothecy_body.hpp:56-61 (`Forget<ConformalMap>`). -/
noncomputable def Homothecy.forgetConformal (h : Homothecy) : Option ConformalMap := ConformalMap.make true h.scale (Quat.ofReal 1)

/-! ## Affine maps -/

/-- geometry/affine_map.hpp:19-80 (`AffineMap`): rigid transformations if the linear map is orthogonal, similarities if it is conformal.  A point is
modelled by its coordinates, that is, by the difference from the origin of its frame. -/
@[ext]
structure AffineMap (L : Type) where
  fromOrigin : R3 ℝ
  toOrigin : R3 ℝ
  linearMap : L

namespace AffineMap

noncomputable section

/-- geometry/affine_map_body.hpp:25-33 (`Inverse`), for rigid transformations. -/
def inverse (m : AffineMap (OrthogonalMap ℝ)) : AffineMap (OrthogonalMap ℝ) := ⟨m.toOrigin, m.fromOrigin, m.linearMap.inverse⟩

/-- geometry/affine_map_body.hpp:35-43 (`operator()`), for rigid transformations. -/
def apply (m : AffineMap (OrthogonalMap ℝ)) (point : R3 ℝ) : R3 ℝ := m.linearMap.apply (point - m.fromOrigin) + m.toOrigin

/-- geometry/affine_map_body.hpp:57-64 (`Identity`), for rigid transformations. -/
def identity : AffineMap (OrthogonalMap ℝ) := ⟨0, 0, .identity⟩

/-- geometry/affine_map_body.hpp:99-109 (`operator*`), for rigid transformations. -/
def mul (left right : AffineMap (OrthogonalMap ℝ)) : AffineMap (OrthogonalMap ℝ) :=
  ⟨right.fromOrigin, left.toOrigin + left.linearMap.apply (right.toOrigin - left.fromOrigin), left.linearMap.mul right.linearMap⟩

/-- geometry/affine_map_body.hpp:25-33 (`Inverse`), for similarities. -/
def inverseSimilarity (m : AffineMap ConformalMap) : Option (AffineMap ConformalMap) :=
  m.linearMap.inverse.map fun l => ⟨m.toOrigin, m.fromOrigin, l⟩

/-- geometry/affine_map_body.hpp:35-43 (`operator()`), for similarities. -/
def applySimilarity (m : AffineMap ConformalMap) (point : R3 ℝ) : Option (R3 ℝ) := (m.linearMap.apply (point - m.fromOrigin)).map (· + m.toOrigin)

/-- geometry/affine_map_body.hpp:99-109 (`operator*`), for similarities. -/
def mulSimilarity (left right : AffineMap ConformalMap) : Option (AffineMap ConformalMap) :=
  (left.linearMap.apply (right.toOrigin - left.fromOrigin)).bind fun d =>
    (left.linearMap.mul right.linearMap).map fun l => ⟨right.fromOrigin, left.toOrigin + d, l⟩

/-- geometry/affine_map_body.hpp:45-55 (`Forget`), from rigid transformations to similarities. -/
def forget (m : AffineMap (OrthogonalMap ℝ)) : Option (AffineMap ConformalMap) :=
  m.linearMap.forgetConformal.map fun l => ⟨m.fromOrigin, m.toOrigin, l⟩

end

end AffineMap

end Principia.Geometry
