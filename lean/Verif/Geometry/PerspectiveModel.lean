import Verif.Geometry.R3Model
import Verif.Numerics.RootFindersModel

/-!
A model of geometry/perspective_body.hpp.

Simplifications: doubles are modelled by real numbers, extended with infinities and NaNs where the code relies on them.  The frames and the units are not modelled.
-/

set_option linter.unusedSimpArgs false
set_option linter.unusedVariables false
set_option linter.unusedSectionVars false

namespace Principia.Geometry.Perspectives

open Principia.RootFinders

/-- geometry/perspective.hpp, geometry/perspective_body.hpp:26-42: a perspective.  The similarity `from_camera_` is `p ↦ camera + scale • axes p`, where `axes` is a matrix that should be
orthogonal; `to_camera_` is its inverse. -/
structure Perspective where
  camera : R3 ℝ
  scale : ℝ
  axes : M3 ℝ
  focal : ℝ

/-- geometry/perspective.hpp: `Segment`. -/
structure Segment where
  first : R3 ℝ
  second : R3 ℝ

/-- geometry/sphere_body.hpp:11-33. -/
structure Sphere where
  centre : R3 ℝ
  radius : ℝ

/-- geometry/sphere_body.hpp:30-33. -/
def Sphere.radiusSq (s : Sphere) : ℝ := s.radius * s.radius

/-! ## The projective plane -/

open Classical in
/-- geometry/rp2_point_body.hpp:24-37 (the constructor), where zeros are positive. -/
noncomputable def rp2 (x y z : ℝ) : R3 ℝ := if z < 0 then ⟨-x, -y, -z⟩ else ⟨x, y, z⟩

open Classical in
/-- geometry/rp2_point_body.hpp:64-86 (`operator==`), where the products are exact. -/
noncomputable def rp2Equal (left right : R3 ℝ) : Prop :=
  if (left.x = 0 ∧ left.y = 0 ∧ left.z = 0) ∨ (right.x = 0 ∧ right.y = 0 ∧ right.z = 0) then (left.x = 0 ∧ left.y = 0 ∧ left.z = 0) ∧ (right.x = 0 ∧ right.y = 0 ∧ right.z = 0)
  else if left.z = 0 ∧ right.z = 0 then left.x * right.y = right.x * left.y
  else left.x * right.z = right.x * left.z ∧ left.y * right.z = right.y * left.z

namespace Perspective

/-- geometry/perspective_body.hpp:26-42: `to_camera_`, the inverse of `from_camera_`, minus the origin. -/
noncomputable def toCamera (c : Perspective) (p : R3 ℝ) : R3 ℝ := c.scale⁻¹ • M3.mulVec (M3.transpose c.axes) (p - c.camera)

/-- geometry/perspective_body.hpp:55-68 (`operator()`): the homogeneous coordinates of a point of the projective plane. -/
noncomputable def project (c : Perspective) (p : R3 ℝ) : R3 ℝ := rp2 (c.toCamera p).x (c.toCamera p).y ((c.toCamera p).z / c.focal)

open Classical in
/-- geometry/perspective_body.hpp:70-98 (`SegmentBehindFocalPlane`). -/
noncomputable def segmentBehindFocalPlane (c : Perspective) (segment : Segment) : Option Segment :=
  let z := c.scale • M3.mulVec c.axes ⟨0, 0, 1⟩;
  let z1 := R3.dot (segment.first - c.camera) z;
  let z2 := R3.dot (segment.second - c.camera) z;
  if c.focal ≤ z1 ∧ c.focal ≤ z2 then some segment
  else if ¬c.focal ≤ z1 ∧ ¬c.focal ≤ z2 then none
  else
    let l := (c.focal - z2) / (z1 - z2);
    let intercept := l • segment.first + (1 - l) • segment.second;
    if c.focal ≤ z1 then some ⟨segment.first, intercept⟩ else some ⟨intercept, segment.second⟩

/-- geometry/perspective_body.hpp:100-108 (`Tan²AngularDistance`). -/
noncomputable def tanSqAngularDistance (c : Perspective) (p1 p2 : R3 ℝ) : ℝ :=
  let v1 := c.toCamera p1;
  let v2 := c.toCamera p2;
  R3.normSq (R3.cross v1 v2) / R3.dot v1 v2 ^ 2

/-- geometry/perspective_body.hpp:110-114 (`SquaredDistanceFromCamera`). -/
def squaredDistanceFromCamera (c : Perspective) (p : R3 ℝ) : ℝ := R3.normSq (p - c.camera)

open Classical in
/-- geometry/perspective_body.hpp:116-158 (`IsHiddenBySphere`). -/
noncomputable def isHiddenBySphere (c : Perspective) (point : R3 ℝ) (sphere : Sphere) : Bool :=
  let cameraToCentre := sphere.centre - c.camera;
  let cameraToPoint := point - c.camera;
  let centreToPoint := point - sphere.centre;
  if R3.normSq centreToPoint < sphere.radiusSq then true
  else
    let cameraToHorizonSq := R3.normSq cameraToCentre - sphere.radiusSq;
    let innerProduct := R3.dot cameraToPoint cameraToCentre;
    if ¬innerProduct * innerProduct > cameraToHorizonSq * R3.normSq cameraToPoint then false
    else ¬innerProduct < cameraToHorizonSq

/-- geometry/perspective_body.hpp:160-171 (`SphereSin²HalfAngle`). -/
noncomputable def sphereSinSqHalfAngle (c : Perspective) (sphere : Sphere) : ℝ := min 1 (sphere.radiusSq / R3.normSq (sphere.centre - c.camera))

end Perspective

/-! ## The visible segments -/

/-- The product of +∞ by the difference of two numbers, geometry/perspective_body.hpp:292. -/
noncomputable def infinityTimesDifference : Ext → Ext → Ext
  | .nan, _ => .nan
  | _, .nan => .nan
  | .posInf, .posInf => .nan
  | .posInf, _ => .posInf
  | .negInf, .negInf => .nan
  | .negInf, _ => .negInf
  | .fin _, .posInf => .negInf
  | .fin _, .negInf => .posInf
  | .fin t, .fin s => if s < t then .posInf else if t < s then .negInf else .nan

open Classical in
/-- The smallest element of a list. -/
noncomputable def minimum : List Ext → Option Ext
  | [] => none
  | e :: l => match minimum l with
    | none => some e
    | some m => some (if Ext.lt m e then m else e)

open Classical in
/-- The largest element of a list. -/
noncomputable def maximum : List Ext → Option Ext
  | [] => none
  | e :: l => match maximum l with
    | none => some e
    | some m => some (if Ext.lt e m then m else e)

/-- A point of a line, if it is not at infinity. -/
noncomputable def along (a ab : R3 ℝ) : Ext → Option (R3 ℝ)
  | .fin l => some (a + l • ab)
  | _ => none

open Classical in
/-- geometry/perspective_body.hpp:285-306: whether the intersection with the cone is kept. -/
noncomputable def isKept (σ τ l : Ext) : Bool := (Ext.le σ τ ∧ Ext.lt τ l) ∨ (Ext.le τ σ ∧ Ext.lt l τ)

open Classical in
/-- geometry/perspective_body.hpp:223-318: the intersections of the line with the cone, including the ones at infinity.  The outer `none` is a failed check; the inner one means that the
whole segment is visible.  The divisions by zero are by +0, as stated in lines 262-263. -/
noncomputable def coneIntersections (KA KB KH : R3 ℝ) (rSq : ℝ) : Option (Option (List Ext)) :=
  let KAKH := R3.dot KA KH;
  let KBKH := R3.dot KB KH;
  let KAKB := R3.dot KA KB;
  let a0 := rSq * (rSq * R3.normSq KA - KAKH * KAKH);
  let a1 := 2 * rSq * (KAKB * KAKH - R3.normSq KA * KBKH);
  let a2 := R3.normSq KB * KAKH * KAKH - 2 * KAKB * KAKH * KBKH + R3.normSq KA * KBKH * KBKH;
  match solveQuadratic 0 a0 a1 a2 with
  | [.fin δ₁, .fin δ₂] =>
    let AB := KB - KA;
    let ABKH := R3.dot AB KH;
    let σ := Ext.div (-KAKH) ABKH;
    let PH := fun δ : ℝ => ((rSq - δ * KBKH) / KAKH) • KA + δ • KB;
    let τ := fun δ : ℝ => Ext.div (R3.normSq KH - R3.dot KH (PH δ) - KAKH) ABKH;
    let l := fun δ : ℝ => Ext.div (-R3.dot KA (PH δ)) (R3.dot AB (PH δ));
    let ls := ([δ₁, δ₂].filter fun δ => isKept σ (τ δ) (l δ)).map l;
    if (∃ δ ∈ [δ₁, δ₂], Ext.lt (l δ) σ) ∧ (∃ δ ∈ [δ₁, δ₂], Ext.lt σ (l δ)) then
      if ls.length ≤ 1 then some (some (ls ++ [infinityTimesDifference (τ δ₂) σ])) else none
    else some (some ls)
  | _ => some none

open Classical in
/-- geometry/perspective_body.hpp:319-375: the result, from the intersections with the cone.  Only the first and last elements of the sorted list are used. -/
noncomputable def hide (segment : Segment) (sphere : Sphere) (ls : List Ext) : Option (List Segment) :=
  let A := segment.first;
  let B := segment.second;
  let AB := B - A;
  let AC := sphere.centre - A;
  let μs := solveQuadratic 0 (R3.normSq AC - sphere.radiusSq) (-2 * R3.dot AB AC) (R3.normSq AB);
  match minimum (ls ++ μs), maximum (ls ++ μs) with
  | some l, some m =>
    if Ext.le (.fin 1) l ∨ Ext.le m (.fin 0) then some [segment]
    else if Ext.le l (.fin 0) ∧ Ext.le (.fin 1) m then some []
    else if Ext.lt (.fin 0) l ∧ Ext.lt m (.fin 1) then (along A AB l).bind fun P => (along A AB m).map fun Q => [⟨A, P⟩, ⟨Q, B⟩]
    else if Ext.le l (.fin 0) then (along A AB m).map fun Q => [⟨Q, B⟩]
    else (along A AB l).map fun P => [⟨A, P⟩]
  | _, _ => some [segment]

open Classical in
/-- geometry/perspective_body.hpp:173-376 (`VisibleSegments`, for one sphere); `none` is a failed check or a point that is not a number.  If the determinant is zero, `α`, `β` and all that is
computed from them are NaNs, so that the comparisons are false and there are no intersections with the cone. -/
noncomputable def Perspective.visibleSegments₁ (c : Perspective) (segment : Segment) (sphere : Sphere) : Option (List Segment) :=
  let K := c.camera;
  let KA := segment.first - K;
  let KB := segment.second - K;
  let KC := sphere.centre - K;
  if R3.normSq KC ≤ sphere.radiusSq then some []
  else
    let KAKC := R3.dot KA KC;
    let KBKC := R3.dot KB KC;
    if KAKC ≤ 0 ∧ KBKC ≤ 0 then some [segment]
    else
      let KAKB := R3.dot KA KB;
      let determinant := R3.normSq KA * R3.normSq KB - KAKB * KAKB;
      if determinant = 0 then hide segment sphere []
      else
        let α := (R3.normSq KB * KAKC - KAKB * KBKC) / determinant;
        let β := (R3.normSq KA * KBKC - KAKB * KAKC) / determinant;
        let KH := α • KA + β • KB;
        let CHSq := R3.normSq (KH - KC);
        if sphere.radiusSq ≤ CHSq then some [segment]
        else
          let rSq := sphere.radiusSq - CHSq;
          if (α < 0 ∧ rSq * R3.normSq KB / determinant ≤ α * α) ∨ (β < 0 ∧ rSq * R3.normSq KA / determinant ≤ β * β) then some [segment]
          else (coneIntersections KA KB KH rSq).bind fun ls =>
            match ls with
            | none => some [segment]
            | some ls => hide segment sphere ls

/-- The state of the loops of geometry/perspective_body.hpp:408-425. -/
structure Slices where
  segments : List Segment
  outBegin : ℕ
  outEnd : ℕ

/-- geometry/perspective_body.hpp:409-420: the inner loop, for the indices from `inBegin + n - 1` down to `inBegin`. -/
noncomputable def Perspective.hideSlice (c : Perspective) (sphere : Sphere) (inBegin : ℕ) : ℕ → Slices → Option Slices
  | 0, s => some s
  | n + 1, s => do
    let old ← s.segments[inBegin + n]?
    let new ← c.visibleSegments₁ old sphere
    match new with
    | [] => hideSlice c sphere inBegin n s
    | [a] => if s.outBegin = 0 then none else hideSlice c sphere inBegin n { s with segments := s.segments.set (s.outBegin - 1) a, outBegin := s.outBegin - 1 }
    | a :: b :: _ =>
      if s.outBegin = 0 then none
      else hideSlice c sphere inBegin n { segments := s.segments.set (s.outBegin - 1) a ++ [b], outBegin := s.outBegin - 1, outEnd := s.outEnd + 1 }

/-- geometry/perspective_body.hpp:408-425: the outer loop. -/
noncomputable def Perspective.hideSpheres (c : Perspective) : List Sphere → List Segment → ℕ → ℕ → Option (List Segment × ℕ)
  | [], segments, inBegin, inEnd => some (segments, inBegin)
  | sphere :: spheres, segments, inBegin, inEnd => do
    let s ← c.hideSlice sphere inBegin (inEnd - inBegin) ⟨segments, inEnd, inEnd⟩
    hideSpheres c spheres s.segments s.outBegin s.outEnd

/-- geometry/perspective_body.hpp:378-430 (`VisibleSegments`). -/
noncomputable def Perspective.visibleSegments (c : Perspective) (segment : Segment) (spheres : List Sphere) : Option (List Segment) :=
  (c.hideSpheres spheres [segment] 0 1).map fun (segments, inBegin) => if 0 < inBegin then segments.drop inBegin else segments

end Principia.Geometry.Perspectives
