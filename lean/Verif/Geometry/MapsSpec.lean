import Verif.Geometry.RotationSpec
import Verif.Geometry.MapsModel
import Mathlib.GroupTheory.Perm.Sign

/-!
What is expected of linear maps, independently of how the library represents them.
-/

namespace Principia.Geometry

/-- The three functions that a map between frames induces on vectors, bivectors and trivectors are those of an orthogonal map that preserves the orientation
if, and only if, `same` is true: inner products are preserved, volumes are preserved or change signs, and all the products of multivectors commute with
the map. -/
structure OrthogonalAction {K : Type} [CommRing K] (same : Bool) (f g : R3 K → R3 K) (h : K → K) : Prop where
  add : ∀ v w, f (v + w) = f v + f w
  smul : ∀ (a : K) v, f (a • v) = a • f v
  inner : ∀ v w, (f v).dot (f w) = v.dot w
  volume : ∀ u v w, M3.det ⟨f u, f v, f w⟩ = if same then M3.det ⟨u, v, w⟩ else -M3.det ⟨u, v, w⟩
  wedge : ∀ v w, g (wedge v w) = Geometry.wedge (f v) (f w)
  wedgeBV : ∀ b v, h (wedgeBivectorVector b v) = wedgeBivectorVector (g b) (f v)
  wedgeVB : ∀ v b, h (wedgeVectorBivector v b) = wedgeVectorBivector (f v) (g b)
  innerBivectors : ∀ b c, (g b).dot (g c) = b.dot c
  commutator : ∀ b c, g (commutator b c) = Geometry.commutator (g b) (g c)
  action : ∀ b v, f (bivectorTimesVector b v) = bivectorTimesVector (g b) (f v)
  coaction : ∀ v b, f (vectorTimesBivector v b) = vectorTimesBivector (f v) (g b)
  bivectorTrivector : ∀ b t, f (bivectorTimesTrivector b t) = bivectorTimesTrivector (g b) (h t)
  vectorTrivector : ∀ v t, g (vectorTimesTrivector v t) = vectorTimesTrivector (f v) (h t)

/-- The functions that a map between frames induces on vectors and angular velocities are those of a similarity of ratio `k` that preserves the orientation
if, and only if, `same` is true. -/
structure ConformalAction (same : Bool) (k : ℝ) (f g : R3 ℝ → R3 ℝ) : Prop where
  add : ∀ v w, f (v + w) = f v + f w
  smul : ∀ (a : ℝ) v, f (a • v) = a • f v
  inner : ∀ v w, (f v).dot (f w) = k ^ 2 * v.dot w
  volume : ∀ u v w, M3.det ⟨f u, f v, f w⟩ = (if same then k ^ 3 else -k ^ 3) * M3.det ⟨u, v, w⟩
  innerBivectors : ∀ b c, (g b).dot (g c) = b.dot c
  action : ∀ b v, f (bivectorTimesVector b v) = bivectorTimesVector (g b) (f v)

/-- A permutation whose type is right: even if the handedness is the same, and odd otherwise. -/
def Permutation.Valid (p : Permutation) : Prop :=
  p.code ∈ if p.same then [Permutation.XYZ, Permutation.YZX, Permutation.ZXY] else [Permutation.XZY, Permutation.ZYX, Permutation.YXZ]

/-- The permutation puts in the position `i` of the result the coordinate that was in the position `σ i`. -/
def Permutation.Represents (p : Permutation) (σ : Equiv.Perm (Fin 3)) : Prop :=
  ∀ (K : Type) (v : R3 K), ∃ w, p.apply v = some w ∧ ∀ i, w.vec i = v.vec (σ i)

/-- The sign is consistent with the handedness. -/
def Signature.Valid (s : Signature) : Prop :=
  (Bool.xor s.x.negative (Bool.xor s.y.negative s.z.negative)) = !s.same

/-- An orthogonal map is represented by a quaternion of norm 1. -/
def OrthogonalMap.IsUnit {K : Type} [CommRing K] (m : OrthogonalMap K) : Prop := m.quaternion.normSq = 1

/-- A conformal map is represented by a quaternion of norm 1 and a positive scale. -/
def ConformalMap.IsUnit (m : ConformalMap) : Prop := m.quaternion.normSq = 1 ∧ 0 < m.scale

end Principia.Geometry
