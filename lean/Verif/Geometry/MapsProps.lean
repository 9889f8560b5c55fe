import Verif.Geometry.MapsSpec
import Verif.Geometry.RotationAngles

/-!
C37: multivectors, and discrete, orthogonal, conformal and affine maps.
-/

set_option linter.unusedSimpArgs false
set_option linter.unusedVariables false
set_option linter.unusedSectionVars false

namespace Principia.Geometry

section

variable {K : Type} [CommRing K]

/-! ### Multivectors -/

/-- The wedge product is alternating and associative, and gives the volume; commutators and the action of bivectors on vectors are those of
antisymmetric matrices: Jacobi's identity holds, and so does Lagrange's. -/
theorem C37_multivectors (u v w : R3 K) :
    wedge v v = 0 ∧ wedge v w = -wedge w v ∧ wedgeBivectorVector (wedge u v) w = wedgeVectorBivector u (wedge v w) ∧
      wedgeBivectorVector (wedge u v) w = M3.det ⟨u, v, w⟩ ∧
      commutator u (commutator v w) + commutator v (commutator w u) + commutator w (commutator u v) = 0 ∧
      bivectorTimesVector (commutator u v) w = bivectorTimesVector u (bivectorTimesVector v w) - bivectorTimesVector v (bivectorTimesVector u w) ∧
      vectorTimesBivector w u = -bivectorTimesVector u w ∧
      bivectorTimesVector (wedge u v) w = (u.dot w) • v - (v.dot w) • u ∧
      (wedge v w).dot (wedge v w) = v.dot v * w.dot w - v.dot w * v.dot w := by
  refine ⟨?_, ?_, ?_, ?_, ?_, ?_, ?_, ?_, ?_⟩
  · ext <;> simp [wedge, R3.cross] <;> ring
  · ext <;> simp [wedge, R3.cross] <;> ring
  · simp [wedge, wedgeBivectorVector, wedgeVectorBivector, R3.cross, R3.dot]; ring
  · simp [wedge, wedgeBivectorVector, R3.cross, R3.dot, M3.det]; ring
  · ext <;> simp [commutator, R3.cross] <;> ring
  · ext <;> simp [commutator, bivectorTimesVector, R3.cross] <;> ring
  · ext <;> simp [vectorTimesBivector, bivectorTimesVector, R3.cross] <;> ring
  · ext <;> simp [wedge, bivectorTimesVector, R3.cross, R3.dot] <;> ring
  · simp [wedge, R3.cross, R3.dot]; ring

/-! ### Actions -/

/-- What suffices for a function to be an orthogonal action that preserves the orientation. -/
theorem OrthogonalAction.ofRotation {f : R3 K → R3 K} (add : ∀ v w, f (v + w) = f v + f w) (smul : ∀ (a : K) v, f (a • v) = a • f v)
    (inner : ∀ v w, (f v).dot (f w) = v.dot w) (cross : ∀ v w, (f v).cross (f w) = f (v.cross w)) : OrthogonalAction true f f id := by
  have hdet : ∀ u v w : R3 K, M3.det ⟨u, v, w⟩ = (u.cross v).dot w := by
    intro u v w; simp [M3.det, R3.cross, R3.dot]; ring
  refine ⟨add, smul, inner, ?_, ?_, ?_, ?_, inner, ?_, ?_, ?_, ?_, ?_⟩
  · intro u v w; rw [if_pos rfl, hdet, hdet, cross, inner]
  · intro v w; exact (cross v w).symm
  · intro b v; exact (inner b v).symm
  · intro b v; exact (inner b v).symm
  · intro v w; exact (cross v w).symm
  · intro v w; exact (cross v w).symm
  · intro v w; exact (cross v w).symm
  · intro b t; exact smul t b
  · intro b t; exact smul t b

/-- The composition with the central inversion. -/
theorem OrthogonalAction.inversion {f : R3 K → R3 K} (h : OrthogonalAction true f f id) : OrthogonalAction false (fun v => -f v) f (fun t => -t) := by
  have hn : ∀ v w : R3 K, (-v).cross w = -(v.cross w) ∧ v.cross (-w) = -(v.cross w) ∧ (-v).cross (-w) = v.cross w ∧ (-v).dot w = -(v.dot w) ∧
      v.dot (-w) = -(v.dot w) ∧ (-v).dot (-w) = v.dot w := by
    intro v w
    refine ⟨?_, ?_, ?_, ?_, ?_, ?_⟩
    · ext <;> simp [R3.cross] <;> ring
    · ext <;> simp [R3.cross] <;> ring
    · ext <;> simp [R3.cross]
    · simp [R3.dot]; ring
    · simp [R3.dot]; ring
    · simp [R3.dot]
  have hsm : ∀ (a : K) (v : R3 K), a • -v = -(a • v) ∧ (-a) • v = -(a • v) ∧ (-a) • (-v) = a • v := by
    intro a v; refine ⟨?_, ?_, ?_⟩ <;> ext <;> simp
  refine ⟨?_, ?_, ?_, ?_, ?_, ?_, ?_, h.inner, h.commutator, ?_, ?_, ?_, ?_⟩
  · intro v w; simp only [h.add]; ext <;> simp <;> ring
  · intro a v; simp only [h.smul]; rw [(hsm _ _).1]
  · intro v w; rw [(hn _ _).2.2.2.2.2, h.inner]
  · intro u v w
    have := h.volume u v w
    rw [if_pos rfl] at this
    rw [if_neg (by simp), ← this]
    simp [M3.det]; ring
  · intro v w; rw [h.wedge]; exact ((hn _ _).2.2.1).symm
  · intro b v
    show -(b.dot v) = (f b).dot (-f v)
    rw [(hn _ _).2.2.2.2.1, h.inner]
  · intro b v
    show -(b.dot v) = (-f b).dot (f v)
    rw [(hn _ _).2.2.2.1, h.inner]
  · intro b v
    show -f (b.cross v) = (f b).cross (-f v)
    rw [(hn _ _).2.1]; congr 1; exact h.action b v
  · intro v b
    show -f (v.cross b) = (-f v).cross (f b)
    rw [(hn _ _).1]; congr 1; exact h.coaction v b
  · intro b t
    show -f (t • b) = (-t) • f b
    rw [h.smul, (hsm _ _).2.1]
  · intro b t
    show f (t • b) = (-t) • -f b
    rw [h.smul, (hsm _ _).2.2]

/-! ### Rotations and orthogonal maps -/

/-- Rotations act on multivectors as orthogonal maps that preserve the orientation. -/
theorem C37_rotation (r : Rotation K) (hr : r.IsUnit) : OrthogonalAction true r.apply r.apply r.applyTrivector :=
  OrthogonalAction.ofRotation (fun v w => (Rotation.C36_linear r v w 0).1) (fun a v => (Rotation.C36_linear r v 0 a).2) (Rotation.C36_isometry r hr)
    (Rotation.C36_cross r hr)

theorem OrthogonalMap.apply_eq (m : OrthogonalMap K) (v : R3 K) :
    m.apply v = if m.same then Rotation.apply ⟨m.quaternion⟩ v else -Rotation.apply ⟨m.quaternion⟩ v := by
  obtain ⟨same, q⟩ := m
  cases same
  · ext <;> simp [OrthogonalMap.apply, makeSignature, makeRotation, Signature.centralInversion, Signature.ofXY, Signature.apply, Signature.det, Sign.act,
      Sign.mul, Sign.Negative, Rotation.apply, R3.cross] <;> ring
  · ext <;> simp [OrthogonalMap.apply, makeSignature, makeRotation, Signature.identity, Signature.ofXY, Signature.apply, Signature.det, Sign.act,
      Sign.mul, Sign.Positive, Rotation.apply, R3.cross]

theorem OrthogonalMap.applyBivector_eq (m : OrthogonalMap K) (v : R3 K) : m.applyBivector v = Rotation.apply ⟨m.quaternion⟩ v := by
  obtain ⟨same, q⟩ := m
  cases same
  · ext <;> simp [OrthogonalMap.applyBivector, makeSignature, makeRotation, Signature.centralInversion, Signature.ofXY, Signature.applyBivector, Signature.det,
      Sign.act, Sign.mul, Sign.Negative, Rotation.apply, R3.cross]
  · ext <;> simp [OrthogonalMap.applyBivector, makeSignature, makeRotation, Signature.identity, Signature.ofXY, Signature.applyBivector, Signature.det,
      Sign.act, Sign.mul, Sign.Positive, Rotation.apply, R3.cross]

theorem OrthogonalMap.applyTrivector_eq (m : OrthogonalMap K) (t : K) : m.applyTrivector t = if m.same then t else -t := by
  obtain ⟨same, q⟩ := m
  cases same <;> simp [OrthogonalMap.applyTrivector, makeSignature, makeRotation, Signature.centralInversion, Signature.identity, Signature.ofXY,
    Signature.applyTrivector, Signature.det, Sign.act, Sign.mul, Sign.Negative, Sign.Positive, Rotation.applyTrivector]

/-- Orthogonal maps act on multivectors as such, and the determinant tells whether they preserve the orientation. -/
theorem C37_orthogonal_map (m : OrthogonalMap K) (hm : m.IsUnit) :
    OrthogonalAction m.same m.apply m.applyBivector m.applyTrivector ∧ (m.determinant = .Positive ↔ m.same = true) := by
  refine ⟨?_, by obtain ⟨same, q⟩ := m; cases same <;> simp [OrthogonalMap.determinant, Sign.Positive, Sign.Negative]⟩
  have hf : m.apply = fun v => if m.same then Rotation.apply ⟨m.quaternion⟩ v else -Rotation.apply ⟨m.quaternion⟩ v := funext m.apply_eq
  have hg : m.applyBivector = Rotation.apply ⟨m.quaternion⟩ := funext m.applyBivector_eq
  have hh : m.applyTrivector = fun t => if m.same then t else -t := funext m.applyTrivector_eq
  have hr := C37_rotation ⟨m.quaternion⟩ hm
  rw [hf, hg, hh]
  obtain ⟨same, q⟩ := m
  cases same
  · exact hr.inversion
  · exact hr

theorem Quat.apply_neg (q : Quat K) (v : R3 K) : Rotation.apply ⟨q⟩ (-v) = -Rotation.apply ⟨q⟩ v := by
  ext <;> simp [Rotation.apply, R3.cross] <;> ring

theorem R3.neg_neg' (v : R3 K) : - -v = v := by ext <;> simp

/-- The product of two orthogonal maps is their composition, on all multivectors. -/
theorem C37_orthogonal_compose (l r : OrthogonalMap K) (hl : l.IsUnit) (hr : r.IsUnit) :
    (l.mul r).IsUnit ∧ (∀ v, (l.mul r).apply v = l.apply (r.apply v)) ∧ (∀ b, (l.mul r).applyBivector b = l.applyBivector (r.applyBivector b)) ∧
      ∀ t, (l.mul r).applyTrivector t = l.applyTrivector (r.applyTrivector t) := by
  have hc := fun v => Rotation.C36_compose ⟨l.quaternion⟩ ⟨r.quaternion⟩ hl hr v
  have hq : ∀ v, Rotation.apply ⟨l.quaternion * r.quaternion⟩ v = Rotation.apply ⟨l.quaternion⟩ (Rotation.apply ⟨r.quaternion⟩ v) := fun v => (hc v).2
  refine ⟨(hc 0).1, fun v => ?_, fun b => ?_, fun t => ?_⟩
  · simp only [OrthogonalMap.apply_eq, OrthogonalMap.mul, hq]
    cases l.same <;> cases r.same <;> simp [Quat.apply_neg, R3.neg_neg']
  · simp only [OrthogonalMap.applyBivector_eq, OrthogonalMap.mul, hq]
  · simp only [OrthogonalMap.applyTrivector_eq, OrthogonalMap.mul]
    cases l.same <;> cases r.same <;> simp

/-- The inverse of an orthogonal map undoes it, on all multivectors. -/
theorem C37_orthogonal_inverse (m : OrthogonalMap K) (hm : m.IsUnit) :
    m.inverse.IsUnit ∧ (∀ v, m.inverse.apply (m.apply v) = v ∧ m.apply (m.inverse.apply v) = v) ∧
      (∀ b, m.inverse.applyBivector (m.applyBivector b) = b ∧ m.applyBivector (m.inverse.applyBivector b) = b) ∧
      (∀ t, m.inverse.applyTrivector (m.applyTrivector t) = t ∧ m.applyTrivector (m.inverse.applyTrivector t) = t) ∧
      (∀ v, (OrthogonalMap.identity : OrthogonalMap K).apply v = v ∧ (OrthogonalMap.identity : OrthogonalMap K).applyBivector v = v) := by
  have hi := fun v => Rotation.C36_inverse ⟨m.quaternion⟩ hm v
  have h1 : ∀ v, Rotation.apply ⟨m.quaternion.conjugate⟩ (Rotation.apply ⟨m.quaternion⟩ v) = v := fun v => (hi v).2.1
  have h2 : ∀ v, Rotation.apply ⟨m.quaternion⟩ (Rotation.apply ⟨m.quaternion.conjugate⟩ v) = v := fun v => (hi v).2.2.1
  have h3 : ∀ v : R3 K, Rotation.apply ⟨Quat.ofReal 1⟩ v = v := fun v => (hi v).2.2.2.2
  refine ⟨(hi 0).1, fun v => ?_, fun b => ?_, fun t => ?_, fun v => ?_⟩
  · simp only [OrthogonalMap.apply_eq, OrthogonalMap.inverse]
    cases m.same <;> simp [Quat.apply_neg, R3.neg_neg', h1, h2]
  · simp only [OrthogonalMap.applyBivector_eq, OrthogonalMap.inverse, h1, h2, and_self]
  · simp only [OrthogonalMap.applyTrivector_eq, OrthogonalMap.inverse]
    cases m.same <;> simp
  · simp only [OrthogonalMap.apply_eq, OrthogonalMap.applyBivector_eq, OrthogonalMap.identity, h3, if_true, and_self]

/-! ### Signatures -/

/-- Each of the constructors produces a signature that has the signs that were given and preserves the orientation if, and only if, the frames have the
same handedness; all signatures are obtained in this way. -/
theorem C37_signature_make (same : Bool) (a b : Sign) :
    (Signature.ofXY same a b).Valid ∧ (Signature.ofXY same a b).x = a ∧ (Signature.ofXY same a b).y = b ∧
      (Signature.ofXZ same a b).Valid ∧ (Signature.ofXZ same a b).x = a ∧ (Signature.ofXZ same a b).z = b ∧
      (Signature.ofYZ same a b).Valid ∧ (Signature.ofYZ same a b).y = a ∧ (Signature.ofYZ same a b).z = b ∧
      ∀ s : Signature, s.Valid → s = .ofXY s.same s.x s.y ∧ s = .ofXZ s.same s.x s.z ∧ s = .ofYZ s.same s.y s.z := by
  refine ⟨?_, rfl, rfl, ?_, rfl, rfl, ?_, rfl, rfl, ?_⟩
  · obtain ⟨a⟩ := a; obtain ⟨b⟩ := b; cases same <;> cases a <;> cases b <;> rfl
  · obtain ⟨a⟩ := a; obtain ⟨b⟩ := b; cases same <;> cases a <;> cases b <;> rfl
  · obtain ⟨a⟩ := a; obtain ⟨b⟩ := b; cases same <;> cases a <;> cases b <;> rfl
  · rintro ⟨same, ⟨a⟩, ⟨b⟩, ⟨c⟩⟩ h
    cases same <;> cases a <;> cases b <;> cases c <;> first | (simp [Signature.Valid] at h; done) | exact ⟨rfl, rfl, rfl⟩

/-- Signatures act on multivectors as orthogonal maps. -/
theorem C37_signature (s : Signature) (hs : s.Valid) : OrthogonalAction s.same (s.apply (K := K)) s.applyBivector s.applyTrivector := by
  obtain ⟨same, ⟨a⟩, ⟨b⟩, ⟨c⟩⟩ := s
  cases same <;> cases a <;> cases b <;> cases c <;>
    first
    | (simp [Signature.Valid] at hs; done)
    | (constructor <;> intros <;>
        first
        | (ext <;> simp [Signature.apply, Signature.applyBivector, Signature.applyTrivector, Signature.det, Sign.mul, Sign.act, Sign.Positive, Sign.Negative,
            wedge, commutator, bivectorTimesVector, vectorTimesBivector, bivectorTimesTrivector, vectorTimesTrivector, R3.cross] <;> ring)
        | (simp [Signature.apply, Signature.applyBivector, Signature.applyTrivector, Signature.det, Sign.mul, Sign.act, Sign.Positive, Sign.Negative,
            wedgeBivectorVector, wedgeVectorBivector, R3.dot, M3.det] <;> ring))

/-- The product of signatures is their composition, they are their own inverses, the signs multiply. -/
theorem C37_signature_compose (l r : Signature) (hl : l.Valid) (hr : r.Valid) :
    (l.mul r).Valid ∧ l.inverse.Valid ∧ Signature.identity.Valid ∧ Signature.centralInversion.Valid ∧
      (∀ v : R3 K, (l.mul r).apply v = l.apply (r.apply v) ∧ (l.mul r).applyBivector v = l.applyBivector (r.applyBivector v)) ∧
      (∀ t : K, (l.mul r).applyTrivector t = l.applyTrivector (r.applyTrivector t)) ∧
      (∀ v : R3 K, l.inverse.apply (l.apply v) = v ∧ l.apply (l.inverse.apply v) = v) ∧
      (∀ v : R3 K, Signature.identity.apply v = v ∧ Signature.centralInversion.apply v = -v) := by
  obtain ⟨sl, ⟨al⟩, ⟨bl⟩, ⟨cl⟩⟩ := l
  obtain ⟨sr, ⟨ar⟩, ⟨br⟩, ⟨cr⟩⟩ := r
  refine ⟨?_, hl, rfl, rfl, fun v => ⟨?_, ?_⟩, fun t => ?_, fun v => ⟨?_, ?_⟩, fun v => ⟨?_, ?_⟩⟩
  · revert hl hr
    simp only [Signature.Valid, Signature.mul, Sign.mul]
    revert sl al bl cl sr ar br cr
    decide
  · ext <;> simp only [Signature.mul, Signature.apply, Sign.mul, Sign.act]
    · cases al <;> cases ar <;> simp
    · cases bl <;> cases br <;> simp
    · cases cl <;> cases cr <;> simp
  · ext <;> simp only [Signature.mul, Signature.applyBivector, Signature.det, Sign.mul, Sign.act, Sign.Positive, Sign.Negative]
    · cases sl <;> cases sr <;> cases al <;> cases ar <;> simp
    · cases sl <;> cases sr <;> cases bl <;> cases br <;> simp
    · cases sl <;> cases sr <;> cases cl <;> cases cr <;> simp
  · simp only [Signature.mul, Signature.applyTrivector, Signature.det, Sign.act, Sign.Positive, Sign.Negative]
    cases sl <;> cases sr <;> simp
  · ext <;> simp only [Signature.inverse, Signature.apply, Sign.act]
    · cases al <;> simp
    · cases bl <;> simp
    · cases cl <;> simp
  · ext <;> simp only [Signature.inverse, Signature.apply, Sign.act]
    · cases al <;> simp
    · cases bl <;> simp
    · cases cl <;> simp
  · ext <;> simp [Signature.identity, Signature.ofXY, Signature.apply, Signature.det, Sign.act, Sign.mul, Sign.Positive]
  · ext <;> simp [Signature.centralInversion, Signature.ofXY, Signature.apply, Signature.det, Sign.act, Sign.mul, Sign.Negative]

/-- Forgetting that a map is a signature does not change how it acts. -/
theorem C37_signature_forget (s : Signature) (hs : s.Valid) :
    (s.forgetOrthogonal : OrthogonalMap K).IsUnit ∧ (s.forgetOrthogonal : OrthogonalMap K).same = s.same ∧
      ∀ v : R3 K, s.forgetOrthogonal.apply v = s.apply v ∧ s.forgetOrthogonal.applyBivector v = s.applyBivector v := by
  have hI : ∀ v : R3 K, Rotation.apply ⟨0, ⟨1, 0, 0⟩⟩ v = ⟨v.x, -v.y, -v.z⟩ := by
    intro v; ext <;> simp [Rotation.apply, R3.cross] <;> ring
  have hJ : ∀ v : R3 K, Rotation.apply ⟨0, ⟨0, 1, 0⟩⟩ v = ⟨-v.x, v.y, -v.z⟩ := by
    intro v; ext <;> simp [Rotation.apply, R3.cross] <;> ring
  have hK : ∀ v : R3 K, Rotation.apply ⟨0, ⟨0, 0, 1⟩⟩ v = ⟨-v.x, -v.y, v.z⟩ := by
    intro v; ext <;> simp [Rotation.apply, R3.cross] <;> ring
  have h1 : ∀ v : R3 K, Rotation.apply ⟨Quat.ofReal 1⟩ v = v := by
    intro v; ext <;> simp [Rotation.apply, R3.cross, Quat.ofReal]
  obtain ⟨same, ⟨a⟩, ⟨b⟩, ⟨c⟩⟩ := s
  refine ⟨?_, rfl, fun v => ?_⟩
  · cases same <;> cases a <;> cases b <;> cases c <;>
      first
      | (simp [Signature.Valid] at hs; done)
      | simp [OrthogonalMap.IsUnit, Signature.forgetOrthogonal, Signature.forget, Signature.det, Sign.mul, Sign.Positive, Sign.Negative, Quat.ofReal,
          Quat.normSq, R3.normSq]
  · rw [OrthogonalMap.apply_eq, OrthogonalMap.applyBivector_eq]
    cases same <;> cases a <;> cases b <;> cases c <;>
      first
      | (simp [Signature.Valid] at hs; done)
      | (constructor <;>
          simp [Signature.forgetOrthogonal, Signature.forget, Signature.det, Sign.mul, Sign.Positive, Sign.Negative, hI, hJ, hK, h1, Signature.apply,
            Signature.applyBivector, Sign.act, R3.ext_iff])

/-- Symmetric bilinear forms are transformed so that they take the same values on the transformed vectors. -/
theorem C37_signature_form (s : Signature) (m : M3 K) (hm : m.Symmetric) :
    (s.applyForm m).Symmetric ∧ ∀ v w, (s.applyForm m).form (s.apply v) (s.apply w) = m.form v w := by
  obtain ⟨same, ⟨a⟩, ⟨b⟩, ⟨c⟩⟩ := s
  obtain ⟨⟨m00, m01, m02⟩, ⟨m10, m11, m12⟩, ⟨m20, m21, m22⟩⟩ := m
  simp only [M3.Symmetric, M3.transpose, M3.mk.injEq, R3.mk.injEq] at hm
  obtain ⟨⟨-, h1, h2⟩, ⟨-, -, h3⟩, -⟩ := hm
  subst h1 h2 h3
  refine ⟨?_, fun v w => ?_⟩
  · cases a <;> cases b <;> cases c <;>
      simp [M3.Symmetric, M3.transpose, Signature.applyForm, M3.set, M3.setRow, M3.row, M3.at', R3.set, R3.get]
  · cases a <;> cases b <;> cases c <;>
      simp [M3.form, M3.mulVec, R3.dot, Signature.apply, Sign.act, Signature.applyForm, M3.set, M3.setRow, M3.row, M3.at', R3.set, R3.get] <;> ring

/-- Signatures survive serialization, and what is read is always valid. -/
theorem C37_signature_serialization (same : Bool) (s : Signature) :
    (s.Valid → s.same = same → Signature.read same s.write = some s) ∧ ∀ m, Signature.read same m = some s → s.Valid ∧ s.same = same ∧ s.write = m := by
  obtain ⟨same', ⟨a⟩, ⟨b⟩, ⟨c⟩⟩ := s
  refine ⟨?_, ?_⟩
  · rintro h rfl
    revert h
    simp only [Signature.Valid, Signature.read, Signature.write, Signature.det, Sign.mul, Sign.Positive, Sign.Negative]
    cases same' <;> cases a <;> cases b <;> cases c <;> simp
  · rintro ⟨⟨x⟩, ⟨y⟩, ⟨z⟩⟩ h
    simp only [Signature.read] at h
    split at h
    · rename_i hd
      simp only [Option.some.injEq, Signature.mk.injEq, Sign.mk.injEq] at h
      obtain ⟨rfl, rfl, rfl, rfl⟩ := h
      refine ⟨?_, rfl, rfl⟩
      revert hd
      simp only [Signature.Valid, Signature.det, Sign.mul, Sign.Positive, Sign.Negative]
      cases same <;> cases x <;> cases y <;> cases z <;> simp
    · cases h

end

/-- A signature that reverses the orientation. -/
example : (Signature.ofXZ false .Negative .Positive).Valid ∧ (Signature.ofXZ false .Negative .Positive).y = .Positive := ⟨rfl, rfl⟩

end Principia.Geometry
