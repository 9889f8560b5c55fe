import Verif.Physics.EulerSolverSpec
import Verif.Geometry.MapsProps
import Mathlib.Analysis.Calculus.MeanValue
import Mathlib.Tactic.FieldSimp
import Mathlib.Tactic.LinearCombination
import Mathlib.Tactic.Linarith
import Mathlib.Tactic.Positivity
import Mathlib.Analysis.SpecialFunctions.Trigonometric.Deriv
import Mathlib.Analysis.Calculus.Deriv.Inv

/-!
The derivative of the attitude: the part that does not depend on the formula.
-/

set_option linter.unusedSimpArgs false
set_option linter.unusedVariables false

namespace Principia.Physics.Euler

open Geometry

/-- The rotation that brings `m` on the third axis along the shortest path. -/
noncomputable def swing₃ (G : ℝ) (m v : R3 ℝ) : R3 ℝ :=
  ⟨v.x - m.x * (m.x * v.x + m.y * v.y) / (G * (G + m.z)) - m.x * v.z / G,
   v.y - m.y * (m.x * v.x + m.y * v.y) / (G * (G + m.z)) - m.y * v.z / G,
   (m.x * v.x + m.y * v.y + m.z * v.z) / G⟩

/-- The rotation that brings `m` on the first axis along the shortest path. -/
noncomputable def swing₁ (G : ℝ) (m v : R3 ℝ) : R3 ℝ :=
  ⟨(m.x * v.x + m.y * v.y + m.z * v.z) / G,
   v.y - m.y * (m.y * v.y + m.z * v.z) / (G * (G + m.x)) - m.y * v.x / G,
   v.z - m.z * (m.y * v.y + m.z * v.z) / (G * (G + m.x)) - m.z * v.x / G⟩

theorem half_angle {G a : ℝ} (hG : 0 < G) (ha : 0 < G + a) :
    ∃ k r : ℝ, r = √(0.5 * (1 + a / G)) ∧ 0 < r ∧ 1 / (2 * G * r) = k ∧ r * r = (G + a) / (2 * G) ∧ k * r = 1 / (2 * G) ∧ 2 * (k * k) = 1 / (G * (G + a)) := by
  have h : 0.5 * (1 + a / G) = (G + a) / (2 * G) := by field_simp; norm_num
  have hp : 0 < (G + a) / (2 * G) := by positivity
  have hr : 0 < √((G + a) / (2 * G)) := Real.sqrt_pos.2 hp
  have hs : √((G + a) / (2 * G)) * √((G + a) / (2 * G)) = (G + a) / (2 * G) := Real.mul_self_sqrt hp.le
  rw [h]
  refine ⟨_, _, rfl, hr, rfl, hs, ?_, ?_⟩
  · field_simp
  · rw [div_mul_div_comm, show 2 * G * √((G + a) / (2 * G)) * (2 * G * √((G + a) / (2 * G))) = 4 * G * G * (√((G + a) / (2 * G)) * √((G + a) / (2 * G))) by ring, hs]
    field_simp
    norm_num

theorem computeP_e₃ {G : ℝ} {m : R3 ℝ} (hG : 0 < G) (hm : m.normSq = G ^ 2) (h : 0 < G + m.z) :
    (computeP .e₃ G m).IsUnit ∧ ∀ v, (computeP .e₃ G m).apply v = swing₃ G m v := by
  obtain ⟨k, r, e, hr, hk, h1, h2, h3⟩ := half_angle hG h
  have hq : computeP .e₃ G m = ⟨⟨r, ⟨m.y * k, -m.x * k, 0⟩⟩⟩ := by
    simp only [computeP, ← e, ← hk]
    simp only [mul_one_div]
  rw [hq]
  have hm' : m.x * m.x + m.y * m.y = (G - m.z) * (G + m.z) := by simp only [R3.normSq] at hm; linear_combination hm
  have h4 : (m.x * m.x + m.y * m.y) * (1 / (G * (G + m.z))) = (G - m.z) / G := by rw [hm']; field_simp
  refine ⟨?_, fun v => ?_⟩
  · simp only [Rotation.IsUnit, Quat.normSq, R3.normSq]
    have : r * r + (m.y * k * (m.y * k) + -m.x * k * (-m.x * k) + 0 * 0) = r * r + (m.x * m.x + m.y * m.y) * (2 * (k * k)) / 2 := by ring
    rw [this, h1, h3, h4]
    field_simp
    ring
  · ext <;> simp only [Rotation.apply, swing₃, R3.cross, R3.add_x, R3.add_y, R3.add_z, R3.smul_x, R3.smul_y, R3.smul_z]
    · linear_combination (-m.x * (m.x * v.x + m.y * v.y)) * h3 + (-2 * m.x * v.z) * h2
    · linear_combination (-m.y * (m.x * v.x + m.y * v.y)) * h3 + (-2 * m.y * v.z) * h2
    · have : v.z + 2 * (m.y * k * (0 * v.x - m.y * k * v.z + r * v.y) - -m.x * k * (-m.x * k * v.z - 0 * v.y + r * v.x)) =
          v.z - ((m.x * m.x + m.y * m.y) * (2 * (k * k))) * v.z + 2 * (k * r) * (m.x * v.x + m.y * v.y) := by ring
      rw [this, h3, h4, h2]
      field_simp
      ring

theorem computeP_e₁ {G : ℝ} {m : R3 ℝ} (hG : 0 < G) (hm : m.normSq = G ^ 2) (h : 0 < G + m.x) :
    (computeP .e₁ G m).IsUnit ∧ ∀ v, (computeP .e₁ G m).apply v = swing₁ G m v := by
  obtain ⟨k, r, e, hr, hk, h1, h2, h3⟩ := half_angle hG h
  have hq : computeP .e₁ G m = ⟨⟨r, ⟨0, m.z * k, -m.y * k⟩⟩⟩ := by
    simp only [computeP, ← e, ← hk]
    simp only [mul_one_div]
  rw [hq]
  have hm' : m.y * m.y + m.z * m.z = (G - m.x) * (G + m.x) := by simp only [R3.normSq] at hm; linear_combination hm
  have h4 : (m.y * m.y + m.z * m.z) * (1 / (G * (G + m.x))) = (G - m.x) / G := by rw [hm']; field_simp
  refine ⟨?_, fun v => ?_⟩
  · simp only [Rotation.IsUnit, Quat.normSq, R3.normSq]
    have : r * r + (0 * 0 + m.z * k * (m.z * k) + -m.y * k * (-m.y * k)) = r * r + (m.y * m.y + m.z * m.z) * (2 * (k * k)) / 2 := by ring
    rw [this, h1, h3, h4]
    field_simp
    ring
  · ext <;> simp only [Rotation.apply, swing₁, R3.cross, R3.add_x, R3.add_y, R3.add_z, R3.smul_x, R3.smul_y, R3.smul_z]
    · have : v.x + 2 * (m.z * k * (0 * v.y - m.z * k * v.x + r * v.z) - -m.y * k * (-m.y * k * v.x - 0 * v.z + r * v.y)) =
          v.x - ((m.y * m.y + m.z * m.z) * (2 * (k * k))) * v.x + 2 * (k * r) * (m.y * v.y + m.z * v.z) := by ring
      rw [this, h3, h4, h2]
      field_simp
      ring
    · linear_combination (-m.y * (m.y * v.y + m.z * v.z)) * h3 + (-2 * m.y * v.x) * h2
    · linear_combination (-m.z * (m.y * v.y + m.z * v.z)) * h3 + (-2 * m.z * v.x) * h2

theorem _root_.Principia.Geometry.HasDeriv.rotation {f : ℝ → R3 ℝ} {f' : R3 ℝ} {t : ℝ} (r : Rotation ℝ) (h : HasDeriv f f' t) :
    HasDeriv (fun s => r.apply (f s)) (r.apply f') t := by
  have hc := HasDeriv.const (t := t) r.quaternion.im
  have := h.add (HasDeriv.const_smul 2 (hc.cross ((hc.cross h).add (HasDeriv.const_smul r.quaternion.re h))))
  refine this.congr_deriv ?_
  ext <;> simp [Rotation.apply, R3.cross]

theorem axisTurn₃ (ψ : ℝ) (v : R3 ℝ) :
    Rotation.apply ⟨Rotation.angleAxis ψ ⟨0, 0, 1⟩⟩ v = ⟨v.x * Real.cos ψ - v.y * Real.sin ψ, v.x * Real.sin ψ + v.y * Real.cos ψ, v.z⟩ := by
  have e : ψ = 2 * (1 / 2 * ψ) := by ring
  have hc : Real.cos ψ = 1 - 2 * Real.sin (1 / 2 * ψ) ^ 2 := by
    conv_lhs => rw [e]
    rw [Real.cos_two_mul, Real.cos_sq']
    ring
  have hs : Real.sin ψ = 2 * Real.sin (1 / 2 * ψ) * Real.cos (1 / 2 * ψ) := by
    conv_lhs => rw [e]
    exact Real.sin_two_mul _
  rw [hc, hs]
  ext <;> simp [Rotation.apply, Rotation.angleAxis, R3.cross] <;> ring

theorem axisTurn₁ (ψ : ℝ) (v : R3 ℝ) :
    Rotation.apply ⟨Rotation.angleAxis ψ ⟨1, 0, 0⟩⟩ v = ⟨v.x, v.y * Real.cos ψ - v.z * Real.sin ψ, v.y * Real.sin ψ + v.z * Real.cos ψ⟩ := by
  have e : ψ = 2 * (1 / 2 * ψ) := by ring
  have hc : Real.cos ψ = 1 - 2 * Real.sin (1 / 2 * ψ) ^ 2 := by
    conv_lhs => rw [e]
    rw [Real.cos_two_mul, Real.cos_sq']
    ring
  have hs : Real.sin ψ = 2 * Real.sin (1 / 2 * ψ) * Real.cos (1 / 2 * ψ) := by
    conv_lhs => rw [e]
    exact Real.sin_two_mul _
  rw [hc, hs]
  ext <;> simp [Rotation.apply, Rotation.angleAxis, R3.cross] <;> ring

/-- A function which is an angle up to a multiple of 2π, with its derivative. -/
structure TurnsAt (ψ : ℝ → ℝ) (ψ' t : ℝ) : Prop where
  cos : HasDerivAt (fun s => Real.cos (ψ s)) (-Real.sin (ψ t) * ψ') t
  sin : HasDerivAt (fun s => Real.sin (ψ s)) (Real.cos (ψ t) * ψ') t

theorem swing₃_deriv {G : ℝ} {M : ℝ → R3 ℝ} {Ω : R3 ℝ} {t : ℝ} (hG : 0 < G) (hm : (M t).normSq = G ^ 2) (h : 0 < G + (M t).z)
    (hM : HasDeriv M ((M t).cross Ω) t) (v : R3 ℝ) :
    HasDeriv (fun s => swing₃ G (M s) v)
      (swing₃ G (M t) (Ω.cross v) - (((M t).dot Ω + G * Ω.z) / (G + (M t).z)) • R3.cross ⟨0, 0, 1⟩ (swing₃ G (M t) v)) t := by
  have hd : G * (G + (M t).z) ≠ 0 := by positivity
  have hlin := ((hM.x.mul_const v.x).add (hM.y.mul_const v.y))
  have hden := (hM.z.const_add G).const_mul G
  have hx := (((hM.x.mul hlin).div hden hd).const_sub v.x).sub ((hM.x.mul_const v.z).div_const G)
  have hy := (((hM.y.mul hlin).div hden hd).const_sub v.y).sub ((hM.y.mul_const v.z).div_const G)
  have hz := (hlin.add (hM.z.mul_const v.z)).div_const G
  have hm' : (M t).x ^ 2 + (M t).y ^ 2 + (M t).z ^ 2 = G ^ 2 := by simp only [R3.normSq] at hm; linear_combination hm
  refine ⟨hx.congr_deriv ?_, hy.congr_deriv ?_, hz.congr_deriv ?_⟩ <;>
    simp only [swing₃, R3.cross, R3.dot, R3.sub_x, R3.sub_y, R3.sub_z, R3.smul_x, R3.smul_y, R3.smul_z, Pi.add_apply, Pi.mul_apply] <;>
    generalize (M t).x = x at * <;> generalize (M t).y = y at * <;> generalize (M t).z = z at * <;>
    field_simp
  · grind
  · grind
  · grind

theorem swing₁_deriv {G : ℝ} {M : ℝ → R3 ℝ} {Ω : R3 ℝ} {t : ℝ} (hG : 0 < G) (hm : (M t).normSq = G ^ 2) (h : 0 < G + (M t).x)
    (hM : HasDeriv M ((M t).cross Ω) t) (v : R3 ℝ) :
    HasDeriv (fun s => swing₁ G (M s) v)
      (swing₁ G (M t) (Ω.cross v) - (((M t).dot Ω + G * Ω.x) / (G + (M t).x)) • R3.cross ⟨1, 0, 0⟩ (swing₁ G (M t) v)) t := by
  have hd : G * (G + (M t).x) ≠ 0 := by positivity
  have hlin := ((hM.y.mul_const v.y).add (hM.z.mul_const v.z))
  have hden := (hM.x.const_add G).const_mul G
  have hy := (((hM.y.mul hlin).div hden hd).const_sub v.y).sub ((hM.y.mul_const v.x).div_const G)
  have hz := (((hM.z.mul hlin).div hden hd).const_sub v.z).sub ((hM.z.mul_const v.x).div_const G)
  have hx := (((hM.x.mul_const v.x).add (hM.y.mul_const v.y)).add (hM.z.mul_const v.z)).div_const G
  have hm' : (M t).x ^ 2 + (M t).y ^ 2 + (M t).z ^ 2 = G ^ 2 := by simp only [R3.normSq] at hm; linear_combination hm
  refine ⟨hx.congr_deriv ?_, hy.congr_deriv ?_, hz.congr_deriv ?_⟩ <;>
    simp only [swing₁, R3.cross, R3.dot, R3.sub_x, R3.sub_y, R3.sub_z, R3.smul_x, R3.smul_y, R3.smul_z, Pi.add_apply, Pi.mul_apply] <;>
    generalize (M t).x = x at * <;> generalize (M t).y = y at * <;> generalize (M t).z = z at * <;>
    field_simp
  · grind
  · grind
  · grind

theorem swing₃_self {G : ℝ} {m : R3 ℝ} (hG : 0 < G) (hm : m.normSq = G ^ 2) (h : 0 < G + m.z) : swing₃ G m m = ⟨0, 0, G⟩ := by
  have hm' : m.x * m.x + m.y * m.y = (G - m.z) * (G + m.z) := by simp only [R3.normSq] at hm; linear_combination hm
  simp only [R3.normSq] at hm
  ext <;> simp only [swing₃]
  · rw [hm']; field_simp; ring
  · rw [hm']; field_simp; ring
  · rw [hm]; field_simp

theorem swing₁_self {G : ℝ} {m : R3 ℝ} (hG : 0 < G) (hm : m.normSq = G ^ 2) (h : 0 < G + m.x) : swing₁ G m m = ⟨G, 0, 0⟩ := by
  have hm' : m.y * m.y + m.z * m.z = (G - m.x) * (G + m.x) := by simp only [R3.normSq] at hm; linear_combination hm
  simp only [R3.normSq] at hm
  ext <;> simp only [swing₁]
  · rw [hm]; field_simp
  · rw [hm']; field_simp; ring
  · rw [hm']; field_simp; ring

theorem turn₃_deriv {G : ℝ} {M : ℝ → R3 ℝ} {ψ : ℝ → ℝ} {Ω : R3 ℝ} {t : ℝ} (hG : 0 < G) (hm : (M t).normSq = G ^ 2) (h : 0 < G + (M t).z)
    (hM : HasDeriv M ((M t).cross Ω) t) (hψ : TurnsAt ψ (((M t).dot Ω + G * Ω.z) / (G + (M t).z)) t) (v : R3 ℝ) :
    HasDeriv (fun s => Rotation.apply ⟨Rotation.angleAxis (ψ s) ⟨0, 0, 1⟩⟩ (swing₃ G (M s) v))
      (Rotation.apply ⟨Rotation.angleAxis (ψ t) ⟨0, 0, 1⟩⟩ (swing₃ G (M t) (Ω.cross v))) t := by
  have hp := swing₃_deriv hG hm h hM v
  simp only [axisTurn₃]
  generalize ((M t).dot Ω + G * Ω.z) / (G + (M t).z) = ψ' at *
  generalize swing₃ G (M t) (Ω.cross v) = q at *
  refine ⟨((hp.x.mul hψ.cos).sub (hp.y.mul hψ.sin)).congr_deriv ?_, ((hp.x.mul hψ.sin).add (hp.y.mul hψ.cos)).congr_deriv ?_, hp.z.congr_deriv ?_⟩ <;>
    simp [R3.cross] <;> ring

theorem turn₁_deriv {G : ℝ} {M : ℝ → R3 ℝ} {ψ : ℝ → ℝ} {Ω : R3 ℝ} {t : ℝ} (hG : 0 < G) (hm : (M t).normSq = G ^ 2) (h : 0 < G + (M t).x)
    (hM : HasDeriv M ((M t).cross Ω) t) (hψ : TurnsAt ψ (((M t).dot Ω + G * Ω.x) / (G + (M t).x)) t) (v : R3 ℝ) :
    HasDeriv (fun s => Rotation.apply ⟨Rotation.angleAxis (ψ s) ⟨1, 0, 0⟩⟩ (swing₁ G (M s) v))
      (Rotation.apply ⟨Rotation.angleAxis (ψ t) ⟨1, 0, 0⟩⟩ (swing₁ G (M t) (Ω.cross v))) t := by
  have hp := swing₁_deriv hG hm h hM v
  simp only [axisTurn₁]
  generalize ((M t).dot Ω + G * Ω.x) / (G + (M t).x) = ψ' at *
  generalize swing₁ G (M t) (Ω.cross v) = q at *
  refine ⟨hp.x.congr_deriv ?_, ((hp.y.mul hψ.cos).sub (hp.z.mul hψ.sin)).congr_deriv ?_, ((hp.y.mul hψ.sin).add (hp.z.mul hψ.cos)).congr_deriv ?_⟩ <;>
    simp [R3.cross] <;> ring

/-! ## The signatures -/

section

variable {S : Signature} (hv : S.Valid) (hs : S.same = true)

include hv hs

theorem signature_rotation : (Rotation.mk (K := ℝ) S.forget).IsUnit ∧ ∀ v : R3 ℝ, (Rotation.mk S.forget).apply v = S.applyBivector v := by
  obtain ⟨h1, h2, h3⟩ := C37_signature_forget (K := ℝ) S hv
  refine ⟨h1, fun v => ?_⟩
  rw [← (h3 v).2, OrthogonalMap.applyBivector_eq]
  rfl

theorem signature_involutive (v : R3 ℝ) : S.applyBivector (S.applyBivector v) = v := by
  obtain ⟨same, ⟨a⟩, ⟨b⟩, ⟨c⟩⟩ := S
  subst hs
  cases a <;> cases b <;> cases c <;> simp [Signature.applyBivector, Signature.det, Sign.mul, Sign.act, Sign.Positive]

theorem signature_angularVelocity (I m : R3 ℝ) : S.applyBivector (angularVelocity I m) = angularVelocity I (S.applyBivector m) := by
  obtain ⟨same, ⟨a⟩, ⟨b⟩, ⟨c⟩⟩ := S
  subst hs
  cases a <;> cases b <;> cases c <;> simp [Signature.applyBivector, Signature.det, Sign.mul, Sign.act, Sign.Positive, angularVelocity, neg_div]

end

/-! ## The whole attitude -/

theorem constant_of_euler {I : R3 ℝ} {M : ℝ → R3 ℝ} (hM : ∀ t, HasDeriv M ((M t).cross (angularVelocity I (M t))) t) (t₀ t : ℝ) :
    (M t).normSq = (M t₀).normSq ∧ (M t).dot (angularVelocity I (M t)) = (M t₀).dot (angularVelocity I (M t₀)) := by
  constructor
  · refine is_const_of_deriv_eq_zero (f := fun t => (M t).normSq) (fun t => (hM t).normSq.differentiableAt) (fun t => ?_) t t₀
    rw [(hM t).normSq.deriv]
    simp [R3.dot, R3.cross]; ring
  · have h : ∀ t, HasDerivAt (fun s => (M s).dot (angularVelocity I (M s))) 0 t := by
      intro t
      have hω : HasDeriv (fun s => angularVelocity I (M s)) (angularVelocity I ((M t).cross (angularVelocity I (M t)))) t :=
        ⟨(hM t).x.div_const _, (hM t).y.div_const _, (hM t).z.div_const _⟩
      refine ((hM t).dot hω).congr_deriv ?_
      simp [R3.dot, R3.cross, angularVelocity]
      ring
    exact is_const_of_deriv_eq_zero (fun t => (h t).differentiableAt) (fun t => (h t).deriv) t t₀

/-- The rate of the angle ψ. -/
noncomputable def rate (region : Region) (G : ℝ) (I m : R3 ℝ) : ℝ :=
  match region with
  | .e₁ => (m.dot (angularVelocity I m) + G * (angularVelocity I m).x) / (G + m.x)
  | .e₃ => (m.dot (angularVelocity I m) + G * (angularVelocity I m).z) / (G + m.z)
  | .Motionless => 0

/-- The coordinate along which the angular momentum is projected. -/
def along (region : Region) (m : R3 ℝ) : ℝ :=
  match region with
  | .e₁ => m.x
  | .e₃ => m.z
  | .Motionless => 0

/-- The motion in the preferred principal axes. -/
structure Preferred (s : EulerSolver) (M : ℝ → R3 ℝ) : Prop where
  valid : s.𝒮.Valid
  same : s.𝒮.same = true
  momentum : ∀ t, s.angularMomentumAt t = s.𝒮.applyBivector (M t)
  initial : M s.initialTime = s.initialAngularMomentum
  norm : s.initialAngularMomentum.normSq = s.G ^ 2
  ψ : s.ψAt s.initialTime = 0
  euler : ∀ t, HasDeriv M ((M t).cross (angularVelocity s.momentsOfInertia (M t))) t
  region : s.region ≠ .Motionless → 0 < s.G ∧ ∀ t, 0 < s.G + along s.region (M t)
  turns : s.region ≠ .Motionless → ∀ t, TurnsAt s.ψAt (rate s.region s.G s.momentsOfInertia (M t)) t
  motionless : s.region = .Motionless → s.G = 0 ∧ ∀ t, s.ψAt t = 0
  unit : s.initialAttitude.IsUnit
  ℛ : s.ℛ = s.initialAttitude.mul (((Rotation.mk s.𝒮.forget).mul (computeP s.region s.G s.initialAngularMomentum).inverse).mul .identity)
  L : s.initialAttitude.apply (s.𝒮.applyBivector s.initialAngularMomentum) = s.serializedInitialAngularMomentum

theorem definesFromFrame_axis (region : Region) (ψ : ℝ) :
    Rotation.definesFromFrame ψ (EulerSolver.axis region) = some ⟨Rotation.angleAxis ψ (EulerSolver.axis region)⟩ := by
  cases region <;> simp [Rotation.definesFromFrame, EulerSolver.axis, R3.normalize, R3.norm, R3.normSq, R3.div]

theorem angleAxis_unit (region : Region) (ψ : ℝ) : (Rotation.mk (Rotation.angleAxis ψ (EulerSolver.axis region))).IsUnit := by
  have := Real.sin_sq_add_cos_sq (1 / 2 * ψ)
  cases region <;> simp [Rotation.IsUnit, Rotation.angleAxis, Quat.normSq, R3.normSq, EulerSolver.axis] <;> simp only [one_div] at this <;> linarith

theorem angleAxis_zero (region : Region) (v : R3 ℝ) : Rotation.apply ⟨Rotation.angleAxis 0 (EulerSolver.axis region)⟩ v = v := by
  cases region <;> ext <;> simp [Rotation.apply, Rotation.angleAxis, R3.cross, EulerSolver.axis]

theorem computeP_unit {s : EulerSolver} {m : R3 ℝ} (hG : s.region ≠ .Motionless → 0 < s.G ∧ 0 < s.G + along s.region m) (hm : m.normSq = s.G ^ 2) :
    (computeP s.region s.G m).IsUnit := by
  cases e : s.region
  · rw [e] at hG
    obtain ⟨h1, h2⟩ := hG (by simp)
    exact (computeP_e₁ h1 hm h2).1
  · rw [e] at hG
    obtain ⟨h1, h2⟩ := hG (by simp)
    exact (computeP_e₃ h1 hm h2).1
  · simp [computeP, Rotation.IsUnit, Quat.ofReal, Quat.normSq, R3.normSq]

theorem Preferred.freeRotation {s : EulerSolver} {M : ℝ → R3 ℝ} (h : Preferred s M) :
    ∃ R, (∀ t, s.attitudeAt (s.angularMomentumAt t) t = some (R t)) ∧
      FreeRotation s.momentsOfInertia s.serializedInitialAngularMomentum s.initialAttitude s.initialTime s.angularMomentumAt R := by
  obtain ⟨hQ, hQa⟩ := signature_rotation h.valid h.same
  have hinv := signature_involutive h.valid h.same
  have hnorm : ∀ t, (M t).normSq = s.G ^ 2 := fun t => by rw [(constant_of_euler h.euler s.initialTime t).1, h.initial, h.norm]
  have hP : ∀ t, (computeP s.region s.G (M t)).IsUnit := fun t => computeP_unit (fun e => ⟨(h.region e).1, (h.region e).2 t⟩) (hnorm t)
  have hP0 : (computeP s.region s.G s.initialAngularMomentum).IsUnit := by rw [← h.initial]; exact hP _
  have hY := fun t => angleAxis_unit s.region (s.ψAt t)
  have hid : (Rotation.identity : Rotation ℝ).IsUnit := (Rotation.C36_inverse s.initialAttitude h.unit 0).2.2.2.1
  have hP0' := (Rotation.C36_inverse _ hP0 0).1
  -- The constant rotation ℛ.
  have hℛ : s.ℛ.IsUnit ∧ ∀ v, s.ℛ.apply v = s.initialAttitude.apply (s.𝒮.applyBivector ((computeP s.region s.G s.initialAngularMomentum).inverse.apply v)) := by
    rw [h.ℛ]
    have h1 := (Rotation.C36_compose _ _ hQ hP0' 0).1
    have h2 := (Rotation.C36_compose _ _ h1 hid 0).1
    refine ⟨(Rotation.C36_compose _ _ h.unit h2 0).1, fun v => ?_⟩
    rw [(Rotation.C36_compose _ _ h.unit h2 v).2, (Rotation.C36_compose _ _ h1 hid v).2, (Rotation.C36_inverse s.initialAttitude h.unit v).2.2.2.2,
      (Rotation.C36_compose _ _ hQ hP0' v).2, hQa]
  -- The attitude.
  let R : ℝ → Rotation ℝ := fun t => ((s.ℛ.mul ⟨Rotation.angleAxis (s.ψAt t) (EulerSolver.axis s.region)⟩).mul (computeP s.region s.G (M t))).mul ⟨s.𝒮.forget⟩
  have hR : ∀ t, (R t).IsUnit ∧ ∀ v, (R t).apply v =
      s.ℛ.apply (Rotation.apply ⟨Rotation.angleAxis (s.ψAt t) (EulerSolver.axis s.region)⟩ ((computeP s.region s.G (M t)).apply (s.𝒮.applyBivector v))) := by
    intro t
    have h1 := (Rotation.C36_compose _ _ hℛ.1 (hY t) 0).1
    have h2 := (Rotation.C36_compose _ _ h1 (hP t) 0).1
    refine ⟨(Rotation.C36_compose _ _ h2 hQ 0).1, fun v => ?_⟩
    show (((s.ℛ.mul ⟨Rotation.angleAxis (s.ψAt t) (EulerSolver.axis s.region)⟩).mul (computeP s.region s.G (M t))).mul ⟨s.𝒮.forget⟩).apply v = _
    rw [(Rotation.C36_compose _ _ h2 hQ v).2, (Rotation.C36_compose _ _ h1 (hP t) _).2, (Rotation.C36_compose _ _ hℛ.1 (hY t) _).2, hQa]
  -- The angular momentum is brought on the axis.
  have hax : ∀ t, Rotation.apply ⟨Rotation.angleAxis (s.ψAt t) (EulerSolver.axis s.region)⟩ ((computeP s.region s.G (M t)).apply (M t)) =
      (computeP s.region s.G s.initialAngularMomentum).apply s.initialAngularMomentum := by
    intro t
    cases e : s.region
    · have hp := fun t => (h.region (by rw [e]; simp)).2 t
      have hG := (h.region (by rw [e]; simp)).1
      simp only [e, along] at hp
      rw [(computeP_e₁ hG (hnorm t) (hp t)).2, swing₁_self hG (hnorm t) (hp t), ← h.initial, (computeP_e₁ hG (hnorm _) (hp _)).2, swing₁_self hG (hnorm _) (hp _)]
      show Rotation.apply ⟨Rotation.angleAxis _ ⟨1, 0, 0⟩⟩ _ = _
      rw [axisTurn₁]
      ext <;> simp
    · have hp := fun t => (h.region (by rw [e]; simp)).2 t
      have hG := (h.region (by rw [e]; simp)).1
      simp only [e, along] at hp
      rw [(computeP_e₃ hG (hnorm t) (hp t)).2, swing₃_self hG (hnorm t) (hp t), ← h.initial, (computeP_e₃ hG (hnorm _) (hp _)).2, swing₃_self hG (hnorm _) (hp _)]
      show Rotation.apply ⟨Rotation.angleAxis _ ⟨0, 0, 1⟩⟩ _ = _
      rw [axisTurn₃]
      ext <;> simp
    · obtain ⟨hG, h0⟩ := h.motionless e
      have hz : ∀ t, M t = 0 := by
        intro t
        have := hnorm t
        rw [hG] at this
        simp only [R3.normSq] at this
        have := mul_self_nonneg (M t).x
        have := mul_self_nonneg (M t).y
        have := mul_self_nonneg (M t).z
        ext <;> apply mul_self_eq_zero.1 <;> linarith
      rw [h0, hz, ← h.initial, hz, angleAxis_zero]
  refine ⟨R, fun t => ?_, ?_⟩
  · unfold EulerSolver.attitudeAt
    rw [definesFromFrame_axis, h.momentum, hinv]
    rfl
  · refine ⟨fun t => (hR t).1, fun v => ?_, fun t v => ?_, fun t => ?_, fun t => ?_, fun t => ?_⟩
    · rw [(hR _).2, hℛ.2, h.ψ, angleAxis_zero, h.initial, (Rotation.C36_inverse _ hP0 _).2.1, hinv]
    · rw [Rotation.C36_cross _ (hR t).1, (hR t).2]
      have hω : s.𝒮.applyBivector ((angularVelocity s.momentsOfInertia (s.angularMomentumAt t)).cross v) =
          (angularVelocity s.momentsOfInertia (M t)).cross (s.𝒮.applyBivector v) := by
        rw [← hQa, ← Rotation.C36_cross _ hQ, hQa, hQa, signature_angularVelocity h.valid h.same, h.momentum, hinv]
      rw [hω]
      refine HasDeriv.congr_fun (f := fun r => s.ℛ.apply (Rotation.apply ⟨Rotation.angleAxis (s.ψAt r) (EulerSolver.axis s.region)⟩
        ((computeP s.region s.G (M r)).apply (s.𝒮.applyBivector v)))) ?_ (fun r => (hR r).2 v)
      apply HasDeriv.rotation
      generalize s.𝒮.applyBivector v = w
      cases e : s.region
      · have hp := fun t => (h.region (by rw [e]; simp)).2 t
        have hG := (h.region (by rw [e]; simp)).1
        have ht := h.turns (by rw [e]; simp) t
        simp only [e, along, rate] at hp ht
        simp only [fun t w => (computeP_e₁ hG (hnorm t) (hp t)).2 w]
        exact turn₁_deriv hG (hnorm t) (hp t) (h.euler t) ht w
      · have hp := fun t => (h.region (by rw [e]; simp)).2 t
        have hG := (h.region (by rw [e]; simp)).1
        have ht := h.turns (by rw [e]; simp) t
        simp only [e, along, rate] at hp ht
        simp only [fun t w => (computeP_e₃ hG (hnorm t) (hp t)).2 w]
        exact turn₃_deriv hG (hnorm t) (hp t) (h.euler t) ht w
      · obtain ⟨hG, h0⟩ := h.motionless e
        have hz : M t = 0 := by
          have := hnorm t
          rw [hG] at this
          simp only [R3.normSq] at this
          have := mul_self_nonneg (M t).x
          have := mul_self_nonneg (M t).y
          have := mul_self_nonneg (M t).z
          ext <;> apply mul_self_eq_zero.1 <;> linarith
        have hω : angularVelocity s.momentsOfInertia (M t) = 0 := by rw [hz]; ext <;> simp [angularVelocity]
        rw [hω]
        simp only [h0, angleAxis_zero, computeP]
        have hi : ∀ u : R3 ℝ, Rotation.apply ⟨Quat.ofReal 1⟩ u = u := fun u => (Rotation.C36_inverse s.initialAttitude h.unit u).2.2.2.2
        simp only [hi]
        refine (HasDeriv.const w).congr_deriv ?_
        ext <;> simp [R3.cross]
    · rw [h.momentum, ← signature_angularVelocity h.valid h.same, ← hQa, ← hQa, Rotation.C36_cross _ hQ]
      refine HasDeriv.congr_fun (f := fun r => (Rotation.mk s.𝒮.forget).apply (M r)) ((h.euler t).rotation _) (fun r => ?_)
      rw [h.momentum, hQa]
    · rw [(hR t).2, h.momentum, hinv, hax, hℛ.2, (Rotation.C36_inverse _ hP0 _).2.1, h.L]
    · have hdot : ∀ r, (s.angularMomentumAt r).dot (angularVelocity s.momentsOfInertia (s.angularMomentumAt r)) =
          (M r).dot (angularVelocity s.momentsOfInertia (M r)) := by
        intro r
        rw [h.momentum, ← signature_angularVelocity h.valid h.same, ← hQa, ← hQa, Rotation.C36_isometry _ hQ]
      rw [hdot, hdot]
      exact (constant_of_euler h.euler _ _).2

end Principia.Physics.Euler
