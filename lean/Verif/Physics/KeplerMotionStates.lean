import Verif.Physics.KeplerMotionProps
import Mathlib.Tactic.ByContra

/-!
C56: the orbits constructed from state vectors.
-/

set_option linter.unusedSimpArgs false
set_option linter.unusedVariables false
set_option linter.unusedSectionVars false

namespace Principia.Physics.Kepler

open Geometry Real Fl

theorem cos_reduce (θ : ℝ) : Real.cos (reduceAngle θ) = Real.cos θ := by
  rw [reduceAngle, mul_comm, Real.cos_sub_int_mul_two_pi]

theorem sin_reduce (θ : ℝ) : Real.sin (reduceAngle θ) = Real.sin θ := by
  rw [reduceAngle, mul_comm, Real.sin_sub_int_mul_two_pi]

theorem reduce_bounds (θ : ℝ) : 0 ≤ reduceAngle θ ∧ reduceAngle θ < 2 * π := by
  have hp : 0 < 2 * π := by have := Real.pi_pos; positivity
  have h1 := Int.floor_le (θ / (2 * π))
  have h2 := Int.lt_floor_add_one (θ / (2 * π))
  rw [le_div_iff₀ hp] at h1
  rw [div_lt_iff₀ hp] at h2
  constructor <;> rw [reduceAngle] <;> nlinarith

theorem smul_smul' (a b : ℝ) (v : R3 ℝ) : a • b • v = (a * b) • v := by
  ext <;> simp [mul_assoc]

theorem smul_cancel {a : ℝ} (ha : a ≠ 0) {v w : R3 ℝ} (h : a • v = a • w) : v = w := by
  have hx := congrArg R3.x h
  have hy := congrArg R3.y h
  have hz := congrArg R3.z h
  simp only [R3.smul_x, R3.smul_y, R3.smul_z] at hx hy hz
  ext
  · exact mul_left_cancel₀ ha hx
  · exact mul_left_cancel₀ ha hy
  · exact mul_left_cancel₀ ha hz

theorem oriented_smul {k : ℝ} (hk : 0 < k) (v w n : R3 ℝ) : orientedAngleBetween v w (k • n) = orientedAngleBetween v w n := by
  have : (wedge v w).dot (k • n) = k * (wedge v w).dot n := by
    simp only [R3.dot, R3.smul_x, R3.smul_y, R3.smul_z]; ring
  simp only [orientedAngleBetween, Sign.ofReal, this, mul_neg_iff, hk, hk.not_gt, true_and, false_and, or_false]

theorem norm_pos_of_ne {v : R3 ℝ} (h : v ≠ 0) : 0 < v.norm :=
  lt_of_le_of_ne (Real.sqrt_nonneg _) fun h0 => h (Rotation.norm_eq_zero.1 h0.symm)

/-- The vectors from which the constructor computes the elements. -/
noncomputable def eccentricityVector (μ : ℝ) (r v : R3 ℝ) : R3 ℝ := (v.cross (r.cross v)).div μ - r.div r.norm

/-- The specific energy. -/
noncomputable def energy (μ : ℝ) (r v : R3 ℝ) : ℝ := v.normSq / 2 - μ / r.norm

/-- The conic of state vectors. -/
noncomputable def conicOf (μ : ℝ) (r v : R3 ℝ) : Conic := ⟨μ, -μ / (2 * energy μ r v), (eccentricityVector μ r v).norm⟩

/-- The plane computed from state vectors. -/
noncomputable def planeOf (μ : ℝ) (r v : R3 ℝ) : Plane where
  i := (⟨0, 0, 1⟩ : R3 ℝ).angleBetween (r.cross v)
  Ω := reduceAngle (Complex.arg ⟨((⟨0, 0, 1⟩ : R3 ℝ).cross (r.cross v)).x, ((⟨0, 0, 1⟩ : R3 ℝ).cross (r.cross v)).y⟩)
  ω := reduceAngle (orientedAngleBetween ((⟨0, 0, 1⟩ : R3 ℝ).cross (r.cross v)) (eccentricityVector μ r v) (r.cross v))

/-- The true anomaly computed from state vectors. -/
noncomputable def trueAnomalyOf (μ : ℝ) (r v : R3 ℝ) : ℝ := reduceAngle (orientedAngleBetween (eccentricityVector μ r v) r (r.cross v))

section

variable {μ : ℝ} {r v : R3 ℝ}

theorem cross_ne (hh : (r.cross v).x ≠ 0 ∨ (r.cross v).y ≠ 0) : r.cross v ≠ 0 := by
  intro h0
  rw [h0] at hh
  simp at hh

theorem r_ne (hh : r.cross v ≠ 0) : r ≠ 0 := by
  rintro rfl
  apply hh
  ext <;> simp [R3.cross]

/-- The square of the eccentricity. -/
theorem ecc_sq (hμ : 0 < μ) (hr : r ≠ 0) :
    (eccentricityVector μ r v).normSq = 1 + 2 * energy μ r v * (r.cross v).normSq / μ ^ 2 := by
  have hn := norm_pos_of_ne hr
  have hn2 := Rotation.norm_mul_self r
  rw [energy]
  generalize hρ : r.norm = ρ at hn hn2
  have h1 : (eccentricityVector μ r v).normSq = v.normSq * (r.cross v).normSq / μ ^ 2 - 2 * (r.cross v).normSq / (μ * ρ) + r.normSq / ρ ^ 2 := by
    rw [eccentricityVector, hρ]
    simp only [R3.normSq, R3.sub_x, R3.sub_y, R3.sub_z, R3.div, R3.cross]
    field_simp
    ring
  rw [h1, ← hn2]
  field_simp
  ring

theorem ecc_dot (hμ : 0 < μ) (hr : r ≠ 0) : (eccentricityVector μ r v).dot r = (r.cross v).normSq / μ - r.norm := by
  have hn := norm_pos_of_ne hr
  have hn2 := Rotation.norm_mul_self r
  generalize hρ : r.norm = ρ at hn hn2
  have h1 : (eccentricityVector μ r v).dot r = (r.cross v).normSq / μ - r.normSq / ρ := by
    rw [eccentricityVector, hρ]
    simp only [R3.normSq, R3.dot, R3.sub_x, R3.sub_y, R3.sub_z, R3.div, R3.cross]
    field_simp
    ring
  rw [h1, ← hn2]
  field_simp

theorem conic_ell (hμ : 0 < μ) (hh : r.cross v ≠ 0) (hε : energy μ r v ≠ 0) : (conicOf μ r v).ℓ = (r.cross v).normSq / μ := by
  have h1 := ecc_sq (v := v) hμ (r_ne hh)
  rw [← Rotation.norm_mul_self] at h1
  simp only [conicOf, Conic.ℓ]
  rw [sq, h1]
  field_simp
  ring

theorem normSq_pos {w : R3 ℝ} (h : w ≠ 0) : 0 < w.normSq := by
  rw [← Rotation.norm_mul_self]
  have := norm_pos_of_ne h
  positivity

theorem conic_cases (hμ : 0 < μ) (hh : r.cross v ≠ 0) (hε : energy μ r v ≠ 0) :
    (energy μ r v < 0 ∧ (conicOf μ r v).IsEllipse) ∨ (0 < energy μ r v ∧ (conicOf μ r v).IsHyperbola) := by
  have h1 := ecc_sq (v := v) hμ (r_ne hh)
  have hp := normSq_pos hh
  rw [← Rotation.norm_mul_self] at h1
  have he : 0 ≤ (eccentricityVector μ r v).norm := Real.sqrt_nonneg _
  rcases lt_or_gt_of_ne hε with h | h
  · left
    refine ⟨h, hμ, ?_, he, ?_⟩
    · exact div_pos_of_neg_of_neg (by linarith) (by linarith)
    · have : 2 * energy μ r v * (r.cross v).normSq / μ ^ 2 < 0 := div_neg_of_neg_of_pos (mul_neg_of_neg_of_pos (by linarith) hp) (by positivity)
      show (eccentricityVector μ r v).norm < 1
      nlinarith
  · right
    refine ⟨h, hμ, ?_, ?_⟩
    · exact div_neg_of_neg_of_pos (by linarith) (by linarith)
    · have : 0 < 2 * energy μ r v * (r.cross v).normSq / μ ^ 2 := by positivity
      show 1 < (eccentricityVector μ r v).norm
      nlinarith

/-! ### The plane -/

theorem plane_facts (hh : (r.cross v).x ≠ 0 ∨ (r.cross v).y ≠ 0) :
    (r.cross v) = (r.cross v).norm • (planeOf μ r v).normal ∧
      ((⟨0, 0, 1⟩ : R3 ℝ).cross (r.cross v)) = ((⟨0, 0, 1⟩ : R3 ℝ).cross (r.cross v)).norm • (planeOf μ r v).node ∧
      0 < ((⟨0, 0, 1⟩ : R3 ℝ).cross (r.cross v)).norm := by
  have h0 := norm_pos_of_ne (cross_ne hh)
  obtain ⟨-, -, h1, h2⟩ := C37_angle_between ⟨0, 0, 1⟩ (r.cross v)
  simp only [planeOf, Plane.normal, Plane.node, cos_reduce, sin_reduce]
  generalize r.cross v = h at *
  have hz : (⟨0, 0, 1⟩ : R3 ℝ).norm = 1 := norm_of_sq (by norm_num) (by simp [R3.normSq])
  have hw : wedge (⟨0, 0, 1⟩ : R3 ℝ) h = (⟨0, 0, 1⟩ : R3 ℝ).cross h := rfl
  rw [hz, one_mul] at h1 h2
  rw [hw] at h2
  have hne : (⟨0, 0, 1⟩ : R3 ℝ).cross h ≠ 0 := by
    intro h0
    have hx := congrArg R3.x h0
    have hy := congrArg R3.y h0
    simp [R3.cross] at hx hy
    simp [hx, hy] at hh
  have hρ := norm_pos_of_ne hne
  have hρ2 := Rotation.norm_mul_self ((⟨0, 0, 1⟩ : R3 ℝ).cross h)
  have hd : (⟨0, 0, 1⟩ : R3 ℝ).dot h = h.z := by simp [R3.dot]
  rw [hd] at h1
  generalize hρ' : ((⟨0, 0, 1⟩ : R3 ℝ).cross h).norm = ρ at *
  have hnx : ((⟨0, 0, 1⟩ : R3 ℝ).cross h).x = -h.y := by simp [R3.cross]
  have hny : ((⟨0, 0, 1⟩ : R3 ℝ).cross h).y = h.x := by simp [R3.cross]
  have hnz : ((⟨0, 0, 1⟩ : R3 ℝ).cross h).z = 0 := by simp [R3.cross]
  rw [R3.normSq, hnx, hny, hnz] at hρ2
  obtain ⟨hc, hs⟩ := arg_cs (x := -h.y) (y := h.x) hρ (by linear_combination -hρ2)
  refine ⟨?_, ?_, hρ⟩
  · rw [hnx, hny, hc, hs]
    ext <;> simp only [R3.smul_x, R3.smul_y, R3.smul_z]
    · rw [show h.norm * (h.x / ρ * Real.sin ((⟨0, 0, 1⟩ : R3 ℝ).angleBetween h)) = h.x / ρ * (Real.sin ((⟨0, 0, 1⟩ : R3 ℝ).angleBetween h) * h.norm) by ring, h2]
      field_simp
    · rw [show h.norm * (-(-h.y / ρ) * Real.sin ((⟨0, 0, 1⟩ : R3 ℝ).angleBetween h)) = h.y / ρ * (Real.sin ((⟨0, 0, 1⟩ : R3 ℝ).angleBetween h) * h.norm) by ring, h2]
      field_simp
    · rw [mul_comm, h1]
  · rw [hnx, hny, hc, hs]
    ext <;> simp only [R3.smul_x, R3.smul_y, R3.smul_z]
    · rw [hnx]; field_simp
    · rw [hny]; field_simp
    · rw [hnz, mul_zero]

theorem normal_unit (p : Plane) : p.normal.dot p.normal = 1 := by
  rw [← p.apply_normal, p.apply_dot]; simp [R3.dot]

theorem normal_node (p : Plane) : p.normal.dot p.node = 0 := by
  simp only [Plane.normal, Plane.node, R3.dot]; ring

theorem normal_dot_of {p : Plane} {k : ℝ} (hk : k ≠ 0) {h w : R3 ℝ} (hh : h = k • p.normal) (hw : h.dot w = 0) : p.normal.dot w = 0 := by
  rw [hh] at hw
  have : (k • p.normal).dot w = k * p.normal.dot w := by simp only [R3.dot, R3.smul_x, R3.smul_y, R3.smul_z]; ring
  rw [this] at hw
  exact (mul_eq_zero.1 hw).resolve_left hk

theorem cross_dot_ecc (hμ : μ ≠ 0) : (r.cross v).dot (eccentricityVector μ r v) = 0 := by
  have : ∀ ρ : ℝ, (r.cross v).dot ((v.cross (r.cross v)).div μ - r.div ρ) = 0 := by
    intro ρ
    simp only [R3.dot, R3.sub_x, R3.sub_y, R3.sub_z, R3.div, R3.cross]
    ring
  exact this _

theorem cross_dot_r : (r.cross v).dot r = 0 := by
  simp only [R3.dot, R3.cross]; ring

theorem ecc_periapsis (hμ : 0 < μ) (hh : (r.cross v).x ≠ 0 ∨ (r.cross v).y ≠ 0) :
    eccentricityVector μ r v = (eccentricityVector μ r v).norm • (planeOf μ r v).periapsis := by
  obtain ⟨f1, f2, f3⟩ := plane_facts (μ := μ) hh
  have h0 := norm_pos_of_ne (cross_ne hh)
  set p := planeOf μ r v with hp
  have hor := C37_oriented_angle_between ((⟨0, 0, 1⟩ : R3 ℝ).cross (r.cross v)) (eccentricityVector μ r v) p.normal (normal_unit p)
    (by
      rw [f2]
      have : p.normal.dot (((⟨0, 0, 1⟩ : R3 ℝ).cross (r.cross v)).norm • p.node) = ((⟨0, 0, 1⟩ : R3 ℝ).cross (r.cross v)).norm * p.normal.dot p.node := by
        simp only [R3.dot, R3.smul_x, R3.smul_y, R3.smul_z]; ring
      rw [this, normal_node, mul_zero])
    (normal_dot_of h0.ne' f1 (cross_dot_ecc hμ.ne'))
  have h3 := hor.2.2
  have hω : Real.cos p.ω = Real.cos (orientedAngleBetween ((⟨0, 0, 1⟩ : R3 ℝ).cross (r.cross v)) (eccentricityVector μ r v) p.normal) ∧
      Real.sin p.ω = Real.sin (orientedAngleBetween ((⟨0, 0, 1⟩ : R3 ℝ).cross (r.cross v)) (eccentricityVector μ r v) p.normal) := by
    rw [← oriented_smul h0 _ _ p.normal, ← f1, hp]
    simp only [planeOf, cos_reduce, sin_reduce, and_self]
  have hn := normal_node p
  generalize hρ : ((⟨0, 0, 1⟩ : R3 ℝ).cross (r.cross v)).norm = ρ at *
  generalize orientedAngleBetween ((⟨0, 0, 1⟩ : R3 ℝ).cross (r.cross v)) (eccentricityVector μ r v) p.normal = α at *
  rw [f2] at h3
  apply smul_cancel f3.ne'
  rw [← h3]
  rw [smul_smul', Plane.periapsis, Plane.direction, hω.1, hω.2, rodrigues]
  simp only [R3.dot] at hn
  ext <;> simp only [R3.dot, R3.cross, R3.add_x, R3.add_y, R3.add_z, R3.smul_x, R3.smul_y, R3.smul_z]
  · linear_combination (eccentricityVector μ r v).norm * (1 - Real.cos α) * ρ * p.normal.x * hn
  · linear_combination (eccentricityVector μ r v).norm * (1 - Real.cos α) * ρ * p.normal.y * hn
  · linear_combination (eccentricityVector μ r v).norm * (1 - Real.cos α) * ρ * p.normal.z * hn

theorem position_direction (hμ : 0 < μ) (hh : (r.cross v).x ≠ 0 ∨ (r.cross v).y ≠ 0) (he : eccentricityVector μ r v ≠ 0) :
    r = r.norm • (planeOf μ r v).rotation.apply ⟨Real.cos (trueAnomalyOf μ r v), Real.sin (trueAnomalyOf μ r v), 0⟩ := by
  obtain ⟨f1, -, -⟩ := plane_facts (μ := μ) hh
  have h0 := norm_pos_of_ne (cross_ne hh)
  have hP := ecc_periapsis hμ hh
  have he0 := norm_pos_of_ne he
  set p := planeOf μ r v with hp
  have hor := C37_oriented_angle_between (eccentricityVector μ r v) r p.normal (normal_unit p) (normal_dot_of h0.ne' f1 (cross_dot_ecc hμ.ne'))
    (normal_dot_of h0.ne' f1 cross_dot_r)
  have h3 := hor.2.2
  rw [← oriented_smul h0 _ _ p.normal, ← f1] at h3
  have hν : Real.cos (trueAnomalyOf μ r v) = Real.cos (orientedAngleBetween (eccentricityVector μ r v) r (r.cross v)) ∧
      Real.sin (trueAnomalyOf μ r v) = Real.sin (orientedAngleBetween (eccentricityVector μ r v) r (r.cross v)) := by
    simp only [trueAnomalyOf, cos_reduce, sin_reduce, and_self]
  rw [hν.1, hν.2]
  generalize orientedAngleBetween (eccentricityVector μ r v) r (r.cross v) = α at *
  generalize (eccentricityVector μ r v).norm = e at *
  apply smul_cancel he0.ne'
  rw [← h3, hP, ← p.apply_periapsis, ← p.apply_normal, rodrigues]
  simp only [← p.apply_smul, p.apply_cross, p.apply_dot, ← p.apply_add]
  congr 1
  ext <;> simp [R3.cross, R3.dot] <;> ring

theorem r_norm (hμ : 0 < μ) (hh : (r.cross v).x ≠ 0 ∨ (r.cross v).y ≠ 0) (he : eccentricityVector μ r v ≠ 0) (hε : energy μ r v ≠ 0) :
    r.norm * (1 + (conicOf μ r v).e * Real.cos (trueAnomalyOf μ r v)) = (conicOf μ r v).ℓ := by
  have h1 := ecc_dot (v := v) hμ (r_ne (cross_ne hh))
  have h2 : (eccentricityVector μ r v).dot r = r.norm * (eccentricityVector μ r v).norm * Real.cos (trueAnomalyOf μ r v) := by
    refine (congrArg₂ R3.dot (ecc_periapsis hμ hh) (position_direction hμ hh he)).trans ?_
    rw [← Plane.apply_periapsis, ← Plane.apply_smul, ← Plane.apply_smul, Plane.apply_dot]
    simp [R3.dot]
    ring
  rw [conic_ell hμ (cross_ne hh) hε]
  show r.norm * (1 + (eccentricityVector μ r v).norm * _) = _
  linarith

theorem one_add_pos (hμ : 0 < μ) (hh : (r.cross v).x ≠ 0 ∨ (r.cross v).y ≠ 0) (he : eccentricityVector μ r v ≠ 0) (hε : energy μ r v ≠ 0) :
    0 < 1 + (conicOf μ r v).e * Real.cos (trueAnomalyOf μ r v) := by
  have h1 := r_norm hμ hh he hε
  have h2 : 0 < (conicOf μ r v).ℓ := by
    rw [conic_ell hμ (cross_ne hh) hε]
    have := normSq_pos (cross_ne hh)
    positivity
  have h3 := norm_pos_of_ne (r_ne (cross_ne hh))
  rw [← h1] at h2
  exact (mul_pos_iff_of_pos_left h3).1 h2

theorem position_eq (hμ : 0 < μ) (hh : (r.cross v).x ≠ 0 ∨ (r.cross v).y ≠ 0) (he : eccentricityVector μ r v ≠ 0) (hε : energy μ r v ≠ 0) :
    (planeOf μ r v).rotation.apply ((conicOf μ r v).planePosition (Real.cos (trueAnomalyOf μ r v)) (Real.sin (trueAnomalyOf μ r v))) = r := by
  have h1 := r_norm hμ hh he hε
  have h2 := one_add_pos hμ hh he hε
  have h3 : r.norm = (conicOf μ r v).ℓ / (1 + (conicOf μ r v).e * Real.cos (trueAnomalyOf μ r v)) := by
    rw [eq_div_iff h2.ne', h1]
  rw [Conic.planePosition, Plane.apply_smul, ← h3, ← position_direction hμ hh he]

theorem velocity_eq (hμ : 0 < μ) (hh : (r.cross v).x ≠ 0 ∨ (r.cross v).y ≠ 0) (he : eccentricityVector μ r v ≠ 0) (hε : energy μ r v ≠ 0) :
    (planeOf μ r v).rotation.apply ((conicOf μ r v).planeVelocity (Real.cos (trueAnomalyOf μ r v)) (Real.sin (trueAnomalyOf μ r v))) = v := by
  obtain ⟨f1, -, -⟩ := plane_facts (μ := μ) hh
  have h0 := norm_pos_of_ne (cross_ne hh)
  have hP := ecc_periapsis hμ hh
  have hR := position_direction hμ hh he
  have hr0 := norm_pos_of_ne (r_ne (cross_ne hh))
  have hh2 := Rotation.norm_mul_self (r.cross v)
  have hs : √((conicOf μ r v).μ / (conicOf μ r v).ℓ) = μ / (r.cross v).norm := by
    rw [conic_ell hμ (cross_ne hh) hε, ← hh2]
    show √(μ / ((r.cross v).norm * (r.cross v).norm / μ)) = _
    rw [show μ / ((r.cross v).norm * (r.cross v).norm / μ) = (μ / (r.cross v).norm) ^ 2 by field_simp, Real.sqrt_sq (by positivity)]
  rw [Conic.planeVelocity, hs]
  have hrh : r.div r.norm = (planeOf μ r v).rotation.apply ⟨Real.cos (trueAnomalyOf μ r v), Real.sin (trueAnomalyOf μ r v), 0⟩ := by
    conv_lhs => rw [Plane.div_eq]
    apply smul_cancel hr0.ne'
    rw [← hR, smul_smul', mul_one_div_cancel hr0.ne']
    ext <;> simp
  have h4 : (r.cross v).norm ^ 2 • v = μ • (r.cross v).cross (eccentricityVector μ r v + r.div r.norm) := by
    have : ∀ ρ : R3 ℝ, (r.cross v).normSq • v = μ • (r.cross v).cross ((v.cross (r.cross v)).div μ - ρ + ρ) := by
      intro ρ
      ext <;> simp only [R3.normSq, R3.add_x, R3.add_y, R3.add_z, R3.sub_x, R3.sub_y, R3.sub_z, R3.smul_x, R3.smul_y, R3.smul_z, R3.div, R3.cross, sub_add_cancel] <;>
        field_simp <;> ring
    rw [sq, hh2]
    exact this _
  apply smul_cancel (pow_ne_zero 2 h0.ne')
  rw [h4, hP, hrh]
  set p := planeOf μ r v with hp
  rw [f1, ← p.apply_periapsis, ← p.apply_normal]
  have hnn : ((r.cross v).norm • p.rotation.apply ⟨0, 0, 1⟩ : R3 ℝ).norm = (r.cross v).norm := by rw [p.apply_normal, ← f1]
  rw [hnn]
  simp only [← p.apply_smul, p.apply_cross, ← p.apply_add]
  congr 1
  show _ = μ • R3.cross _ _
  generalize (r.cross v).norm = k at h0 ⊢
  ext <;> simp only [R3.add_x, R3.add_y, R3.add_z, R3.smul_x, R3.smul_y, R3.smul_z, R3.cross, conicOf] <;> field_simp <;> ring

theorem dot_eq (hμ : 0 < μ) (hh : (r.cross v).x ≠ 0 ∨ (r.cross v).y ≠ 0) (he : eccentricityVector μ r v ≠ 0) (hε : energy μ r v ≠ 0) :
    ∃ k, 0 < k ∧ r.dot v = k * Real.sin (trueAnomalyOf μ r v) := by
  have h1 := position_eq hμ hh he hε
  have h2 := velocity_eq hμ hh he hε
  have h3 := one_add_pos hμ hh he hε
  have h4 : 0 < (conicOf μ r v).ℓ := by
    rw [conic_ell hμ (cross_ne hh) hε]
    have := normSq_pos (cross_ne hh)
    positivity
  have he0 : 0 < (conicOf μ r v).e := norm_pos_of_ne he
  have hμ' : 0 < (conicOf μ r v).μ := hμ
  refine ⟨(conicOf μ r v).ℓ / (1 + (conicOf μ r v).e * Real.cos (trueAnomalyOf μ r v)) * √((conicOf μ r v).μ / (conicOf μ r v).ℓ) * (conicOf μ r v).e, ?_, ?_⟩
  · have : 0 < √((conicOf μ r v).μ / (conicOf μ r v).ℓ) := Real.sqrt_pos.2 (by positivity)
    positivity
  · refine (congrArg₂ R3.dot h1.symm h2.symm).trans ?_
    rw [Plane.apply_dot]
    simp only [Conic.planePosition, Conic.planeVelocity, R3.dot, R3.smul_x, R3.smul_y, R3.smul_z, h1, h2]
    ring

/-! ### The elements -/

theorem conicByCategory (hμ : 0 < μ) (hh : r.cross v ≠ 0) (hε : energy μ r v ≠ 0) :
    ConicElements.completeByCategory (num μ) {
      ecc := { eccentricity := some (num (eccentricityVector μ r v).norm) }
      sma := { specificEnergy := some (num (energy μ r v)) }
      smi := {
        semiminorAxis := some (Fl.sqrt (-num (r.cross v).normSq / (num 2 * num (energy μ r v))))
        impactParameter := some (Fl.sqrt (num (r.cross v).normSq / (num 2 * num (energy μ r v)))) }
      slr := { specificAngularMomentum := some (num (r.cross v).norm) }
      periapsisDistance := some (num (r.cross v).normSq / ((num 1 + num (eccentricityVector μ r v).norm) * num μ))
      apoapsisDistance := some (-num μ * (num 1 + num (eccentricityVector μ r v).norm) / (num 2 * num (energy μ r v))) } =
      some (conicOf μ r v).elements := by
  have hcases := conic_cases hμ hh hε
  have hl := conic_ell hμ hh hε
  have hp := normSq_pos hh
  have he0 : 0 ≤ (eccentricityVector μ r v).norm := Real.sqrt_nonneg _
  have hl' : (conicOf μ r v).a * (1 - (conicOf μ r v).e ^ 2) = (r.cross v).normSq / μ := hl
  have hsl : √((conicOf μ r v).μ * ((conicOf μ r v).a * (1 - (conicOf μ r v).e ^ 2))) = (r.cross v).norm := by
    rw [hl', R3.norm]
    show √(μ * _) = _
    congr 1
    field_simp
  have h2ε : (2 : ℝ) * energy μ r v ≠ 0 := mul_ne_zero two_ne_zero hε
  have hsε : -(conicOf μ r v).μ / (2 * (conicOf μ r v).a) = energy μ r v := by
    simp only [conicOf]; field_simp
  set c := conicOf μ r v with hc
  have hcμ : c.μ = μ := rfl
  have hce : c.e = (eccentricityVector μ r v).norm := rfl
  have hca : c.a = -μ / (2 * energy μ r v) := rfl
  have hell : c.IsEllipse ∨ c.IsHyperbola := hcases.imp (·.2) (·.2)
  have e1 : EccentricityForms.complete { eccentricity := some (num c.e) } = some c.elements.ecc := by
    show some (EccentricityForms.fill { eccentricity := some (num c.e) }) = _
    rcases hell with h | h
    · rw [ecc_ellipse h]
    · rw [ecc_hyperbola h]
  have e2 : SemimajorForms.complete (num c.μ) { specificEnergy := some (num (-c.μ / (2 * c.a))) } = some c.elements.sma := by
    show some (SemimajorForms.fill (num c.μ) { specificEnergy := some (num (-c.μ / (2 * c.a))) }) = _
    rcases hell with h | h
    · rw [sma_energy h]
    · rw [sma_energy' h]
  have e4 : SemilatusForms.complete (num c.μ) { specificAngularMomentum := some (num √(c.μ * (c.a * (1 - c.e ^ 2)))) } = some c.elements.slr := by
    show some (SemilatusForms.fill (num c.μ) { specificAngularMomentum := some (num √(c.μ * (c.a * (1 - c.e ^ 2)))) }) = _
    rw [slr_h hell]
  rw [hsε] at e2
  rw [hsl] at e4
  have e3 : SemiminorForms.mk (some (Fl.sqrt (-num (r.cross v).normSq / (num 2 * num (energy μ r v))))) (some (Fl.sqrt (num (r.cross v).normSq / (num 2 * num (energy μ r v))))) =
      c.elements.smi := by
    rw [num_neg, num_mul, num_div h2ε, num_div h2ε]
    have hq : c.a ^ 2 * (1 - c.e ^ 2) = -(r.cross v).normSq / (2 * energy μ r v) := by
      rw [sq, mul_assoc, hl', hca]; field_simp
    rcases hcases with ⟨hs, h⟩ | ⟨hs, h⟩
    · have h1 := ellipse_s h
      have h2 := h.a
      rw [sqrt_num (y := c.a * √(1 - c.e ^ 2)) (by positivity) (by rw [mul_pow, Real.sq_sqrt h1.le, hq]),
        sqrt_neg (div_neg_of_pos_of_neg hp (by linarith))]
      simp only [Conic.elements, h.ellipse, h.hyperbola]
    · have h1 := hyperbola_s h
      have h2 : 0 < -c.a := by linarith [h.a]
      rw [sqrt_neg (x := -(r.cross v).normSq / (2 * energy μ r v)) (div_neg_of_neg_of_pos (by linarith) (by linarith)),
        sqrt_num (x := (r.cross v).normSq / (2 * energy μ r v)) (y := -c.a * √(c.e ^ 2 - 1)) (by positivity) (by rw [mul_pow, Real.sq_sqrt h1.le]; linear_combination hq)]
      simp only [Conic.elements, h.ellipse, h.hyperbola]
  have e3' : SemiminorForms.complete ⟨some (Fl.sqrt (-num (r.cross v).normSq / (num 2 * num (energy μ r v)))), some (Fl.sqrt (num (r.cross v).normSq / (num 2 * num (energy μ r v))))⟩ =
      some c.elements.smi := by
    show some (SemiminorForms.mk _ _) = _
    rw [e3]
  have e5 : num (r.cross v).normSq / ((num 1 + num (eccentricityVector μ r v).norm) * num μ) = num (c.a * (1 - c.e)) := by
    rw [num_add, num_mul, num_div (by positivity)]
    congr 1
    rw [div_eq_iff (by positivity), ← hce]
    have : (r.cross v).normSq = μ * (c.a * (1 - c.e ^ 2)) := by rw [hl']; field_simp
    rw [this]; ring
  have e6 : -num μ * (num 1 + num (eccentricityVector μ r v).norm) / (num 2 * num (energy μ r v)) = num (c.a * (1 + c.e)) := by
    rw [num_neg, num_add, num_mul, num_mul, num_div h2ε, hca, hce]
    congr 1
    field_simp
  rw [e5, e6, ConicElements.completeByCategory]
  rw [hcμ] at e2 e4
  rw [hce] at e1
  simp only [e1, e2, e3', e4]
  rfl

/-! ### The theorems -/

theorem ofStates_eq {brent : RootFinder} {μ₁ μ₂ epoch : ℝ} (hμ : 0 < μ₁ + μ₂) (hh : r.cross v ≠ 0) (hε : energy (μ₁ + μ₂) r v ≠ 0) :
    Orbit.ofStates brent μ₁ μ₂ r v epoch = some ⟨num (μ₁ + μ₂), (conicOf (μ₁ + μ₂) r v).elements,
      ⟨num (planeOf (μ₁ + μ₂) r v).i, num (planeOf (μ₁ + μ₂) r v).Ω, some (num (planeOf (μ₁ + μ₂) r v).ω), some (num ((planeOf (μ₁ + μ₂) r v).Ω + (planeOf (μ₁ + μ₂) r v).ω))⟩,
      ⟨some (num (trueAnomalyOf (μ₁ + μ₂) r v)), some (meanFromTrue (num (conicOf (μ₁ + μ₂) r v).e) (num (trueAnomalyOf (μ₁ + μ₂) r v))),
        some (hyperbolicMeanFromTrue (num (conicOf (μ₁ + μ₂) r v).e) (num (trueAnomalyOf (μ₁ + μ₂) r v)))⟩, epoch⟩ := by
  have hn : r.normalize = some (r.div r.norm) := if_neg (norm_pos_of_ne (r_ne hh)).ne'
  have hcc := conicByCategory hμ hh hε
  rw [Orbit.ofStates, hn]
  have hec : (v.cross (r.cross v)).div (μ₁ + μ₂) - r.div r.norm = eccentricityVector (μ₁ + μ₂) r v := rfl
  have hen : v.normSq / 2 - (μ₁ + μ₂) / r.norm = energy (μ₁ + μ₂) r v := rfl
  simp only [hec, hen, hcc]
  rfl

/-- An orbit constructed from state vectors which are not equatorial, circular, parabolic or radial, and which are not on a hyperbola before the periapsis: at all times
its state vectors are those of the motion that obeys Newton's law and that has the given state vectors at epoch.  The elements of the orbit are those of a conic, in a plane,
on which these state vectors are. -/
theorem C56_states {brent : RootFinder} (hb : IsRootFinder brent) {μ₁ μ₂ epoch : ℝ} (hμ : 0 < μ₁ + μ₂)
    (equatorial : (r.cross v).x ≠ 0 ∨ (r.cross v).y ≠ 0)
    (circular : (v.cross (r.cross v)).div (μ₁ + μ₂) - r.div r.norm ≠ 0)
    (parabolic : v.normSq / 2 - (μ₁ + μ₂) / r.norm ≠ 0)
    (beforePeriapsis : v.normSq / 2 - (μ₁ + μ₂) / r.norm < 0 ∨ 0 ≤ r.dot v) :
    ∃ o q w, Orbit.ofStates brent μ₁ μ₂ r v epoch = some o ∧ (∀ t, o.stateVectors brent t = .ok (q t) (w t)) ∧ Newton (μ₁ + μ₂) q w ∧
      q epoch = r ∧ w epoch = v ∧
      ∃ (c : Conic) (p : Plane), (c.IsEllipse ∨ c.IsHyperbola) ∧ c.μ = μ₁ + μ₂ ∧ (∀ t, OnConic c p (q t) (w t)) ∧ o.conic = c.elements ∧
        o.orientation = ⟨num p.i, num p.Ω, some (num p.ω), some (num (p.Ω + p.ω))⟩ ∧
        0 ≤ p.i ∧ p.i ≤ π ∧ 0 ≤ p.Ω ∧ p.Ω < 2 * π ∧ 0 ≤ p.ω ∧ p.ω < 2 * π := by
  have hh := cross_ne equatorial
  have he : eccentricityVector (μ₁ + μ₂) r v ≠ 0 := circular
  have hε : energy (μ₁ + μ₂) r v ≠ 0 := parabolic
  have ho := ofStates_eq (brent := brent) (epoch := epoch) hμ hh hε
  have hr := position_eq hμ equatorial he hε
  have hv := velocity_eq hμ equatorial he hε
  obtain ⟨k, hk, hd⟩ := dot_eq hμ equatorial he hε
  have hp := one_add_pos hμ equatorial he hε
  have hcases := conic_cases hμ hh hε
  have hang := C37_angle_between (⟨0, 0, 1⟩ : R3 ℝ) (r.cross v)
  have hΩ := reduce_bounds (Complex.arg ⟨((⟨0, 0, 1⟩ : R3 ℝ).cross (r.cross v)).x, ((⟨0, 0, 1⟩ : R3 ℝ).cross (r.cross v)).y⟩)
  have hω := reduce_bounds (orientedAngleBetween ((⟨0, 0, 1⟩ : R3 ℝ).cross (r.cross v)) (eccentricityVector (μ₁ + μ₂) r v) (r.cross v))
  have hb1 : 0 ≤ (planeOf (μ₁ + μ₂) r v).i := hang.1
  have hb2 : (planeOf (μ₁ + μ₂) r v).i ≤ π := hang.2.1
  have hb3 : 0 ≤ (planeOf (μ₁ + μ₂) r v).Ω := hΩ.1
  have hb4 : (planeOf (μ₁ + μ₂) r v).Ω < 2 * π := hΩ.2
  have hb5 : 0 ≤ (planeOf (μ₁ + μ₂) r v).ω := hω.1
  have hb6 : (planeOf (μ₁ + μ₂) r v).ω < 2 * π := hω.2
  have hcμ : (conicOf (μ₁ + μ₂) r v).μ = μ₁ + μ₂ := rfl
  have hneg : v.normSq / 2 - (μ₁ + μ₂) / r.norm = energy (μ₁ + μ₂) r v := rfl
  rw [hneg] at beforePeriapsis
  generalize planeOf (μ₁ + μ₂) r v = p at *
  generalize conicOf (μ₁ + μ₂) r v = c at *
  generalize trueAnomalyOf (μ₁ + μ₂) r v = ν at *
  rcases hcases with ⟨hs, h⟩ | ⟨hs, h⟩
  · obtain ⟨E₀, hM, hcν, hsν⟩ := meanFromTrue_eq h ν
    rw [hM] at ho
    obtain ⟨o, ho, hom⟩ : ∃ o, Orbit.ofStates brent μ₁ μ₂ r v epoch = some o ∧ o = _ := ⟨_, ho, rfl⟩
    have hoe : o.epoch = epoch := by rw [hom]
    obtain ⟨E, e1, e2, e3, e4⟩ := motion_ellipse (p := p) hb h (o := o) ⟨by rw [hom, hcμ], by rw [hom], by rw [hom], by rw [hom], by rw [hom]⟩ (by rw [hom])
    have hE : E epoch = E₀ := by
      apply kepler_injective h.e₀ h.e₁
      rw [e1, hoe]; ring
    refine ⟨_, _, _, ho, e2, hcμ ▸ e3, ?_, ?_, c, p, Or.inl h, hcμ, e4, by rw [hom], by rw [hom], hb1, hb2, hb3, hb4, hb5, hb6⟩
    · beta_reduce; rw [hE, ← planePosition_ellipse h, hcν, hsν, hr]
    · beta_reduce; rw [hE, ← planeVelocity_ellipse h, hcν, hsν, hv]
  · obtain ⟨H₀, hM, hcν, hsν⟩ := hyperbolicMeanFromTrue_eq h hp
    rw [hM] at ho
    obtain ⟨o, ho, hom⟩ : ∃ o, Orbit.ofStates brent μ₁ μ₂ r v epoch = some o ∧ o = _ := ⟨_, ho, rfl⟩
    have hoe : o.epoch = epoch := by rw [hom]
    obtain ⟨H, e1, e2, e3, e4⟩ := motion_hyperbola (p := p) hb h (o := o) ⟨by rw [hom, hcμ], by rw [hom], by rw [hom], by rw [hom], by rw [hom]⟩ (by rw [hom])
    have hH : H epoch = H₀ := by
      apply hyperbolic_injective h.e
      rw [e1, hoe]; ring
    have hs0 : 0 ≤ Real.sin ν := by
      rcases beforePeriapsis with h' | h'
      · exact absurd h' hs.not_gt
      · rw [hd] at h'
        exact nonneg_of_mul_nonneg_right h' hk
    rw [abs_of_nonneg hs0] at hsν
    refine ⟨_, _, _, ho, e2, hcμ ▸ e3, ?_, ?_, c, p, Or.inr h, hcμ, e4, by rw [hom], by rw [hom], hb1, hb2, hb3, hb4, hb5, hb6⟩
    · beta_reduce; rw [hH, ← planePosition_hyperbola h, hcν, hsν, hr]
    · beta_reduce; rw [hH, ← planeVelocity_hyperbola h, hcν, hsν, hv]

/-- State vectors on a hyperbola before the periapsis: the orbit does not go through them at epoch. -/
theorem C56_incoming_counterexample {brent : RootFinder} (hb : IsRootFinder brent) {μ₁ μ₂ epoch : ℝ} (hμ : 0 < μ₁ + μ₂)
    (equatorial : (r.cross v).x ≠ 0 ∨ (r.cross v).y ≠ 0)
    (circular : (v.cross (r.cross v)).div (μ₁ + μ₂) - r.div r.norm ≠ 0)
    (hyperbolic : 0 < v.normSq / 2 - (μ₁ + μ₂) / r.norm) (incoming : r.dot v < 0) :
    ∃ o q w, Orbit.ofStates brent μ₁ μ₂ r v epoch = some o ∧ o.stateVectors brent epoch = .ok q w ∧ q ≠ r := by
  have hh := cross_ne equatorial
  have he : eccentricityVector (μ₁ + μ₂) r v ≠ 0 := circular
  have hs : 0 < energy (μ₁ + μ₂) r v := hyperbolic
  have hε := hs.ne'
  have ho := ofStates_eq (brent := brent) (epoch := epoch) hμ hh hε
  have hr := position_eq hμ equatorial he hε
  obtain ⟨k, hk, hd⟩ := dot_eq hμ equatorial he hε
  have hp := one_add_pos hμ equatorial he hε
  have hcases := conic_cases hμ hh hε
  have hcμ : (conicOf (μ₁ + μ₂) r v).μ = μ₁ + μ₂ := rfl
  generalize planeOf (μ₁ + μ₂) r v = p at *
  generalize conicOf (μ₁ + μ₂) r v = c at *
  generalize trueAnomalyOf (μ₁ + μ₂) r v = ν at *
  have h : c.IsHyperbola := by
    rcases hcases with ⟨h', -⟩ | ⟨-, h⟩
    · exact absurd h' hs.not_gt
    · exact h
  obtain ⟨H₀, hM, hcν, hsν⟩ := hyperbolicMeanFromTrue_eq h hp
  rw [hM] at ho
  obtain ⟨o, ho, hom⟩ : ∃ o, Orbit.ofStates brent μ₁ μ₂ r v epoch = some o ∧ o = _ := ⟨_, ho, rfl⟩
  have hoe : o.epoch = epoch := by rw [hom]
  obtain ⟨H, e1, e2, e3, e4⟩ := motion_hyperbola (p := p) hb h (o := o) ⟨by rw [hom, hcμ], by rw [hom], by rw [hom], by rw [hom], by rw [hom]⟩ (by rw [hom])
  have hH : H epoch = H₀ := by
    apply hyperbolic_injective h.e
    rw [e1, hoe]; ring
  have hs0 : Real.sin ν < 0 := by
    rw [hd] at incoming
    by_contra hcon
    have := mul_nonneg hk.le (not_lt.1 hcon)
    linarith
  rw [abs_of_neg hs0] at hsν
  refine ⟨_, _, _, ho, e2 epoch, fun hq => ?_⟩
  rw [hH, ← planePosition_hyperbola h, hcν, hsν, ← hr] at hq
  have h1 := congrArg R3.y (p.apply_inj hq)
  simp only [Conic.planePosition, R3.smul_y] at h1
  have h2 := ell_pos (Or.inr h)
  have h3 := mul_left_cancel₀ (by positivity) h1
  linarith

end

end Principia.Physics.Kepler
