import Verif.Physics.FrameProps

/-!
The trihedra attached to two bodies, and their rotation.
-/

set_option linter.unusedSimpArgs false
set_option linter.unusedVariables false
set_option linter.unusedSectionVars false

namespace Principia.Physics.Frames

open Geometry Motion

theorem normSq_pos {v : R3 ℝ} (h : v ≠ 0) : 0 < v.normSq := by
  by_contra hn
  apply h
  have h1 : v.x * v.x + v.y * v.y + v.z * v.z ≤ 0 := not_lt.1 hn
  have hx : v.x * v.x = 0 := le_antisymm (by nlinarith [mul_self_nonneg v.y, mul_self_nonneg v.z]) (mul_self_nonneg _)
  have hy : v.y * v.y = 0 := le_antisymm (by nlinarith [mul_self_nonneg v.x, mul_self_nonneg v.z]) (mul_self_nonneg _)
  have hz : v.z * v.z = 0 := le_antisymm (by nlinarith [mul_self_nonneg v.x, mul_self_nonneg v.y]) (mul_self_nonneg _)
  exact R3.ext (mul_self_eq_zero.1 hx) (mul_self_eq_zero.1 hy) (mul_self_eq_zero.1 hz)

theorem norm_pos {v : R3 ℝ} (h : v ≠ 0) : 0 < v.norm := Real.sqrt_pos.2 (normSq_pos h)

theorem norm_sq (v : R3 ℝ) : v.norm ^ 2 = v.x * v.x + v.y * v.y + v.z * v.z := by
  rw [R3.norm, Real.sq_sqrt]
  · rfl
  · show 0 ≤ v.x * v.x + v.y * v.y + v.z * v.z
    nlinarith [mul_self_nonneg v.x, mul_self_nonneg v.y, mul_self_nonneg v.z]

/-- A vector divided by its norm. -/
noncomputable def unit (v : R3 ℝ) : R3 ℝ := v.div v.norm

theorem normalize_eq {v : R3 ℝ} (h : v ≠ 0) : v.normalize = some (unit v) := by rw [R3.normalize, if_neg (norm_pos h).ne']; rfl

theorem HasDeriv.unit {v : ℝ → R3 ℝ} {v' : R3 ℝ} {t : ℝ} (hv : HasDeriv v v' t) (h : v t ≠ 0) : HasDeriv (fun s => unit (v s)) (dNormalized (v t) v') t := by
  have hn := hv.norm h
  have hp := norm_pos h
  have hq := norm_sq (v t)
  have hns : (v t).normSq = (v t).norm ^ 2 := hq.symm
  refine ⟨(hv.x.div hn hp.ne').congr_deriv ?_, (hv.y.div hn hp.ne').congr_deriv ?_, (hv.z.div hn hp.ne').congr_deriv ?_⟩ <;>
    · simp only [dNormalized, hns, R3.div, R3.sub_x, R3.sub_y, R3.sub_z, R3.smul_x, R3.smul_y, R3.smul_z]
      generalize (v t).norm = n at hp
      have := hp.ne'
      field_simp

/-- The second derivative of a vector divided by its norm. -/
noncomputable def d2Unit (v v' v'' : R3 ℝ) : R3 ℝ :=
  v''.div v.norm - ((2 * v.dot v') • v' + (v'.normSq + v.dot v'') • v).div (v.norm ^ 3) + (v.dot v' ^ 2 • (3 : ℝ) • v).div (v.norm ^ 5)

theorem HasDeriv.unit2 {v v' : ℝ → R3 ℝ} {v'' : R3 ℝ} {t : ℝ} (hv : HasDeriv v (v' t) t) (hv' : HasDeriv v' v'' t) (h : v t ≠ 0) :
    HasDeriv (fun s => dNormalized (v s) (v' s)) (d2Unit (v t) (v' t) v'') t := by
  have hn : HasDerivAt (fun s => (v s).norm ^ 3) (3 * (v t).norm ^ 2 * ((v t).dot (v' t) / (v t).norm)) t := by
    refine ((hv.norm h).pow 3).congr_deriv ?_
    norm_num
  have hp := norm_pos h
  have hq := norm_sq (v t)
  have hns : (v t).normSq = (v t).norm ^ 2 := hq.symm
  have hu := (HasDeriv.smul hv.normSq hv').sub (HasDeriv.smul (hv.dot hv') hv)
  refine ⟨(hu.x.div hn (pow_ne_zero 3 hp.ne')).congr_deriv ?_, (hu.y.div hn (pow_ne_zero 3 hp.ne')).congr_deriv ?_, (hu.z.div hn (pow_ne_zero 3 hp.ne')).congr_deriv ?_⟩ <;>
    · simp only [d2Unit, R3.div, R3.sub_x, R3.sub_y, R3.sub_z, R3.smul_x, R3.smul_y, R3.smul_z, R3.add_x, R3.add_y, R3.add_z, hns]
      have hns' : (v' t).normSq = (v' t).dot (v' t) := rfl
      rw [hns']
      generalize (v t).norm = n at hp
      have := hp.ne'
      field_simp
      ring

/-- The computed second derivative has a wrong component along the vector. -/
theorem d2Normalized_eq (v v' v'' : R3 ℝ) : d2Normalized v v' v'' = d2Unit v v' v'' + (2 * v.dot v'' / v.norm ^ 3) • v := by
  ext <;> simp [d2Normalized, d2Unit, R3.div] <;> ring

/-- The angular velocity of an orthonormal trihedron. -/
theorem angularVelocity_axes {f n b : ℝ → R3 ℝ} {f' n' b' : R3 ℝ} {t : ℝ} (h : ∀ s, DirectOrthonormal (f s) (n s) (b s)) (hf : HasDeriv f f' t) (hn : HasDeriv n n' t)
    (hb : HasDeriv b b' t) :
    f' = (computeAngularVelocity ⟨f t, n t, b t⟩ ⟨f', n', b'⟩).cross (f t) ∧ n' = (computeAngularVelocity ⟨f t, n t, b t⟩ ⟨f', n', b'⟩).cross (n t) ∧
      b' = (computeAngularVelocity ⟨f t, n t, b t⟩ ⟨f', n', b'⟩).cross (b t) := by
  have hconst : ∀ {u w : ℝ → R3 ℝ} {u' w' : R3 ℝ} (k : ℝ), HasDeriv u u' t → HasDeriv w w' t → (∀ s, (u s).dot (w s) = k) → u'.dot (w t) + (u t).dot w' = 0 := by
    intro u w u' w' k hu hw hk
    have h1 := hu.dot hw
    rw [show (fun s => (u s).dot (w s)) = fun _ => k from funext hk] at h1
    exact h1.unique (hasDerivAt_const t k)
  have hff := hconst 1 hf hf fun s => (h s).1
  have hnn := hconst 1 hn hn fun s => (h s).2.1
  have hbb := hconst 1 hb hb fun s => (h s).2.2.1
  have hfn := hconst 0 hf hn fun s => (h s).2.2.2.1
  have hnb := hconst 0 hn hb fun s => (h s).2.2.2.2.1
  have hbf := hconst 0 hb hf fun s => (h s).2.2.2.2.2.1
  obtain ⟨h1, h2, h3, h4, h5, h6, h7⟩ := h t
  generalize f t = f at *
  generalize n t = n at *
  generalize b t = b at *
  have expand : ∀ u w : R3 ℝ, u.dot f = w.dot f → u.dot n = w.dot n → u.dot b = w.dot b → u = w := by
    intro u w e1 e2 e3
    have hr := Rotation.C36_from_frame_axes (x := f) (y := n) (z := b) ⟨h1, h2, h3, h4, h5, h6, h7⟩
    have ht := Rotation.C36_to_frame_axes (x := f) (y := n) (z := b) ⟨h1, h2, h3, h4, h5, h6, h7⟩
    have hu := (ht u).2
    have hw := (ht w).2
    have : (Rotation.ofToFrameAxes f n b).apply u = (Rotation.ofToFrameAxes f n b).apply w := by
      rw [hu, hw]
      have c : ∀ x y : R3 ℝ, x.dot y = y.dot x := by intro x y; simp [R3.dot]; ring
      rw [c f u, c n u, c b u, c f w, c n w, c b w, e1, e2, e3]
    have hinv := Rotation.C36_inverse (Rotation.ofToFrameAxes f n b) (ht u).1
    rw [← (hinv u).2.1, ← (hinv w).2.1, this]
  have c : ∀ x y : R3 ℝ, x.dot y = y.dot x := by intro x y; simp [R3.dot]; ring
  have hfxn : f.cross n = b := by
    apply expand
    · rw [h6]; simp [R3.dot, R3.cross]; ring
    · rw [c b n, h5]; simp [R3.dot, R3.cross]; ring
    · rw [h7, h3]
  have hnxb : n.cross b = f := by
    apply expand
    · rw [h1, ← h7]; simp [R3.dot, R3.cross]; ring
    · rw [h4]; simp [R3.dot, R3.cross]; ring
    · rw [c f b, h6]; simp [R3.dot, R3.cross]; ring
  have hbxf : b.cross f = n := by
    apply expand
    · rw [c n f, h4]; simp [R3.dot, R3.cross]; ring
    · rw [h2, ← h7]; simp [R3.dot, R3.cross]; ring
    · rw [h5]; simp [R3.dot, R3.cross]; ring
  have hcross : ∀ (p q r : ℝ) (u : R3 ℝ), (p • f + q • n + r • b).cross u = p • f.cross u + q • n.cross u + r • b.cross u := by
    intro p q r u; ext <;> simp [R3.cross] <;> ring
  have hanti : ∀ x y : R3 ℝ, x.cross y = -(y.cross x) := by intro x y; ext <;> simp [R3.cross] <;> ring
  have hself : ∀ x : R3 ℝ, x.cross x = 0 := by intro x; ext <;> simp [R3.cross] <;> ring
  have hlin : ∀ (p q r : ℝ) (x y z u : R3 ℝ), (p • x + q • y + r • z).dot u = p * x.dot u + q * y.dot u + r * z.dot u := by
    intro p q r x y z u; simp [R3.dot]; ring
  have hneg : ∀ x u : R3 ℝ, (-x).dot u = -(x.dot u) := by intro x u; simp [R3.dot]; ring
  have hz : ∀ u : R3 ℝ, (0 : R3 ℝ).dot u = 0 := by intro u; simp [R3.dot]
  have hfb : f.dot b = 0 := by rw [c, h6]
  have hnf : n.dot f = 0 := by rw [c, h4]
  have hbn : b.dot n = 0 := by rw [c, h5]
  rw [c f f'] at hff
  rw [c n n'] at hnn
  rw [c b b'] at hbb
  rw [c f n'] at hfn
  rw [c n b'] at hnb
  rw [c b f'] at hbf
  simp only [computeAngularVelocity, vectorTimesTrivector, wedgeVectorBivector, wedgeBivectorVector]
  refine ⟨?_, ?_, ?_⟩
  · rw [hcross, hself, hanti n f, hfxn, hbxf]
    apply expand <;> rw [hlin, hz, hneg]
    · rw [h6, hnf]; linarith
    · rw [hbn, h2]; linarith
    · rw [h3, h5]; linarith
  · rw [hcross, hself, hfxn, hanti b n, hnxb]
    apply expand <;> rw [hlin, hz, hneg]
    · rw [h6, h1]; linarith
    · rw [hbn, h4]; linarith
    · rw [h3, hfb]; linarith
  · rw [hcross, hself, hnxb, hanti f b, hbxf]
    apply expand <;> rw [hlin, hz, hneg]
    · rw [h1, hnf]; linarith
    · rw [h4, h2]; linarith
    · rw [hfb, h5]; linarith

/-- The trihedron attached to two bodies: its first axis is along the relative position, its third one is along the moment of the relative velocity. -/
noncomputable def tri (r r' : R3 ℝ) : Trihedron := ⟨unit r, unit ((r.cross r').cross r), unit (r.cross r')⟩

/-- Its derivative. -/
noncomputable def dTri (r r' r'' : R3 ℝ) : Trihedron :=
  ⟨dNormalized r r', dNormalized ((r.cross r').cross r) ((r.cross r'').cross r + (r.cross r').cross r'), dNormalized (r.cross r') (r.cross r'')⟩

/-- Its angular velocity. -/
noncomputable def triVelocity (r r' r'' : R3 ℝ) : R3 ℝ := computeAngularVelocity (tri r r') (dTri r r' r'')

theorem left_ne_zero {r r' : R3 ℝ} (h : r.cross r' ≠ 0) : r ≠ 0 := by
  rintro rfl
  exact h (by ext <;> simp [R3.cross])

theorem normal_normSq (r r' : R3 ℝ) : ((r.cross r').cross r).normSq = (r.cross r').normSq * r.normSq := by
  simp only [R3.normSq, R3.dot, R3.cross]; ring

theorem normal_ne_zero {r r' : R3 ℝ} (h : r.cross r' ≠ 0) : (r.cross r').cross r ≠ 0 := by
  intro h0
  have h1 := normal_normSq r r'
  rw [h0] at h1
  have h2 := mul_pos (normSq_pos h) (normSq_pos (left_ne_zero h))
  rw [← h1] at h2
  simp [R3.normSq, R3.dot] at h2

theorem normal_norm (r r' : R3 ℝ) : ((r.cross r').cross r).norm = (r.cross r').norm * r.norm := by
  rw [R3.norm, normal_normSq, Real.sqrt_mul (Rotation.normSq_nonneg _)]; rfl

theorem unit_dot {u v : R3 ℝ} : (unit u).dot (unit v) = u.dot v / (u.norm * v.norm) := by
  simp only [unit, R3.div, R3.dot]; ring

theorem unit_self {v : R3 ℝ} (h : v ≠ 0) : (unit v).dot (unit v) = 1 := by
  rw [unit_dot]
  have h1 : v.dot v = v.norm * v.norm := by rw [Rotation.norm_mul_self]; rfl
  rw [h1, div_self (mul_pos (norm_pos h) (norm_pos h)).ne']

theorem smul_unit {v : R3 ℝ} (h : v ≠ 0) : v = v.norm • unit v := by
  have := (norm_pos h).ne'
  ext <;> simp only [unit, R3.div, R3.smul_x, R3.smul_y, R3.smul_z] <;> field_simp

theorem tri_orthonormal {r r' : R3 ℝ} (h : r.cross r' ≠ 0) : DirectOrthonormal (tri r r').fore (tri r r').normal (tri r r').binormal := by
  have hF := left_ne_zero h
  have hN := normal_ne_zero h
  refine ⟨unit_self hF, unit_self hN, unit_self h, ?_, ?_, ?_, ?_⟩
  · show (unit r).dot (unit _) = 0
    rw [unit_dot]; simp only [R3.dot, R3.cross]; ring
  · show (unit _).dot (unit _) = 0
    rw [unit_dot]; simp only [R3.dot, R3.cross]; ring
  · show (unit _).dot (unit r) = 0
    rw [unit_dot]; simp only [R3.dot, R3.cross]; ring
  · show ((unit r).cross (unit ((r.cross r').cross r))).dot (unit (r.cross r')) = 1
    have h1 : ((unit r).cross (unit ((r.cross r').cross r))).dot (unit (r.cross r')) =
        (r.normSq * (r.cross r').normSq) / (r.norm * ((r.cross r').cross r).norm * (r.cross r').norm) := by
      simp only [unit, R3.div, R3.dot, R3.cross, R3.normSq]; ring
    rw [h1, normal_norm, ← Rotation.norm_mul_self r, ← Rotation.norm_mul_self (r.cross r')]
    have := (norm_pos hF).ne'
    have := (norm_pos h).ne'
    field_simp

theorem computeTrihedra_eq {r r' : R3 ℝ} (h : r.cross r' ≠ 0) : computeTrihedra r r' = some (⟨r, (r.cross r').cross r, r.cross r'⟩, tri r r') := by
  simp only [computeTrihedra, wedge, bivectorTimesVector, normalize_eq (left_ne_zero h), normalize_eq (normal_ne_zero h), normalize_eq h]
  rfl

theorem computeAngularDegreesOfFreedom_eq {p s : DegreesOfFreedom} {a b : R3 ℝ} (h : (s.position - p.position).cross (s.velocity - p.velocity) ≠ 0) :
    computeAngularDegreesOfFreedom p s a b = some (computeRotation (tri (s.position - p.position) (s.velocity - p.velocity)),
      triVelocity (s.position - p.position) (s.velocity - p.velocity) (b - a)) := by
  simp only [computeAngularDegreesOfFreedom, computeTrihedra_eq h]
  rfl

theorem forgetOrthogonal_apply (R : Rotation ℝ) (v : R3 ℝ) : R.forgetOrthogonal.apply v = R.apply v := rfl

/-- The rotation of a trihedron. -/
theorem computeRotation_eq {T : Trihedron} (h : DirectOrthonormal T.fore T.normal T.binormal) :
    (computeRotation T).forgetOrthogonal.IsUnit ∧ (∀ v, (computeRotation T).forgetOrthogonal.apply v = ⟨T.fore.dot v, T.normal.dot v, T.binormal.dot v⟩) ∧
      ∀ e, (computeRotation T).forgetOrthogonal.inverse.apply e = e.x • T.fore + e.y • T.normal + e.z • T.binormal := by
  have hu : (computeRotation T).forgetOrthogonal.IsUnit := (Rotation.C36_to_frame_axes h 0).1
  have ha : ∀ v, (computeRotation T).forgetOrthogonal.apply v = ⟨T.fore.dot v, T.normal.dot v, T.binormal.dot v⟩ := fun v => by
    rw [forgetOrthogonal_apply]; exact (Rotation.C36_to_frame_axes h v).2
  refine ⟨hu, ha, fun e => ?_⟩
  have h1 : (computeRotation T).forgetOrthogonal.apply (e.x • T.fore + e.y • T.normal + e.z • T.binormal) = e := by
    rw [ha]
    obtain ⟨h1, h2, h3, h4, h5, h6, h7⟩ := h
    have hl : ∀ u : R3 ℝ, u.dot (e.x • T.fore + e.y • T.normal + e.z • T.binormal) = e.x * u.dot T.fore + e.y * u.dot T.normal + e.z * u.dot T.binormal := by
      intro u; simp [R3.dot]; ring
    have c : ∀ x y : R3 ℝ, x.dot y = y.dot x := by intro x y; simp [R3.dot]; ring
    ext
    · show T.fore.dot _ = _
      rw [hl, h1, h4, c, h6]; ring
    · show T.normal.dot _ = _
      rw [hl, c, h4, h2, h5]; ring
    · show T.binormal.dot _ = _
      rw [hl, h6, c _ T.normal, h5, h3]; ring
  rw [← congrArg (computeRotation T).forgetOrthogonal.inverse.apply h1, OrthogonalMap.inverse_apply hu]

variable {r r' r'' r''' : ℝ → R3 ℝ} {t : ℝ}

/-- The derivatives of the orthogonal trihedron. -/
theorem binormal_deriv (h1 : HasDeriv r (r' t) t) (h2 : HasDeriv r' (r'' t) t) : HasDeriv (fun s => (r s).cross (r' s)) ((r t).cross (r'' t)) t :=
  (h1.cross h2).congr_deriv (by ext <;> simp [R3.cross] <;> ring)

theorem normal_deriv (h1 : HasDeriv r (r' t) t) (h2 : HasDeriv r' (r'' t) t) :
    HasDeriv (fun s => ((r s).cross (r' s)).cross (r s)) (((r t).cross (r'' t)).cross (r t) + ((r t).cross (r' t)).cross (r' t)) t := (binormal_deriv h1 h2).cross h1

theorem binormal_deriv2 (h1 : HasDeriv r (r' t) t) (h2 : HasDeriv r' (r'' t) t) (h3 : HasDeriv r'' (r''' t) t) :
    HasDeriv (fun s => (r s).cross (r'' s)) ((r' t).cross (r'' t) + (r t).cross (r''' t)) t := h1.cross h3

theorem normal_deriv2 (h1 : HasDeriv r (r' t) t) (h2 : HasDeriv r' (r'' t) t) (h3 : HasDeriv r'' (r''' t) t) :
    HasDeriv (fun s => ((r s).cross (r'' s)).cross (r s) + ((r s).cross (r' s)).cross (r' s))
      (((r' t).cross (r'' t) + (r t).cross (r''' t)).cross (r t) + ((2 : ℝ) • (r t).cross (r'' t)).cross (r' t) + ((r t).cross (r' t)).cross (r'' t)) t :=
  (((binormal_deriv2 h1 h2 h3).cross h1).add ((binormal_deriv h1 h2).cross h2)).congr_deriv (by ext <;> simp [R3.cross] <;> ring)

theorem tri_deriv (h1 : HasDeriv r (r' t) t) (h2 : HasDeriv r' (r'' t) t) (h : (r t).cross (r' t) ≠ 0) :
    HasDeriv (fun s => (tri (r s) (r' s)).fore) (dTri (r t) (r' t) (r'' t)).fore t ∧ HasDeriv (fun s => (tri (r s) (r' s)).normal) (dTri (r t) (r' t) (r'' t)).normal t ∧
      HasDeriv (fun s => (tri (r s) (r' s)).binormal) (dTri (r t) (r' t) (r'' t)).binormal t :=
  ⟨HasDeriv.unit h1 (left_ne_zero h), HasDeriv.unit (normal_deriv h1 h2) (normal_ne_zero h), HasDeriv.unit (binormal_deriv h1 h2) h⟩

/-- The axes of the trihedron rotate with its angular velocity. -/
theorem tri_axes (h1 : HasDeriv r (r' t) t) (h2 : HasDeriv r' (r'' t) t) (h : ∀ s, (r s).cross (r' s) ≠ 0) (e : R3 ℝ) :
    HasDeriv (fun s => (computeRotation (tri (r s) (r' s))).forgetOrthogonal.inverse.apply e)
      ((triVelocity (r t) (r' t) (r'' t)).cross ((computeRotation (tri (r t) (r' t))).forgetOrthogonal.inverse.apply e)) t := by
  obtain ⟨hf, hn, hb⟩ := tri_deriv h1 h2 (h t)
  obtain ⟨ef, en, eb⟩ := angularVelocity_axes (fun s => tri_orthonormal (h s)) hf hn hb
  refine HasDeriv.congr_fun (((hf.const_smul e.x).add (hn.const_smul e.y)).add (hb.const_smul e.z)) (fun s => (computeRotation_eq (tri_orthonormal (h s))).2.2 e) |>.congr_deriv ?_
  rw [(computeRotation_eq (tri_orthonormal (h t))).2.2 e]
  have : ∀ ω x y z : R3 ℝ, ω.cross (e.x • x + e.y • y + e.z • z) = e.x • ω.cross x + e.y • ω.cross y + e.z • ω.cross z := by
    intro ω x y z; ext <;> simp [R3.cross] <;> ring
  rw [this]
  have ef' : _ = (triVelocity (r t) (r' t) (r'' t)).cross _ := ef
  have en' : _ = (triVelocity (r t) (r' t) (r'' t)).cross _ := en
  have eb' : _ = (triVelocity (r t) (r' t) (r'' t)).cross _ := eb
  rw [← ef', ← en', ← eb']

theorem d2Normalized_eq' {v : R3 ℝ} (h : v ≠ 0) (v' v'' : R3 ℝ) : d2Normalized v v' v'' = d2Unit v v' v'' + (2 * v.dot v'' / v.norm ^ 2) • unit v := by
  rw [d2Normalized_eq]
  have := (norm_pos h).ne'
  ext <;> simp only [unit, R3.div, R3.add_x, R3.add_y, R3.add_z, R3.smul_x, R3.smul_y, R3.smul_z] <;> field_simp

/-- The wrong components of the second derivatives of the trihedron do not matter for the angular acceleration. -/
theorem angularAcceleration_congr {f n b : R3 ℝ} (hfn : f.dot n = 0) (hnb : n.dot b = 0) (hbf : b.dot f = 0) (T' : Trihedron) (f'' n'' b'' : R3 ℝ) (i j k : ℝ) :
    computeAngularAcceleration ⟨f, n, b⟩ T' ⟨f'' + i • f, n'' + j • n, b'' + k • b⟩ = computeAngularAcceleration ⟨f, n, b⟩ T' ⟨f'', n'', b''⟩ := by
  have hl : ∀ (u v w : R3 ℝ) (k : ℝ), (u + k • v).dot w = u.dot w + k * v.dot w := by intro u v w k; simp [R3.dot]; ring
  simp only [computeAngularAcceleration, wedgeVectorBivector, wedgeBivectorVector, hl, hfn, hnb, hbf, mul_zero, add_zero]

/-- The angular acceleration is the derivative of the angular velocity. -/
theorem tri_acceleration (h1 : HasDeriv r (r' t) t) (h2 : HasDeriv r' (r'' t) t) (h3 : HasDeriv r'' (r''' t) t) (h : (r t).cross (r' t) ≠ 0) :
    ∃ α, angularAccelerationOf (r t) (r' t) (r'' t) (r''' t) = some α ∧ HasDeriv (fun s => triVelocity (r s) (r' s) (r'' s)) α t := by
  obtain ⟨hf, hn, hb⟩ := tri_deriv h1 h2 h
  have hf2 : HasDeriv (fun s => (dTri (r s) (r' s) (r'' s)).fore) _ t := HasDeriv.unit2 h1 h2 (left_ne_zero h)
  have hn2 : HasDeriv (fun s => (dTri (r s) (r' s) (r'' s)).normal) _ t := HasDeriv.unit2 (normal_deriv h1 h2) (normal_deriv2 h1 h2 h3) (normal_ne_zero h)
  have hb2 : HasDeriv (fun s => (dTri (r s) (r' s) (r'' s)).binormal) _ t := HasDeriv.unit2 (binormal_deriv h1 h2) (binormal_deriv2 h1 h2 h3) h
  refine ⟨_, by simp only [angularAccelerationOf, computeTrihedra_eq h]; rfl, ?_⟩
  refine ((((HasDeriv.smul (hn2.dot hb) hf).add (HasDeriv.smul (hb2.dot hf) hn)).add (HasDeriv.smul (hf2.dot hn) hb)).congr_fun fun s => rfl).congr_deriv ?_
  obtain ⟨_, _, _, hfn, hnb, hbf, _⟩ := tri_orthonormal h
  have key := angularAcceleration_congr hfn hnb hbf (dTri (r t) (r' t) (r'' t))
  simp only [computeTrihedraDerivatives2, computeTrihedraDerivatives, bivectorTimesVector, wedge]
  rw [d2Normalized_eq' (left_ne_zero h), d2Normalized_eq' (normal_ne_zero h), d2Normalized_eq' h]
  refine Eq.trans ?_ (key _ _ _ _ _ _).symm
  simp only [computeAngularAcceleration, wedgeVectorBivector, wedgeBivectorVector, vectorTimesTrivector]
  ext <;> simp only [R3.add_x, R3.add_y, R3.add_z, R3.smul_x, R3.smul_y, R3.smul_z] <;> ring

end Principia.Physics.Frames
