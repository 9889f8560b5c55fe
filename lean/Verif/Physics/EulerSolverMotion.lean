import Verif.Physics.EulerSolverFormulas

/-!
The angular momentum and the angle ψ follow Euler's equations.
-/

set_option linter.unusedSimpArgs false
set_option linter.unusedVariables false

namespace Principia.Physics.Euler

open Geometry Numerics.Elliptic

/-! ## Formula (ii) -/

section

variable {a b c x y z G p q r mc lam : ℝ}

theorem phase_deriv (lam t₀ ν t : ℝ) : HasDerivAt (fun t => lam * (t - t₀) - ν) lam t := by
  have := (((hasDerivAt_id t).sub_const t₀).const_mul lam).sub_const ν
  simpa using this

theorem jacobi_initial (h0 : 0 < mc) (h1 : mc ≤ 1) (θ : ℝ) :
    jacobiSNCNDN (-ellipticF θ mc) mc = ⟨-Real.sin θ, Real.cos θ, delta mc θ⟩ := by
  unfold jacobiSNCNDN
  rw [amplitude_neg_ellipticF h0 h1]
  simp [delta]

/-- What the proofs below give for each formula. -/
structure Solved (reg : Region) (I : R3 ℝ) (G : ℝ) (m₀ : R3 ℝ) (t₀ : ℝ) (M : ℝ → R3 ℝ) (angle : ℝ → ℝ) : Prop where
  initial : M t₀ = m₀
  euler : ∀ t, HasDeriv M ((M t).cross (angularVelocity I (M t))) t
  region : reg ≠ .Motionless → 0 < G ∧ ∀ t, 0 < G + along reg (M t)
  ψ : angle t₀ = 0
  turns : reg ≠ .Motionless → ∀ t, TurnsAt angle (rate reg G I (M t)) t
  motionless : reg = .Motionless → G = 0 ∧ ∀ t, angle t = 0

/-- The rate of ψ for formula (ii). -/
theorem rate₂ {T E S C D A B : ℝ} (ha : 0 < a) (hab : a ≤ b) (hbc : b < c) (hl : lam ≠ 0) (hs : S ^ 2 + C ^ 2 = 1) (hA : A ^ 2 = b * (c - a)) (hB : B ^ 2 = a * (c - b))
    (hAB : A * B * -lam = (c - b) * (c - a) * r / c) (hp : p ^ 2 * (c - a) = a * E) (hq : q ^ 2 * (c - b) = b * E) (hT : -E = G ^ 2 - T * c)
    (hN : (p * C) ^ 2 + (q * S) ^ 2 + (r * D) ^ 2 = G ^ 2) (hpos : 0 < G + r * D) :
    G / c + G * (c - a) / (lam * a * c) * (1 / (1 - c * (b - a) / (a * -(c - b)) * S ^ 2) * lam) +
      (B * C * (A * (C * D * lam)) - A * S * (B * (-S * D * lam))) / ((B * C) ^ 2 + (A * S) ^ 2) = (T + G * (r * D / c)) / (G + r * D) := by
  have hb : 0 < b := by linarith
  have hc : 0 < c := by linarith
  have hcb : 0 < c - b := by linarith
  have hca : 0 < c - a := by linarith
  have hba : 0 ≤ b - a := by linarith
  have hDen : 0 < a * (c - b) + c * (b - a) * S ^ 2 := by positivity
  have h1 : 1 - c * (b - a) / (a * -(c - b)) * S ^ 2 = (a * (c - b) + c * (b - a) * S ^ 2) / (a * (c - b)) := by
    rw [mul_neg, div_neg]
    field_simp
    ring
  have h2 : (B * C) ^ 2 + (A * S) ^ 2 = a * (c - b) + c * (b - a) * S ^ 2 := by
    rw [mul_pow, mul_pow, hA, hB]
    linear_combination (a * (c - b)) * hs
  have h3 : B * C * (A * (C * D * lam)) - A * S * (B * (-S * D * lam)) = -((c - b) * (c - a) * r / c * D) := by
    rw [← hAB]
    linear_combination (A * B * D * lam) * hs
  rw [h1, h2, h3]
  have h4 : (c - a) * (c - b) * ((p * C) ^ 2 + (q * S) ^ 2) = E * (a * (c - b) + c * (b - a) * S ^ 2) := by
    linear_combination (c - b) * C ^ 2 * hp + (c - a) * S ^ 2 * hq + (a * (c - b) * E) * hs
  generalize hD : a * (c - b) + c * (b - a) * S ^ 2 = Den at *
  rw [eq_div_iff hpos.ne']
  have h5 : G / c + G * (c - a) / (lam * a * c) * (1 / (Den / (a * (c - b))) * lam) + -((c - b) * (c - a) * r / c * D) / Den =
      G / c + (c - a) * (c - b) * (G - r * D) / (c * Den) := by
    field_simp
    ring
  rw [h5]
  have h6 : (c - a) * (c - b) * (G - r * D) / (c * Den) * (G + r * D) = E / c := by
    have : (c - a) * (c - b) * (G - r * D) / (c * Den) * (G + r * D) = (c - a) * (c - b) * (G ^ 2 - (r * D) ^ 2) / (c * Den) := by ring
    rw [this, ← hN, show (p * C) ^ 2 + (q * S) ^ 2 + (r * D) ^ 2 - (r * D) ^ 2 = (p * C) ^ 2 + (q * S) ^ 2 by ring, h4]
    field_simp
  rw [add_mul, h6]
  field_simp
  linear_combination -hT

set_option maxHeartbeats 1000000 in
theorem solved₂ (ha : 0 < a) (hG0 : 0 ≤ G) (hG : x ^ 2 + y ^ 2 + z ^ 2 = G ^ 2) (K : Constants₂ a b c x y z G p q r mc lam) (t₀ : ℝ) :
    Solved .e₃ ⟨a, b, c⟩ G ⟨x, y, z⟩ t₀
      (fun t => ⟨p * (jacobiSNCNDN (lam * (t - t₀) - ellipticF (arcTan (y * p) (x * q)) mc) mc).cn,
        -q * (jacobiSNCNDN (lam * (t - t₀) - ellipticF (arcTan (y * p) (x * q)) mc) mc).sn,
        r * (jacobiSNCNDN (lam * (t - t₀) - ellipticF (arcTan (y * p) (x * q)) mc) mc).dn⟩)
      (fun t => G / c * (t - t₀) + (G * (c - a) / (lam * a * c) * ellipticPi (jacobiAmplitude (lam * (t - t₀) - ellipticF (arcTan (y * p) (x * q)) mc) mc) (c * (b - a) / (a * -(c - b))) mc +
        1 * arcTan (√(b * (c - a)) * (jacobiSNCNDN (lam * (t - t₀) - ellipticF (arcTan (y * p) (x * q)) mc) mc).sn)
          (√(a * (c - b)) * (jacobiSNCNDN (lam * (t - t₀) - ellipticF (arcTan (y * p) (x * q)) mc) mc).cn) -
        (G * (c - a) / (lam * a * c) * ellipticPi (jacobiAmplitude (-ellipticF (arcTan (y * p) (x * q)) mc) mc) (c * (b - a) / (a * -(c - b))) mc +
          1 * arcTan (√(b * (c - a)) * (jacobiSNCNDN (-ellipticF (arcTan (y * p) (x * q)) mc) mc).sn)
            (√(a * (c - b)) * (jacobiSNCNDN (-ellipticF (arcTan (y * p) (x * q)) mc) mc).cn)))) := by
  obtain ⟨⟨hab, hbc⟩, h0, h1, hp, hq, hr, hl, ⟨sp, sq, sr⟩, sl, k1, k2, k3, i1, i2, i3⟩ := K
  have hb : 0 < b := by linarith
  have hc : 0 < c := by linarith
  have hcb : 0 < c - b := by linarith
  have hca : 0 < c - a := by linarith
  have hba : 0 ≤ b - a := by linarith
  obtain ⟨-, -, e3⟩ := delta_identities ha hb hc hG
  generalize arcTan (y * p) (x * q) = θ at *
  generalize hν : ellipticF θ mc = ν at *
  have hinit : (⟨p * (jacobiSNCNDN (lam * (t₀ - t₀) - ν) mc).cn, -q * (jacobiSNCNDN (lam * (t₀ - t₀) - ν) mc).sn, r * (jacobiSNCNDN (lam * (t₀ - t₀) - ν) mc).dn⟩ : R3 ℝ) = ⟨x, y, z⟩ := by
    rw [sub_self, mul_zero, zero_sub, ← hν, jacobi_initial h0 h1]
    simp [i1, i2, i3]
  have heuler : ∀ t, HasDeriv (fun t => (⟨p * (jacobiSNCNDN (lam * (t - t₀) - ν) mc).cn, -q * (jacobiSNCNDN (lam * (t - t₀) - ν) mc).sn, r * (jacobiSNCNDN (lam * (t - t₀) - ν) mc).dn⟩ : R3 ℝ))
      ((⟨p * (jacobiSNCNDN (lam * (t - t₀) - ν) mc).cn, -q * (jacobiSNCNDN (lam * (t - t₀) - ν) mc).sn, r * (jacobiSNCNDN (lam * (t - t₀) - ν) mc).dn⟩ : R3 ℝ).cross
        (angularVelocity ⟨a, b, c⟩ ⟨p * (jacobiSNCNDN (lam * (t - t₀) - ν) mc).cn, -q * (jacobiSNCNDN (lam * (t - t₀) - ν) mc).sn, r * (jacobiSNCNDN (lam * (t - t₀) - ν) mc).dn⟩)) t := by
    intro t
    have hu := phase_deriv lam t₀ ν t
    have dc := ((cn_deriv h0 h1 (lam * (t - t₀) - ν)).comp t hu).const_mul p
    have ds := ((sn_deriv h0 h1 (lam * (t - t₀) - ν)).comp t hu).const_mul (-q)
    have dd := ((dn_deriv h0 h1 (lam * (t - t₀) - ν)).comp t hu).const_mul r
    refine ⟨dc.congr_deriv ?_, ds.congr_deriv ?_, dd.congr_deriv ?_⟩ <;> simp only [R3.cross, angularVelocity] <;>
      generalize jacobiSNCNDN (lam * (t - t₀) - ν) mc = j <;> obtain ⟨S, C, D⟩ := j <;> simp only
    · rw [show p * (-S * D * lam) = (-lam * p) * (S * D) by ring, k1]
      field_simp
      ring
    · rw [show -q * (C * D * lam) = (-lam * q) * (C * D) by ring, k2]
      field_simp
    · rw [show r * (-(1 - mc) * S * C * lam) = (-lam * (1 - mc) * r) * (S * C) by ring, k3]
      field_simp
      ring
  have hGpos : 0 < G := by
    have hz : 0 < z := by rw [← i3]; exact mul_pos hr (delta_pos h0 h1 _)
    exact lt_of_le_of_ne hG0 (fun e => by rw [← e] at hG; nlinarith [sq_nonneg x, sq_nonneg y])
  refine ⟨hinit, heuler, fun _ => ⟨hGpos, fun t => ?_⟩, ?_, fun _ t => ?_, fun h => by simp at h⟩
  · have := mul_pos hr (dn_pos h0 h1 (lam * (t - t₀) - ν))
    simp only [along]
    linarith
  · simp
  · -- The rate of ψ.
    have hu := phase_deriv lam t₀ ν t
    have hn : c * (b - a) / (a * -(c - b)) ≤ 0 := div_nonpos_of_nonneg_of_nonpos (by positivity) (by nlinarith)
    have d1 : HasDerivAt (fun t => G / c * (t - t₀)) (G / c) t := by
      simpa using ((hasDerivAt_id t).sub_const t₀).const_mul (G / c)
    have d2 := ((pi_deriv h0 h1 hn (lam * (t - t₀) - ν)).comp t hu).const_mul (G * (c - a) / (lam * a * c))
    have ds := ((sn_deriv h0 h1 (lam * (t - t₀) - ν)).comp t hu).const_mul (√(b * (c - a)))
    have dc := ((cn_deriv h0 h1 (lam * (t - t₀) - ν)).comp t hu).const_mul (√(a * (c - b)))
    have q1 : √(b * (c - a)) ^ 2 = b * (c - a) := Real.sq_sqrt (by positivity)
    have q2 : √(a * (c - b)) ^ 2 = a * (c - b) := Real.sq_sqrt (by positivity)
    have hpos : ∀ t, 0 < (√(a * (c - b)) * (jacobiSNCNDN (lam * (t - t₀) - ν) mc).cn) ^ 2 + (√(b * (c - a)) * (jacobiSNCNDN (lam * (t - t₀) - ν) mc).sn) ^ 2 := by
      intro t
      rw [mul_pow, mul_pow, q1, q2]
      have := sn_sq_add_cn_sq (mc := mc) (lam * (t - t₀) - ν)
      have h1 : 0 < a * (c - b) := by positivity
      have h2 : a * (c - b) ≤ b * (c - a) := by nlinarith
      nlinarith [sq_nonneg (jacobiSNCNDN (lam * (t - t₀) - ν) mc).sn]
    have d3 := TurnsAt.arcTan ds dc hpos
    have d4 := (TurnsAt.of_hasDerivAt ((d1.add d2).sub_const (G * (c - a) / (lam * a * c) * ellipticPi (jacobiAmplitude (-ν) mc) (c * (b - a) / (a * -(c - b))) mc +
          1 * arcTan (√(b * (c - a)) * (jacobiSNCNDN (-ν) mc).sn) (√(a * (c - b)) * (jacobiSNCNDN (-ν) mc).cn)))).add d3
    refine d4.congr (fun s => by simp only [Pi.add_apply, Function.comp]; ring) ?_
    have hT := (constant_of_euler heuler t₀ t).2
    simp only [hinit] at hT
    have hN := (constant_of_euler heuler t₀ t).1
    simp only [hinit] at hN
    have hs := sn_sq_add_cn_sq (mc := mc) (lam * (t - t₀) - ν)
    have hd := dn_pos h0 h1 (lam * (t - t₀) - ν)
    have hsc : √(b * (c - a)) * √(a * (c - b)) * -lam = (c - b) * (c - a) * r / c := by
      refine eq_of_sq (mul_nonneg (by positivity) (by linarith)) (by positivity) ?_
      rw [mul_pow, mul_pow, q1, q2, div_pow, mul_pow, mul_pow, neg_sq]
      field_simp
      linear_combination c * sl - (c - b) * sr
    simp only [rate, angularVelocity, R3.dot, R3.normSq] at hT hN ⊢
    simp only [Function.comp] at *
    generalize jacobiSNCNDN (lam * (t - t₀) - ν) mc = j at *
    obtain ⟨S, C, D⟩ := j
    simp only at *
    refine (rate₂ (T := p * C * (p * C / a) + -q * S * (-q * S / b) + r * D * (r * D / c)) ha hab hbc hl.ne hs q1 q2 hsc sp sq ?_ ?_ ?_).symm
    · rw [neg_neg, hT, e3]
      ring
    · rw [← hG]; linear_combination hN
    · nlinarith

/-! ## Formula (i) -/

/-- The rate of ψ for formula (i). -/
theorem rate₁ {T E S C D A B : ℝ} (ha : 0 < a) (hab : a < b) (hbc : b ≤ c) (hl : lam ≠ 0) (hs : S ^ 2 + C ^ 2 = 1) (hA : A ^ 2 = b * (c - a)) (hB : B ^ 2 = c * (b - a))
    (hAB : A * B * -lam = (b - a) * (c - a) * p / a) (hr : r ^ 2 * (c - a) = c * E) (hq : q ^ 2 * (b - a) = b * E) (hT : E = G ^ 2 - T * a)
    (hN : (r * C) ^ 2 + (q * S) ^ 2 + (p * D) ^ 2 = G ^ 2) (hpos : 0 < G + p * D) :
    G / a + G * -(c - a) / (lam * a * c) * (1 / (1 - a * (c - b) / (c * -(b - a)) * S ^ 2) * lam) +
      -((B * C * (A * (C * D * lam)) - A * S * (B * (-S * D * lam))) / ((B * C) ^ 2 + (A * S) ^ 2)) = (T + G * (p * D / a)) / (G + p * D) := by
  have hb : 0 < b := by linarith
  have hc : 0 < c := by linarith
  have hba : 0 < b - a := by linarith
  have hca : 0 < c - a := by linarith
  have hcb : 0 ≤ c - b := by linarith
  have hDen : 0 < c * (b - a) + a * (c - b) * S ^ 2 := by positivity
  have h1 : 1 - a * (c - b) / (c * -(b - a)) * S ^ 2 = (c * (b - a) + a * (c - b) * S ^ 2) / (c * (b - a)) := by
    rw [mul_neg, div_neg]
    field_simp
    ring
  have h2 : (B * C) ^ 2 + (A * S) ^ 2 = c * (b - a) + a * (c - b) * S ^ 2 := by
    rw [mul_pow, mul_pow, hA, hB]
    linear_combination (c * (b - a)) * hs
  have h3 : B * C * (A * (C * D * lam)) - A * S * (B * (-S * D * lam)) = -((b - a) * (c - a) * p / a * D) := by
    rw [← hAB]
    linear_combination (A * B * D * lam) * hs
  rw [h1, h2, h3]
  have h4 : (c - a) * (b - a) * ((r * C) ^ 2 + (q * S) ^ 2) = E * (c * (b - a) + a * (c - b) * S ^ 2) := by
    linear_combination (b - a) * C ^ 2 * hr + (c - a) * S ^ 2 * hq + (c * (b - a) * E) * hs
  generalize hD : c * (b - a) + a * (c - b) * S ^ 2 = Den at *
  rw [eq_div_iff hpos.ne']
  have h5 : G / a + G * -(c - a) / (lam * a * c) * (1 / (Den / (c * (b - a))) * lam) + -(-((b - a) * (c - a) * p / a * D) / Den) =
      G / a - (c - a) * (b - a) * (G - p * D) / (a * Den) := by
    field_simp
    ring
  rw [h5]
  have h6 : (c - a) * (b - a) * (G - p * D) / (a * Den) * (G + p * D) = E / a := by
    have : (c - a) * (b - a) * (G - p * D) / (a * Den) * (G + p * D) = (c - a) * (b - a) * (G ^ 2 - (p * D) ^ 2) / (a * Den) := by ring
    rw [this, ← hN, show (r * C) ^ 2 + (q * S) ^ 2 + (p * D) ^ 2 - (p * D) ^ 2 = (r * C) ^ 2 + (q * S) ^ 2 by ring, h4]
    field_simp
  rw [sub_mul, h6]
  field_simp
  linear_combination -hT

set_option maxHeartbeats 1000000 in
theorem solved₁ (ha : 0 < a) (hG0 : 0 ≤ G) (hG : x ^ 2 + y ^ 2 + z ^ 2 = G ^ 2) (K : Constants₁ a b c x y z G p q r mc lam) (t₀ : ℝ) :
    Solved .e₁ ⟨a, b, c⟩ G ⟨x, y, z⟩ t₀
      (fun t => ⟨p * (jacobiSNCNDN (lam * (t - t₀) - ellipticF (arcTan (y * r) (z * q)) mc) mc).dn,
        -q * (jacobiSNCNDN (lam * (t - t₀) - ellipticF (arcTan (y * r) (z * q)) mc) mc).sn,
        r * (jacobiSNCNDN (lam * (t - t₀) - ellipticF (arcTan (y * r) (z * q)) mc) mc).cn⟩)
      (fun t => G / a * (t - t₀) + (G * -(c - a) / (lam * a * c) * ellipticPi (jacobiAmplitude (lam * (t - t₀) - ellipticF (arcTan (y * r) (z * q)) mc) mc) (a * (c - b) / (c * -(b - a))) mc +
        -1 * arcTan (√(b * (c - a)) * (jacobiSNCNDN (lam * (t - t₀) - ellipticF (arcTan (y * r) (z * q)) mc) mc).sn)
          (√(c * (b - a)) * (jacobiSNCNDN (lam * (t - t₀) - ellipticF (arcTan (y * r) (z * q)) mc) mc).cn) -
        (G * -(c - a) / (lam * a * c) * ellipticPi (jacobiAmplitude (-ellipticF (arcTan (y * r) (z * q)) mc) mc) (a * (c - b) / (c * -(b - a))) mc +
          -1 * arcTan (√(b * (c - a)) * (jacobiSNCNDN (-ellipticF (arcTan (y * r) (z * q)) mc) mc).sn)
            (√(c * (b - a)) * (jacobiSNCNDN (-ellipticF (arcTan (y * r) (z * q)) mc) mc).cn)))) := by
  obtain ⟨⟨hab, hbc⟩, h0, h1, hp, hq, hr, hl, ⟨sp, sq, sr⟩, sl, k1, k2, k3, i3, i2, i1⟩ := K
  have hb : 0 < b := by linarith
  have hc : 0 < c := by linarith
  have hcb : 0 ≤ c - b := by linarith
  have hca : 0 < c - a := by linarith
  have hba : 0 < b - a := by linarith
  obtain ⟨e3, -, -⟩ := delta_identities ha hb hc hG
  generalize arcTan (y * r) (z * q) = θ at *
  generalize hν : ellipticF θ mc = ν at *
  have hinit : (⟨p * (jacobiSNCNDN (lam * (t₀ - t₀) - ν) mc).dn, -q * (jacobiSNCNDN (lam * (t₀ - t₀) - ν) mc).sn, r * (jacobiSNCNDN (lam * (t₀ - t₀) - ν) mc).cn⟩ : R3 ℝ) = ⟨x, y, z⟩ := by
    rw [sub_self, mul_zero, zero_sub, ← hν, jacobi_initial h0 h1]
    simp [i1, i2, i3]
  have heuler : ∀ t, HasDeriv (fun t => (⟨p * (jacobiSNCNDN (lam * (t - t₀) - ν) mc).dn, -q * (jacobiSNCNDN (lam * (t - t₀) - ν) mc).sn, r * (jacobiSNCNDN (lam * (t - t₀) - ν) mc).cn⟩ : R3 ℝ))
      ((⟨p * (jacobiSNCNDN (lam * (t - t₀) - ν) mc).dn, -q * (jacobiSNCNDN (lam * (t - t₀) - ν) mc).sn, r * (jacobiSNCNDN (lam * (t - t₀) - ν) mc).cn⟩ : R3 ℝ).cross
        (angularVelocity ⟨a, b, c⟩ ⟨p * (jacobiSNCNDN (lam * (t - t₀) - ν) mc).dn, -q * (jacobiSNCNDN (lam * (t - t₀) - ν) mc).sn, r * (jacobiSNCNDN (lam * (t - t₀) - ν) mc).cn⟩)) t := by
    intro t
    have hu := phase_deriv lam t₀ ν t
    have dc := ((cn_deriv h0 h1 (lam * (t - t₀) - ν)).comp t hu).const_mul r
    have ds := ((sn_deriv h0 h1 (lam * (t - t₀) - ν)).comp t hu).const_mul (-q)
    have dd := ((dn_deriv h0 h1 (lam * (t - t₀) - ν)).comp t hu).const_mul p
    refine ⟨dd.congr_deriv ?_, ds.congr_deriv ?_, dc.congr_deriv ?_⟩ <;> simp only [R3.cross, angularVelocity] <;>
      generalize jacobiSNCNDN (lam * (t - t₀) - ν) mc = j <;> obtain ⟨S, C, D⟩ := j <;> simp only
    · rw [show p * (-(1 - mc) * S * C * lam) = (-lam * (1 - mc) * p) * (S * C) by ring, k1]
      field_simp
      ring
    · rw [show -q * (C * D * lam) = (-lam * q) * (C * D) by ring, k2]
      field_simp
    · rw [show r * (-S * D * lam) = (-lam * r) * (S * D) by ring, k3]
      field_simp
      ring
  have hGpos : 0 < G := by
    have hx : 0 < x := by rw [← i1]; exact mul_pos hp (delta_pos h0 h1 _)
    exact lt_of_le_of_ne hG0 (fun e => by rw [← e] at hG; nlinarith [sq_nonneg z, sq_nonneg y])
  refine ⟨hinit, heuler, fun _ => ⟨hGpos, fun t => ?_⟩, ?_, fun _ t => ?_, fun h => by simp at h⟩
  · have := mul_pos hp (dn_pos h0 h1 (lam * (t - t₀) - ν))
    simp only [along]
    linarith
  · simp
  · -- The rate of ψ.
    have hu := phase_deriv lam t₀ ν t
    have hn : a * (c - b) / (c * -(b - a)) ≤ 0 := div_nonpos_of_nonneg_of_nonpos (by positivity) (by nlinarith)
    have d1 : HasDerivAt (fun t => G / a * (t - t₀)) (G / a) t := by
      simpa using ((hasDerivAt_id t).sub_const t₀).const_mul (G / a)
    have d2 := ((pi_deriv h0 h1 hn (lam * (t - t₀) - ν)).comp t hu).const_mul (G * -(c - a) / (lam * a * c))
    have ds := ((sn_deriv h0 h1 (lam * (t - t₀) - ν)).comp t hu).const_mul (√(b * (c - a)))
    have dc := ((cn_deriv h0 h1 (lam * (t - t₀) - ν)).comp t hu).const_mul (√(c * (b - a)))
    have q1 : √(b * (c - a)) ^ 2 = b * (c - a) := Real.sq_sqrt (by positivity)
    have q2 : √(c * (b - a)) ^ 2 = c * (b - a) := Real.sq_sqrt (by positivity)
    have hpos : ∀ t, 0 < (√(c * (b - a)) * (jacobiSNCNDN (lam * (t - t₀) - ν) mc).cn) ^ 2 + (√(b * (c - a)) * (jacobiSNCNDN (lam * (t - t₀) - ν) mc).sn) ^ 2 := by
      intro t
      rw [mul_pow, mul_pow, q1, q2]
      have := sn_sq_add_cn_sq (mc := mc) (lam * (t - t₀) - ν)
      have h1 : 0 < c * (b - a) := by positivity
      have h2 : c * (b - a) ≤ b * (c - a) := by nlinarith
      nlinarith [sq_nonneg (jacobiSNCNDN (lam * (t - t₀) - ν) mc).sn]
    have d3 := TurnsAt.arcTan ds dc hpos
    have d4 := (TurnsAt.of_hasDerivAt ((d1.add d2).sub_const (G * -(c - a) / (lam * a * c) * ellipticPi (jacobiAmplitude (-ν) mc) (a * (c - b) / (c * -(b - a))) mc +
          -1 * arcTan (√(b * (c - a)) * (jacobiSNCNDN (-ν) mc).sn) (√(c * (b - a)) * (jacobiSNCNDN (-ν) mc).cn)))).add d3.neg
    refine d4.congr (fun s => by simp only [Pi.add_apply, Function.comp]; ring) ?_
    have hT := (constant_of_euler heuler t₀ t).2
    simp only [hinit] at hT
    have hN := (constant_of_euler heuler t₀ t).1
    simp only [hinit] at hN
    have hs := sn_sq_add_cn_sq (mc := mc) (lam * (t - t₀) - ν)
    have hd := dn_pos h0 h1 (lam * (t - t₀) - ν)
    have hsc : √(b * (c - a)) * √(c * (b - a)) * -lam = (b - a) * (c - a) * p / a := by
      refine eq_of_sq (mul_nonneg (by positivity) (by linarith)) (by positivity) ?_
      rw [mul_pow, mul_pow, q1, q2, div_pow, mul_pow, mul_pow, neg_sq]
      field_simp
      linear_combination a * sl - (b - a) * sp
    simp only [rate, angularVelocity, R3.dot, R3.normSq] at hT hN ⊢
    simp only [Function.comp] at *
    generalize jacobiSNCNDN (lam * (t - t₀) - ν) mc = j at *
    obtain ⟨S, C, D⟩ := j
    simp only at *
    refine (rate₁ (T := p * D * (p * D / a) + -q * S * (-q * S / b) + r * C * (r * C / c)) ha hab hbc hl.ne hs q1 q2 hsc sr sq ?_ ?_ ?_).symm
    · rw [hT, e3]
      ring
    · rw [← hG]; linear_combination hN
    · nlinarith

/-! ## Formula (iii) -/

/-- The constants of formula (iii). -/
structure Constants₃ (a b c x y z G p r lam : ℝ) : Prop where
  p_nonneg : 0 ≤ p
  r_nonneg : 0 ≤ r
  norm : p ^ 2 + r ^ 2 = G ^ 2
  first : lam * p = G * r * (c - b) / (b * c)
  second : lam * G = p * r * (c - a) / (a * c)
  third : lam * r = G * p * (b - a) / (a * b)
  initial_x : p ^ 2 * (x ^ 2 + z ^ 2) = x ^ 2 * G ^ 2
  initial_z : r ^ 2 * (x ^ 2 + z ^ 2) = z ^ 2 * G ^ 2
  energy : x * (x / a) + y * (y / b) + z * (z / c) = G ^ 2 / b

set_option maxHeartbeats 1000000 in
theorem constants₃ (ha : 0 < a) (hab : a ≤ b) (hbc : b ≤ c) (hac : c - a ≠ 0) (hG0 : 0 < G) (hG : x ^ 2 + y ^ 2 + z ^ 2 = G ^ 2) (h2 : Δ₂ ⟨a, b, c⟩ ⟨x, y, z⟩ = 0) :
    Constants₃ a b c x y z G (√(a * Δ₃ ⟨a, b, c⟩ ⟨x, y, z⟩ / -(c - a))) (√(c * Δ₁ ⟨a, b, c⟩ ⟨x, y, z⟩ / (c - a)))
      (√(-Δ₁ ⟨a, b, c⟩ ⟨x, y, z⟩ * Δ₃ ⟨a, b, c⟩ ⟨x, y, z⟩ / (a * c)) / G) := by
  have hb : 0 < b := by linarith
  have hc : 0 < c := by linarith
  have hcb : 0 ≤ c - b := by linarith
  have hca : 0 < c - a := lt_of_le_of_ne (by linarith) (Ne.symm hac)
  have hba : 0 ≤ b - a := by linarith
  obtain ⟨e1, e2, e3⟩ := delta_identities ha hb hc hG
  have hT : x ^ 2 / a + y ^ 2 / b + z ^ 2 / c = G ^ 2 / b := by
    rw [h2] at e2
    rw [eq_div_iff hb.ne']
    linarith
  rw [hT] at e1 e3
  have h1 : Δ₁ ⟨a, b, c⟩ ⟨x, y, z⟩ = G ^ 2 * (b - a) / b := by rw [e1]; field_simp
  have h3 : Δ₃ ⟨a, b, c⟩ ⟨x, y, z⟩ = -(G ^ 2 * (c - b) / b) := by rw [e3]; field_simp; ring
  have hxz : a * (c - b) * z ^ 2 = c * (b - a) * x ^ 2 := by
    simp only [Δ₂] at h2
    field_simp at h2
    linear_combination h2
  rw [h1, h3]
  rw [show a * -(G ^ 2 * (c - b) / b) / -(c - a) = a * (c - b) * G ^ 2 / (b * (c - a)) by rw [mul_neg, neg_div_neg_eq]; field_simp,
    show c * (G ^ 2 * (b - a) / b) / (c - a) = c * (b - a) * G ^ 2 / (b * (c - a)) by field_simp,
    show -(G ^ 2 * (b - a) / b) * -(G ^ 2 * (c - b) / b) / (a * c) = G ^ 4 * ((b - a) * (c - b)) / (b ^ 2 * (a * c)) by rw [neg_mul_neg]; field_simp]
  have hp2 : √(a * (c - b) * G ^ 2 / (b * (c - a))) ^ 2 = a * (c - b) * G ^ 2 / (b * (c - a)) := Real.sq_sqrt (by positivity)
  have hr2 : √(c * (b - a) * G ^ 2 / (b * (c - a))) ^ 2 = c * (b - a) * G ^ 2 / (b * (c - a)) := Real.sq_sqrt (by positivity)
  have hl2 : (√(G ^ 4 * ((b - a) * (c - b)) / (b ^ 2 * (a * c))) / G) ^ 2 = G ^ 2 * ((b - a) * (c - b)) / (b ^ 2 * (a * c)) := by
    rw [div_pow, Real.sq_sqrt (by positivity)]
    field_simp
  have hl : 0 ≤ √(G ^ 4 * ((b - a) * (c - b)) / (b ^ 2 * (a * c))) / G := by positivity
  have hp := Real.sqrt_nonneg (a * (c - b) * G ^ 2 / (b * (c - a)))
  have hr := Real.sqrt_nonneg (c * (b - a) * G ^ 2 / (b * (c - a)))
  generalize √(a * (c - b) * G ^ 2 / (b * (c - a))) = p at *
  generalize √(c * (b - a) * G ^ 2 / (b * (c - a))) = r at *
  generalize √(G ^ 4 * ((b - a) * (c - b)) / (b ^ 2 * (a * c))) / G = l at *
  refine ⟨hp, hr, ?_, ?_, ?_, ?_, ?_, ?_, ?_⟩
  · rw [hp2, hr2]
    field_simp
    ring
  · refine eq_of_sq (by positivity) (by positivity) ?_
    rw [mul_pow, div_pow, mul_pow, mul_pow, hl2, hp2, hr2]
    field_simp
  · refine eq_of_sq (by positivity) (by positivity) ?_
    rw [mul_pow, div_pow, mul_pow, mul_pow, hl2, hp2, hr2]
    field_simp
  · refine eq_of_sq (by positivity) (by positivity) ?_
    rw [mul_pow, div_pow, mul_pow, mul_pow, hl2, hp2, hr2]
    field_simp
  · rw [hp2]
    field_simp
    linear_combination hxz
  · rw [hr2]
    field_simp
    linear_combination -hxz
  · rw [← hT]; ring

theorem tanh_deriv (u : ℝ) : HasDerivAt Real.tanh (1 / Real.cosh u ^ 2) u := by
  have h := (Real.hasDerivAt_sinh u).div (Real.hasDerivAt_cosh u) (Real.cosh_pos u).ne'
  have e : Real.tanh = fun x => Real.sinh x / Real.cosh x := funext Real.tanh_eq_sinh_div_cosh
  rw [e]
  refine h.congr_deriv ?_
  rw [← Real.cosh_sq_sub_sinh_sq u]
  ring

theorem sech_deriv (u : ℝ) : HasDerivAt (fun u => 1 / Real.cosh u) (-(1 / Real.cosh u * Real.tanh u)) u := by
  have h := (Real.hasDerivAt_cosh u).inv (Real.cosh_pos u).ne'
  simp only [one_div]
  refine h.congr_deriv ?_
  rw [Real.tanh_eq_sinh_div_cosh]
  have := (Real.cosh_pos u).ne'
  field_simp

/-- The rate of the arctangent of formula (iii). -/
theorem turn₃ {u : ℝ → ℝ} {t : ℝ} (hu : HasDerivAt u lam t) (hp : 0 < p) (hr : 0 ≤ r) (hG0 : 0 < G) (hG : p ^ 2 + r ^ 2 = G ^ 2) :
    TurnsAt (fun s => arcTan ((r - G) * Real.tanh (0.5 * u s)) p) (-(lam * p * (1 / Real.cosh (u t)) / (2 * (G + r * (1 / Real.cosh (u t)))))) t := by
  have hrG : r < G := by nlinarith
  have h5 : HasDerivAt (fun s => 0.5 * u s) (0.5 * lam) t := hu.const_mul 0.5
  have hS := ((tanh_deriv (0.5 * u t)).comp t h5).const_mul (r - G)
  have hC : HasDerivAt (fun _ => p) 0 t := hasDerivAt_const t p
  have h := TurnsAt.arcTan hS hC (fun s => by
    have := sq_nonneg ((r - G) * (Real.tanh ∘ fun s => 0.5 * u s) s)
    positivity)
  refine h.congr (fun s => rfl) ?_
  simp only [Function.comp]
  have e : Real.cosh (u t) = 2 * Real.cosh (0.5 * u t) ^ 2 - 1 := by
    have := Real.cosh_two_mul (0.5 * u t)
    rw [show 2 * (0.5 * u t) = u t by ring] at this
    rw [this]
    have := Real.cosh_sq_sub_sinh_sq (0.5 * u t)
    linarith
  have hs := Real.cosh_sq_sub_sinh_sq (0.5 * u t)
  have hpos := Real.cosh_pos (0.5 * u t)
  have hpos' := Real.cosh_pos (u t)
  rw [Real.tanh_eq_sinh_div_cosh]
  generalize Real.cosh (u t) = k at *
  generalize Real.cosh (0.5 * u t) = C at *
  generalize Real.sinh (0.5 * u t) = S at *
  have hd : p ^ 2 + ((r - G) * (S / C)) ^ 2 = (G - r) * (G * k + r) / C ^ 2 := by
    rw [mul_pow, div_pow, show p ^ 2 = (G - r) * (G + r) by linear_combination hG, e]
    field_simp
    linear_combination -(G - r) ^ 2 * hs
  rw [hd]
  have h1 : 0 < G - r := by linarith
  have h2 : 0 < G * k + r := by positivity
  have h3 : G + r * (1 / k) = (G * k + r) / k := by field_simp
  rw [h3]
  field_simp
  ring

theorem arcTanh_cases (hG0 : 0 < G) (hG : x ^ 2 + y ^ 2 + z ^ 2 = G ^ 2) :
    (∃ k, arcTanh (y / G) = .finite k ∧ G * Real.tanh k = y ∧ (G * (1 / Real.cosh k)) ^ 2 = x ^ 2 + z ^ 2) ∨
      (∃ σ : Sign, arcTanh (y / G) = .infinite σ ∧ y = G * σ.act 1 ∧ x = 0 ∧ z = 0) := by
  have hy : y ^ 2 ≤ G ^ 2 := by nlinarith [sq_nonneg x, sq_nonneg z]
  by_cases h1 : y / G = 1
  · right
    have hyG : y = G := by rwa [div_eq_one_iff_eq hG0.ne'] at h1
    refine ⟨.Positive, by rw [arcTanh, if_pos h1], by simp [Sign.act, Sign.Positive, hyG], ?_, ?_⟩
    · nlinarith [sq_nonneg x, sq_nonneg z]
    · nlinarith [sq_nonneg x, sq_nonneg z]
  · by_cases h2 : y / G = -1
    · right
      have hyG : y = -G := by rw [div_eq_iff hG0.ne'] at h2; linarith
      refine ⟨.Negative, by rw [arcTanh, if_neg h1, if_pos h2], by simp [Sign.act, Sign.Negative, hyG], ?_, ?_⟩
      · nlinarith [sq_nonneg x, sq_nonneg z]
      · nlinarith [sq_nonneg x, sq_nonneg z]
    · left
      have habs := abs_le_of_sq_le_sq' hy hG0.le
      have hI : y / G ∈ Set.Ioo (-1 : ℝ) 1 := by
        constructor
        · refine lt_of_le_of_ne ?_ (Ne.symm h2)
          rw [le_div_iff₀ hG0]; linarith
        · refine lt_of_le_of_ne ?_ h1
          rw [div_le_iff₀ hG0]; linarith
      refine ⟨Real.artanh (y / G), by rw [arcTanh, if_neg h1, if_neg h2], ?_, ?_⟩
      · rw [Real.tanh_artanh hI]; field_simp
      · rw [Real.cosh_artanh hI, one_div_one_div, mul_pow, Real.sq_sqrt (by nlinarith [hI.1, hI.2])]
        field_simp
        linarith

/-- The angular momentum of formula (iii). -/
noncomputable def momentum₃ (p r G : ℝ) (u : Extended) : R3 ℝ := ⟨p * u.sech, G * u.tanh, r * u.sech⟩

theorem sign_act (σ : Sign) (k : ℝ) : σ.act k = k ∨ σ.act k = -k := by
  unfold Sign.act
  by_cases h : σ.negative = true
  · right; rw [if_pos h]
  · left; rw [if_neg h]

theorem sign_negative (σ : Sign) (k : ℝ) : ((σ.mul .Negative).mul .Negative).act k = σ.act k := by
  obtain ⟨σ⟩ := σ
  cases σ <;> simp [Sign.mul, Sign.act, Sign.Negative]

set_option maxHeartbeats 1000000 in
theorem solved₃ (reg : Region) (hreg : (reg = .e₁ ∧ p < r) ∨ (reg = .e₃ ∧ r ≤ p)) (ha : 0 < a) (hb : 0 < b) (hc : 0 < c) (hG0 : 0 < G) (hG : x ^ 2 + y ^ 2 + z ^ 2 = G ^ 2) (hx : 0 ≤ x) (hz : 0 ≤ z)
    (K : Constants₃ a b c x y z G p r lam) (t₀ : ℝ) (k : ℝ × ℝ × ℝ) (hk : k = if reg = .e₁ then (-2, r, p - G) else (2, p, r - G)) :
    Solved reg ⟨a, b, c⟩ G ⟨x, y, z⟩ t₀ (fun t => momentum₃ p r G ((arcTanh (y / G)).neg.realSub (lam * (t - t₀))))
      (fun t => G / b * (t - t₀) + k.1 * (arcTan (k.2.2 * ((arcTanh (y / G)).neg.realSub (lam * (t - t₀))).half.tanh) k.2.1 -
        arcTan (k.2.2 * (arcTanh (y / G)).neg.half.neg.tanh) k.2.1)) := by
  obtain ⟨hp, hr, hpr, k1, k2, k3, i1, i3, hE⟩ := K
  have hne : reg ≠ .Motionless := by rcases hreg with ⟨h, -⟩ | ⟨h, -⟩ <;> rw [h] <;> simp
  rcases arcTanh_cases hG0 hG with ⟨κ, e, ey, ez⟩ | ⟨σ, e, ey, ex, ez⟩
  · -- The general case.
    rw [e]
    simp only [Extended.neg, Extended.realSub, Extended.half, momentum₃, Extended.sech, Extended.tanh]
    have hchi : 0 < 1 / Real.cosh κ := one_div_pos.2 (Real.cosh_pos κ)
    have hinit : (⟨p * (1 / Real.cosh (lam * (t₀ - t₀) - -κ)), G * Real.tanh (lam * (t₀ - t₀) - -κ), r * (1 / Real.cosh (lam * (t₀ - t₀) - -κ))⟩ : R3 ℝ) = ⟨x, y, z⟩ := by
      rw [sub_self, mul_zero, zero_sub, neg_neg]
      congr 1
      · refine eq_of_sq (by positivity) hx ?_
        have : G ^ 2 * (p * (1 / Real.cosh κ)) ^ 2 = G ^ 2 * x ^ 2 := by rw [mul_pow] at *; linear_combination p ^ 2 * ez + i1
        exact mul_left_cancel₀ (by positivity) this
      · refine eq_of_sq (by positivity) hz ?_
        have : G ^ 2 * (r * (1 / Real.cosh κ)) ^ 2 = G ^ 2 * z ^ 2 := by rw [mul_pow] at *; linear_combination r ^ 2 * ez + i3
        exact mul_left_cancel₀ (by positivity) this
    have hM : ∀ t, HasDeriv (fun t => (⟨p * (1 / Real.cosh (lam * (t - t₀) - -κ)), G * Real.tanh (lam * (t - t₀) - -κ), r * (1 / Real.cosh (lam * (t - t₀) - -κ))⟩ : R3 ℝ))
        ((⟨p * (1 / Real.cosh (lam * (t - t₀) - -κ)), G * Real.tanh (lam * (t - t₀) - -κ), r * (1 / Real.cosh (lam * (t - t₀) - -κ))⟩ : R3 ℝ).cross
          (angularVelocity ⟨a, b, c⟩ ⟨p * (1 / Real.cosh (lam * (t - t₀) - -κ)), G * Real.tanh (lam * (t - t₀) - -κ), r * (1 / Real.cosh (lam * (t - t₀) - -κ))⟩)) t := by
      intro t
      have hu := phase_deriv lam t₀ (-κ) t
      have dx := ((sech_deriv _).comp t hu).const_mul p
      have dy := ((tanh_deriv _).comp t hu).const_mul G
      have dz := ((sech_deriv _).comp t hu).const_mul r
      refine ⟨dx.congr_deriv ?_, dy.congr_deriv ?_, dz.congr_deriv ?_⟩ <;> simp only [R3.cross, angularVelocity]
      · generalize 1 / Real.cosh (lam * (t - t₀) - -κ) = C
        generalize Real.tanh (lam * (t - t₀) - -κ) = S
        rw [show p * (-(C * S) * lam) = -(lam * p) * (C * S) by ring, k1]
        field_simp
        ring
      · rw [show 1 / Real.cosh (lam * (t - t₀) - -κ) ^ 2 = (1 / Real.cosh (lam * (t - t₀) - -κ)) ^ 2 by rw [div_pow, one_pow]]
        generalize 1 / Real.cosh (lam * (t - t₀) - -κ) = C
        rw [show G * (C ^ 2 * lam) = (lam * G) * C ^ 2 by ring, k2]
        field_simp
      · generalize 1 / Real.cosh (lam * (t - t₀) - -κ) = C
        generalize Real.tanh (lam * (t - t₀) - -κ) = S
        rw [show r * (-(C * S) * lam) = -(lam * r) * (C * S) by ring, k3]
        field_simp
        ring
    refine ⟨hinit, hM, fun _ => ⟨hG0, fun t => ?_⟩, ?_, fun _ t => ?_, fun h => absurd h hne⟩
    · have := one_div_pos.2 (Real.cosh_pos (lam * (t - t₀) - -κ))
      rcases hreg with ⟨h, -⟩ | ⟨h, -⟩ <;> rw [h] <;> simp only [along] <;> positivity
    · simp only [sub_self, mul_zero, zero_add, zero_sub]
      rw [show (0.5 : ℝ) * - -κ = -(0.5 * -κ) by ring, sub_self, mul_zero]
    · have hu := phase_deriv lam t₀ (-κ) t
      have hT := (constant_of_euler hM t₀ t).2
      simp only [hinit] at hT
      have hTE : (⟨x, y, z⟩ : R3 ℝ).dot (angularVelocity ⟨a, b, c⟩ ⟨x, y, z⟩) = G ^ 2 / b := by
        simp only [R3.dot, angularVelocity]; exact hE
      rw [hTE] at hT
      have d1 : HasDerivAt (fun t => G / b * (t - t₀)) (G / b) t := by
        simpa using ((hasDerivAt_id t).sub_const t₀).const_mul (G / b)
      have hC := one_div_pos.2 (Real.cosh_pos (lam * (t - t₀) - -κ))
      rcases hreg with ⟨h, hlt⟩ | ⟨h, hle⟩
      · subst h
        rw [if_pos rfl] at hk
        subst hk
        have hr0 : 0 < r := by linarith
        have d := turn₃ (G := G) (p := r) (r := p) hu hr0 hp hG0 (by rw [← hpr]; ring)
        have d2 := ((TurnsAt.of_hasDerivAt (d1.add_const (2 * arcTan ((p - G) * Real.tanh (-(0.5 * -κ))) r))).add d.neg).add d.neg
        refine d2.congr (fun s => by ring) ?_
        simp only [rate]
        rw [hT]
        simp only [angularVelocity]
        generalize 1 / Real.cosh (lam * (t - t₀) - -κ) = C at *
        have hpos : 0 < G + p * C := by positivity
        rw [div_eq_iff hpos.ne']
        have : (G / b + - -(lam * r * C / (2 * (G + p * C))) + - -(lam * r * C / (2 * (G + p * C)))) * (G + p * C) = G / b * (G + p * C) + lam * r * C := by
          field_simp
          ring
        rw [this, k3]
        field_simp
        ring
      · subst h
        rw [if_neg (by simp)] at hk
        subst hk
        have hp0 : 0 < p := by
          rcases hp.lt_or_eq with h | h
          · exact h
          · exfalso; rw [← h] at hpr hle; nlinarith
        have d := turn₃ (G := G) (p := p) (r := r) hu hp0 hr hG0 hpr
        have d2 := ((TurnsAt.of_hasDerivAt (d1.add_const (-2 * arcTan ((r - G) * Real.tanh (-(0.5 * -κ))) p))).add d).add d
        refine d2.congr (fun s => by ring) ?_
        simp only [rate]
        rw [hT]
        simp only [angularVelocity]
        generalize 1 / Real.cosh (lam * (t - t₀) - -κ) = C at *
        have hpos : 0 < G + r * C := by positivity
        rw [div_eq_iff hpos.ne']
        have : (G / b + -(lam * p * C / (2 * (G + r * C))) + -(lam * p * C / (2 * (G + r * C)))) * (G + r * C) = G / b * (G + r * C) - lam * p * C := by
          field_simp
          ring
        rw [this, k1]
        field_simp
        ring
  · -- The body turns around its second principal axis.
    rw [e]
    simp only [Extended.neg, Extended.realSub, Extended.half, momentum₃, Extended.sech, Extended.tanh, sign_negative, mul_zero, sub_self, add_zero]
    subst ex ez
    rw [← ey]
    refine ⟨rfl, fun t => ?_, fun _ => ⟨hG0, fun t => ?_⟩, by simp, fun _ t => ?_, fun h => absurd h hne⟩
    · refine ⟨(hasDerivAt_const t _).congr_deriv ?_, (hasDerivAt_const t _).congr_deriv ?_, (hasDerivAt_const t _).congr_deriv ?_⟩ <;> simp [R3.cross, angularVelocity]
    · rcases hreg with ⟨h, -⟩ | ⟨h, -⟩ <;> rw [h] <;> simp [along, hG0]
    · have d1 : HasDerivAt (fun t => G / b * (t - t₀)) (G / b) t := by
        simpa using ((hasDerivAt_id t).sub_const t₀).const_mul (G / b)
      refine (TurnsAt.of_hasDerivAt d1).congr (fun _ => rfl) ?_
      have hy : y * y = G * G := by nlinarith
      rcases hreg with ⟨h, -⟩ | ⟨h, -⟩ <;> rw [h] <;> simp [rate, R3.dot, angularVelocity] <;> field_simp <;> nlinarith

/-! ## The sphere -/

theorem solvedSphere {reg : Region} (hG : 0 ≤ G) (hreg : reg = .Motionless → G = 0) (hpos : reg ≠ .Motionless → 0 < G ∧ 0 ≤ along reg ⟨x, y, z⟩ ∧ a = b ∧ b = c) (hn : x ^ 2 + y ^ 2 + z ^ 2 = G ^ 2) (t₀ : ℝ) :
    Solved reg ⟨a, b, c⟩ G ⟨x, y, z⟩ t₀ (fun _ => ⟨x, y, z⟩) (fun t => G / b * (t - t₀)) := by
  refine ⟨rfl, fun t => ?_, fun h => ?_, by simp, fun h t => ?_, fun h => ?_⟩
  · have hz : (⟨x, y, z⟩ : R3 ℝ).cross (angularVelocity ⟨a, b, c⟩ ⟨x, y, z⟩) = ⟨0, 0, 0⟩ := by
      by_cases h : reg = .Motionless
      · rw [hreg h] at hn
        have hx : x = 0 := by nlinarith [sq_nonneg x, sq_nonneg y, sq_nonneg z]
        have hy : y = 0 := by nlinarith [sq_nonneg x, sq_nonneg y, sq_nonneg z]
        have hz : z = 0 := by nlinarith [sq_nonneg x, sq_nonneg y, sq_nonneg z]
        subst hx hy hz
        simp [R3.cross, angularVelocity]
      · obtain ⟨-, -, rfl, rfl⟩ := hpos h
        simp only [R3.cross, angularVelocity]
        congr 1 <;> ring
    rw [hz]
    exact ⟨hasDerivAt_const t _, hasDerivAt_const t _, hasDerivAt_const t _⟩
  · obtain ⟨h1, h2, -⟩ := hpos h
    exact ⟨h1, fun _ => by linarith⟩
  · obtain ⟨h1, h2, rfl, rfl⟩ := hpos h
    have d1 : HasDerivAt (fun t => G / a * (t - t₀)) (G / a) t := by
      simpa using ((hasDerivAt_id t).sub_const t₀).const_mul (G / a)
    refine (TurnsAt.of_hasDerivAt d1).congr (fun _ => rfl) ?_
    cases reg
    · simp only [rate, along, R3.dot, angularVelocity] at h2 ⊢
      have : 0 < G + x := by linarith
      rw [div_eq_iff this.ne', show x * (x / a) + y * (y / a) + z * (z / a) = (x ^ 2 + y ^ 2 + z ^ 2) / a by ring, hn]
      ring
    · simp only [rate, along, R3.dot, angularVelocity] at h2 ⊢
      have : 0 < G + z := by linarith
      rw [div_eq_iff this.ne', show x * (x / a) + y * (y / a) + z * (z / a) = (x ^ 2 + y ^ 2 + z ^ 2) / a by ring, hn]
      ring
    · exact absurd rfl h
  · exact ⟨hreg h, fun t => by rw [hreg h]; simp⟩

end

end Principia.Physics.Euler
