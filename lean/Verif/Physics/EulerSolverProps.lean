import Verif.Physics.EulerSolverMotion
import Verif.Physics.MechanicalSystemProps

/-!
The properties of the solver of Euler's equations.
-/

set_option linter.unusedSimpArgs false
set_option linter.unusedVariables false

namespace Principia.Physics.Euler

open Geometry Motion Mechanical Numerics.Elliptic

theorem Δ_signature (S : Signature) (I m : R3 ℝ) :
    Δ₁ I (S.applyBivector m) = Δ₁ I m ∧ Δ₂ I (S.applyBivector m) = Δ₂ I m ∧ Δ₃ I (S.applyBivector m) = Δ₃ I m ∧ (S.applyBivector m).normSq = m.normSq := by
  obtain ⟨same, ⟨a⟩, ⟨b⟩, ⟨c⟩⟩ := S
  cases same <;> cases a <;> cases b <;> cases c <;> simp [Δ₁, Δ₂, Δ₃, R3.normSq, Signature.applyBivector, Signature.det, Sign.mul, Sign.act, Sign.Positive, Sign.Negative]

theorem sign_ofReal (x : ℝ) : (Sign.ofReal x).act x = |x| := by
  unfold Sign.ofReal Sign.act
  by_cases h : x < 0
  · simp [h, abs_of_neg h]
  · simp [h, abs_of_nonneg (not_lt.1 h)]

theorem chooseSignature_spec (f : Formula) (reg : Region) (m : R3 ℝ) :
    (chooseSignature f reg m).Valid ∧ (chooseSignature f reg m).same = true ∧
      (f = .iii → 0 ≤ ((chooseSignature f reg m).applyBivector m).x ∧ 0 ≤ ((chooseSignature f reg m).applyBivector m).z) ∧
      (f ≠ .iii → 0 ≤ along reg ((chooseSignature f reg m).applyBivector m)) := by
  have hone : ∀ s : Sign, (Signature.det true).mul s = s := by intro s; obtain ⟨s⟩ := s; cases s <;> rfl
  by_cases h : f = .iii
  · unfold chooseSignature
    rw [if_pos h]
    refine ⟨?_, rfl, fun _ => ?_, fun h' => absurd h h'⟩
    · generalize Sign.ofReal m.x = a; generalize Sign.ofReal m.z = b
      obtain ⟨a⟩ := a; obtain ⟨b⟩ := b
      cases a <;> cases b <;> simp [Signature.Valid, Signature.ofXZ, Signature.det, Sign.mul, Sign.Positive]
    · simp only [Signature.ofXZ, Signature.applyBivector, hone, sign_ofReal]
      exact ⟨abs_nonneg _, abs_nonneg _⟩
  · unfold chooseSignature
    rw [if_neg h]
    cases reg
    · refine ⟨?_, rfl, fun h' => absurd h' h, fun _ => ?_⟩
      · generalize Sign.ofReal m.x = a
        obtain ⟨a⟩ := a
        cases a <;> simp [Signature.Valid, Signature.ofXY, Signature.det, Sign.mul, Sign.Positive]
      · simp only [Signature.ofXY, Signature.applyBivector, hone, sign_ofReal, along]
        exact abs_nonneg _
    · refine ⟨?_, rfl, fun h' => absurd h' h, fun _ => ?_⟩
      · generalize Sign.ofReal m.z = a
        obtain ⟨a⟩ := a
        cases a <;> simp [Signature.Valid, Signature.ofYZ, Signature.det, Sign.mul, Sign.Positive]
      · simp only [Signature.ofYZ, Signature.applyBivector, hone, sign_ofReal, along]
        exact abs_nonneg _
    · refine ⟨?_, rfl, fun h' => absurd h' h, fun _ => le_refl _⟩
      simp [Signature.Valid, Signature.identity, Signature.ofXY, Signature.det, Sign.mul, Sign.Positive]

/-- What `coefficients` needs of the values that are computed before it. -/
structure Prepared (s : EulerSolver) : Prop where
  positive : 0 < s.momentsOfInertia.x
  sorted : s.momentsOfInertia.x ≤ s.momentsOfInertia.y ∧ s.momentsOfInertia.y ≤ s.momentsOfInertia.z
  G : 0 ≤ s.G
  norm : s.initialAngularMomentum.normSq = s.G ^ 2
  B₃₁ : s.B₃₁ = √(s.momentsOfInertia.z * Δ₁ s.momentsOfInertia s.initialAngularMomentum / (s.momentsOfInertia.z - s.momentsOfInertia.x))
  B₁₃ : s.B₁₃ = √(s.momentsOfInertia.x * Δ₃ s.momentsOfInertia s.initialAngularMomentum / -(s.momentsOfInertia.z - s.momentsOfInertia.x))
  i : s.formula = .i → s.region = .e₁ ∧ Δ₂ s.momentsOfInertia s.initialAngularMomentum < 0 ∧ 0 ≤ s.initialAngularMomentum.x
  ii : s.formula = .ii → s.region = .e₃ ∧ 0 < Δ₂ s.momentsOfInertia s.initialAngularMomentum ∧ 0 ≤ s.initialAngularMomentum.z
  iii : s.formula = .iii → ((s.region = .e₁ ∧ s.B₁₃ < s.B₃₁) ∨ (s.region = .e₃ ∧ s.B₃₁ ≤ s.B₁₃)) ∧ Δ₂ s.momentsOfInertia s.initialAngularMomentum = 0 ∧
    s.G ≠ 0 ∧ s.momentsOfInertia.z - s.momentsOfInertia.x ≠ 0 ∧ 0 ≤ s.initialAngularMomentum.x ∧ 0 ≤ s.initialAngularMomentum.z
  sphere : s.formula = .Sphere → (s.region = .Motionless → s.G = 0) ∧
    (s.region ≠ .Motionless → 0 < s.G ∧ 0 ≤ along s.region s.initialAngularMomentum ∧ s.momentsOfInertia.x = s.momentsOfInertia.y ∧ s.momentsOfInertia.y = s.momentsOfInertia.z)

/-- The data members that `coefficients` does not change. -/
structure SameMembers (s s' : EulerSolver) : Prop where
  momentsOfInertia : s'.momentsOfInertia = s.momentsOfInertia
  serializedInitialAngularMomentum : s'.serializedInitialAngularMomentum = s.serializedInitialAngularMomentum
  initialAttitude : s'.initialAttitude = s.initialAttitude
  initialTime : s'.initialTime = s.initialTime
  G : s'.G = s.G
  initialAngularMomentum : s'.initialAngularMomentum = s.initialAngularMomentum
  ℛ : s'.ℛ = s.ℛ
  𝒮 : s'.𝒮 = s.𝒮
  region : s'.region = s.region

theorem coefficients_spec (s : EulerSolver) (h : Prepared s) :
    ∃ s' M, coefficients s (Δ₁ s.momentsOfInertia s.initialAngularMomentum) (Δ₂ s.momentsOfInertia s.initialAngularMomentum) (Δ₃ s.momentsOfInertia s.initialAngularMomentum) = some s' ∧
      SameMembers s s' ∧ (∀ t, s'.angularMomentumAt t = s'.𝒮.applyBivector (M t)) ∧
      Solved s.region s.momentsOfInertia s.G s.initialAngularMomentum s.initialTime M s'.ψAt := by
  obtain ⟨⟨a, b, c⟩, L, A, t₀, G, ⟨x, y, z⟩, ℛ, 𝒮, f, reg, B₁₃, B₃₁, B₂₁, B₂₃, n, mc, ν, lam, k1, k2, k3, k4, k5, k6, k7, k8⟩ := s
  obtain ⟨ha, ⟨hab, hbc⟩, hG0, hG, hB₃₁, hB₁₃, h1, h2, h3, h4⟩ := h
  simp only at *
  have hG' : x ^ 2 + y ^ 2 + z ^ 2 = G ^ 2 := by rw [← hG]; simp [R3.normSq]; ring
  subst hB₃₁ hB₁₃
  have hd1 := Δ₁_nonneg (x := x) (y := y) (z := z) ha hab hbc
  have hd3 := Δ₃_nonpos (x := x) (y := y) (z := z) ha hab hbc
  cases f
  · obtain ⟨rfl, h, hx⟩ := h1 rfl
    have K := constants₁ ha hab hbc hG' hx h
    have S := solved₁ ha hG0 hG' K t₀
    have hsq : 0 ≤ b * Δ₁ ⟨a, b, c⟩ ⟨x, y, z⟩ / (b - a) := div_nonneg (mul_nonneg (by linarith) hd1) (by linarith)
    simp only [coefficients]
    rw [if_pos hsq]
    exact ⟨_, _, rfl, ⟨rfl, rfl, rfl, rfl, rfl, rfl, rfl, rfl, rfl⟩, fun t => rfl, S⟩
  · obtain ⟨rfl, h, hz⟩ := h2 rfl
    have K := constants₂ ha hab hbc hG' hz h
    have S := solved₂ ha hG0 hG' K t₀
    have hsq : 0 ≤ b * Δ₃ ⟨a, b, c⟩ ⟨x, y, z⟩ / -(c - b) := div_nonneg_of_nonpos (mul_nonpos_of_nonneg_of_nonpos (by linarith) hd3) (by linarith)
    simp only [coefficients]
    rw [if_pos hsq]
    exact ⟨_, _, rfl, ⟨rfl, rfl, rfl, rfl, rfl, rfl, rfl, rfl, rfl⟩, fun t => rfl, S⟩
  · obtain ⟨hreg, h, hG1, hca, hx, hz⟩ := h3 rfl
    have hGpos : 0 < G := lt_of_le_of_ne hG0 (Ne.symm hG1)
    have K := constants₃ ha hab hbc hca hGpos hG' h
    have S := solved₃ reg hreg ha (by linarith) (by linarith) hGpos hG' hx hz K t₀ _ rfl
    rcases hreg with ⟨rfl, -⟩ | ⟨rfl, -⟩
    · exact ⟨_, _, rfl, ⟨rfl, rfl, rfl, rfl, rfl, rfl, rfl, rfl, rfl⟩, fun t => rfl, S⟩
    · exact ⟨_, _, rfl, ⟨rfl, rfl, rfl, rfl, rfl, rfl, rfl, rfl, rfl⟩, fun t => rfl, S⟩
  · obtain ⟨hm, hne⟩ := h4 rfl
    have S := solvedSphere (reg := reg) hG0 hm hne hG' t₀
    exact ⟨_, _, rfl, ⟨rfl, rfl, rfl, rfl, rfl, rfl, rfl, rfl, rfl⟩, fun t => rfl, S⟩

theorem make_diagonal {I L : R3 ℝ} {A : Rotation ℝ} {t₀ : ℝ} (hx : 0 < I.x) (hxy : I.x ≤ I.y) (hyz : I.y ≤ I.z) (hA : A.IsUnit) :
    ∃ s M, make (M3.diagonal I) L A t₀ = some s ∧ Preferred s M ∧ s.momentsOfInertia = I ∧ s.serializedInitialAngularMomentum = L ∧ s.initialAttitude = A ∧ s.initialTime = t₀ := by
  have hd : Form.isDiagonalized (M3.diagonal I) := ⟨⟨rfl, rfl, rfl, rfl, rfl, rfl⟩, hxy, hyz⟩
  have hm : (A.inverse.apply L).normSq = L.norm ^ 2 := by
    rw [R3.norm, Real.sq_sqrt (by simp only [R3.normSq]; nlinarith [mul_self_nonneg L.x, mul_self_nonneg L.y, mul_self_nonneg L.z])]
    have := Rotation.C36_isometry _ (Rotation.C36_inverse A hA L).1 L L
    simpa [R3.dot, R3.normSq] using this
  have hm' : A.apply (A.inverse.apply L) = L := (Rotation.C36_inverse A hA L).2.2.1
  have hG0 : 0 ≤ L.norm := Real.sqrt_nonneg _
  unfold make
  simp only
  rw [if_pos ⟨hd, hxy, hyz⟩]
  rw [if_neg (by
    show ¬ (I.x = 0 ∨ I.y = 0 ∨ I.z = 0)
    rintro (h | h | h) <;> linarith)]
  have e : (⟨(M3.diagonal I).at' 0 0, (M3.diagonal I).at' 1 1, (M3.diagonal I).at' 2 2⟩ : R3 ℝ) = I := rfl
  have e0 : (M3.diagonal I).at' 0 0 = I.x := rfl
  have e2 : (M3.diagonal I).at' 2 2 = I.z := rfl
  rw [e, e0, e2]
  generalize A.inverse.apply L = m at *
  rw [if_pos (by exact ⟨Δ₁_nonneg (x := m.x) (y := m.y) (z := m.z) hx hxy hyz, Δ₃_nonpos (x := m.x) (y := m.y) (z := m.z) hx hxy hyz⟩)]
  -- The formula and the region.
  have hchoose : ∃ f reg, choose I m L.norm (√(I.x * Δ₃ I m / -(I.z - I.x))) (√(I.z * Δ₁ I m / (I.z - I.x))) = some (f, reg) ∧
      (f = .i → reg = .e₁ ∧ Δ₂ I m < 0) ∧ (f = .ii → reg = .e₃ ∧ 0 < Δ₂ I m) ∧
      (f = .iii → ((reg = .e₁ ∧ √(I.x * Δ₃ I m / -(I.z - I.x)) < √(I.z * Δ₁ I m / (I.z - I.x))) ∨ (reg = .e₃ ∧ √(I.z * Δ₁ I m / (I.z - I.x)) ≤ √(I.x * Δ₃ I m / -(I.z - I.x)))) ∧
        Δ₂ I m = 0 ∧ L.norm ≠ 0 ∧ I.z - I.x ≠ 0) ∧
      (f = .Sphere → (reg = .Motionless → L.norm = 0) ∧ (reg ≠ .Motionless → 0 < L.norm ∧ I.x = I.y ∧ I.y = I.z)) := by
    unfold choose
    by_cases h1 : Δ₂ I m < 0
    · rw [if_pos h1]
      exact ⟨_, _, rfl, fun _ => ⟨rfl, h1⟩, by simp, by simp, by simp⟩
    rw [if_neg h1]
    by_cases h2 : 0 < Δ₂ I m
    · rw [if_pos h2]
      exact ⟨_, _, rfl, by simp, fun _ => ⟨rfl, h2⟩, by simp, by simp⟩
    rw [if_neg h2]
    by_cases h3 : L.norm = 0
    · rw [if_pos h3]
      exact ⟨_, _, rfl, by simp, by simp, by simp, fun _ => ⟨fun _ => h3, fun h => absurd rfl h⟩⟩
    rw [if_neg h3]
    by_cases h4 : I.z - I.x = 0
    · rw [if_pos h4, if_pos ⟨by linarith, by linarith⟩]
      refine ⟨_, _, rfl, by simp, by simp, by simp, fun _ => ⟨fun h => ?_, fun _ => ⟨lt_of_le_of_ne hG0 (Ne.symm h3), by linarith, by linarith⟩⟩⟩
      by_cases h5 : |m.x| < |m.z|
      · rw [if_pos h5] at h; simp at h
      · rw [if_neg h5] at h; simp at h
    rw [if_neg h4]
    refine ⟨_, _, rfl, by simp, by simp, fun _ => ⟨?_, by linarith, h3, h4⟩, by simp⟩
    by_cases h5 : √(I.x * Δ₃ I m / -(I.z - I.x)) < √(I.z * Δ₁ I m / (I.z - I.x))
    · rw [if_pos h5]; exact Or.inl ⟨rfl, h5⟩
    · rw [if_neg h5]; exact Or.inr ⟨rfl, not_lt.1 h5⟩
  obtain ⟨f, reg, hc, c1, c2, c3, c4⟩ := hchoose
  rw [hc]
  simp only [Option.bind_some]
  obtain ⟨hv, hs, p3, pn⟩ := chooseSignature_spec f reg m
  generalize h𝒮 : chooseSignature f reg m = 𝒮 at *
  obtain ⟨e1, e2, e3, en⟩ := Δ_signature 𝒮 I m
  rw [← e1, ← e2, ← e3]
  rw [← e2] at c1 c2 c3
  rw [← e1, ← e3] at c3
  obtain ⟨s', M, hs', hsame, hmom, hsol⟩ := coefficients_spec
    { momentsOfInertia := I, serializedInitialAngularMomentum := L, initialAttitude := A, initialTime := t₀
      G := L.norm, initialAngularMomentum := 𝒮.applyBivector m
      ℛ := A.mul (((Rotation.mk 𝒮.inverse.forget).mul (computeP reg L.norm (𝒮.applyBivector m)).inverse).mul .identity), 𝒮 := 𝒮, formula := f, region := reg,
      B₁₃ := √(I.x * Δ₃ I (𝒮.applyBivector m) / -(I.z - I.x)), B₃₁ := √(I.z * Δ₁ I (𝒮.applyBivector m) / (I.z - I.x)) }
    ⟨hx, ⟨hxy, hyz⟩, hG0, by simp only; rw [en, hm], rfl, rfl, fun h => ⟨(c1 h).1, (c1 h).2, by
        have := pn (by rw [show f = .i from h]; simp)
        rw [(c1 h).1] at this; exact this⟩,
      fun h => ⟨(c2 h).1, (c2 h).2, by
        have := pn (by rw [show f = .ii from h]; simp)
        rw [(c2 h).1] at this; exact this⟩,
      fun h => ⟨(c3 h).1, (c3 h).2.1, (c3 h).2.2.1, (c3 h).2.2.2, (p3 h).1, (p3 h).2⟩,
      fun h => ⟨(c4 h).1, fun hr => ⟨((c4 h).2 hr).1, pn (by rw [show f = .Sphere from h]; simp), ((c4 h).2 hr).2.1, ((c4 h).2 hr).2.2⟩⟩⟩
  refine ⟨s', M, hs', ?_, hsame.momentsOfInertia, hsame.serializedInitialAngularMomentum, hsame.initialAttitude, hsame.initialTime⟩
  obtain ⟨q1, q2, q3, q4, q5, q6, q7, q8, q9⟩ := hsame
  simp only at q1 q2 q3 q4 q5 q6 q7 q8 q9 hsol
  constructor
  · rw [q8]; exact hv
  · rw [q8]; exact hs
  · exact hmom
  · rw [q4, q6]; exact hsol.initial
  · rw [q6, q5, en, hm]
  · rw [q4]; exact hsol.ψ
  · rw [q1]; exact hsol.euler
  · rw [q9, q5]; exact hsol.region
  · rw [q9, q5, q1]; exact hsol.turns
  · rw [q9, q5]; exact hsol.motionless
  · rw [q3]; exact hA
  · rw [q7, q3, q8, q9, q5, q6]; rfl
  · rw [q3, q8, q6, q2, signature_involutive hv hs, hm']

/-! ## Uniqueness -/

/-- A nonnegative function whose rate of change is bounded by a multiple of itself, and which vanishes somewhere, vanishes everywhere. -/
theorem eq_zero_of_rate {f f' : ℝ → ℝ} {K t₀ : ℝ} (hf : ∀ t, HasDerivAt f (f' t) t) (h0 : ∀ t, 0 ≤ f t) (hK : ∀ t, |f' t| ≤ K * f t) (hz : f t₀ = 0) (t : ℝ) : f t = 0 := by
  have hexp : ∀ k t, HasDerivAt (fun t => f t * Real.exp (k * t)) ((f' t + k * f t) * Real.exp (k * t)) t := by
    intro k t
    have h1 : HasDerivAt (fun t => Real.exp (k * t)) (Real.exp (k * t) * k) t := by
      simpa using ((hasDerivAt_id t).const_mul k).exp
    exact ((hf t).mul h1).congr_deriv (by ring)
  rcases le_total t₀ t with h | h
  · have hm : Antitone fun t => f t * Real.exp (-K * t) := antitone_of_deriv_nonpos (fun t => (hexp (-K) t).differentiableAt) (fun t => by
      rw [(hexp (-K) t).deriv]
      have := abs_le.1 (hK t)
      exact mul_nonpos_of_nonpos_of_nonneg (by linarith) (Real.exp_pos _).le)
    have := hm h
    simp only [hz, zero_mul] at this
    exact le_antisymm (nonpos_of_mul_nonpos_left this (Real.exp_pos _)) (h0 t)
  · have hm : Monotone fun t => f t * Real.exp (K * t) := monotone_of_deriv_nonneg (fun t => (hexp K t).differentiableAt) (fun t => by
      rw [(hexp K t).deriv]
      have := abs_le.1 (hK t)
      exact mul_nonneg (by linarith) (Real.exp_pos _).le)
    have := hm h
    simp only [hz, zero_mul] at this
    exact le_antisymm (nonpos_of_mul_nonpos_left this (Real.exp_pos _)) (h0 t)

theorem euler_bound {a b c G : ℝ} (ha : 0 < a) (hab : a ≤ b) (hbc : b ≤ c) (hG : 0 ≤ G) {m e : R3 ℝ} (hm : m.normSq = G ^ 2) :
    |2 * e.dot (m.cross (angularVelocity ⟨a, b, c⟩ e))| ≤ 2 * G / a * e.normSq := by
  have hb : 0 < b := by linarith
  have hc : 0 < c := by linarith
  have e1 : 2 * e.dot (m.cross (angularVelocity ⟨a, b, c⟩ e)) = 2 * (m.x * (1 / b - 1 / c) * (e.y * e.z) + m.y * (1 / c - 1 / a) * (e.z * e.x) + m.z * (1 / a - 1 / b) * (e.x * e.y)) := by
    simp only [R3.dot, R3.cross, angularVelocity]; ring
  simp only [R3.normSq] at hm
  have hmx : |m.x| ≤ G := abs_le_of_sq_le_sq (by nlinarith [mul_self_nonneg m.y, mul_self_nonneg m.z]) hG
  have hmy : |m.y| ≤ G := abs_le_of_sq_le_sq (by nlinarith [mul_self_nonneg m.x, mul_self_nonneg m.z]) hG
  have hmz : |m.z| ≤ G := abs_le_of_sq_le_sq (by nlinarith [mul_self_nonneg m.x, mul_self_nonneg m.y]) hG
  have i1 : 1 / b ≤ 1 / a := one_div_le_one_div_of_le ha hab
  have i2 : 1 / c ≤ 1 / b := one_div_le_one_div_of_le hb hbc
  have i3 : 0 < 1 / c := one_div_pos.2 hc
  have j1 : |1 / b - 1 / c| ≤ 1 / a := by rw [abs_le]; constructor <;> linarith
  have j2 : |1 / c - 1 / a| ≤ 1 / a := by rw [abs_le]; constructor <;> linarith
  have j3 : |1 / a - 1 / b| ≤ 1 / a := by rw [abs_le]; constructor <;> linarith
  have k : ∀ u v : ℝ, |u * v| ≤ (u ^ 2 + v ^ 2) / 2 := by
    intro u v; rw [abs_le]; constructor <;> nlinarith [sq_nonneg (u + v), sq_nonneg (u - v)]
  have l : ∀ u v w : ℝ, ∀ W, |u| ≤ G → |v| ≤ 1 / a → |w| ≤ W → |u * v * w| ≤ G * (1 / a) * W := by
    intro u v w W hu hv hw
    rw [abs_mul, abs_mul]
    exact mul_le_mul (mul_le_mul hu hv (abs_nonneg _) hG) hw (abs_nonneg _) (by positivity)
  have t1 := l _ _ _ _ hmx j1 (k e.y e.z)
  have t2 := l _ _ _ _ hmy j2 (k e.z e.x)
  have t3 := l _ _ _ _ hmz j3 (k e.x e.y)
  rw [e1, abs_mul, abs_of_pos (by norm_num : (0 : ℝ) < 2)]
  have t4 := abs_add_three (m.x * (1 / b - 1 / c) * (e.y * e.z)) (m.y * (1 / c - 1 / a) * (e.z * e.x)) (m.z * (1 / a - 1 / b) * (e.x * e.y))
  have t5 : 2 * G / a * e.normSq = 2 * (G * (1 / a) * ((e.y ^ 2 + e.z ^ 2) / 2) + G * (1 / a) * ((e.z ^ 2 + e.x ^ 2) / 2) + G * (1 / a) * ((e.x ^ 2 + e.y ^ 2) / 2)) := by
    simp only [R3.normSq]; ring
  rw [t5]
  linarith

theorem normSq_nonneg (v : R3 ℝ) : 0 ≤ v.normSq := by
  simp only [R3.normSq]; nlinarith [mul_self_nonneg v.x, mul_self_nonneg v.y, mul_self_nonneg v.z]

theorem eq_of_normSq_sub {v w : R3 ℝ} (h : (v - w).normSq = 0) : v = w := by
  simp only [R3.normSq, R3.sub_x, R3.sub_y, R3.sub_z] at h
  have h1 := mul_self_nonneg (v.x - w.x)
  have h2 := mul_self_nonneg (v.y - w.y)
  have h3 := mul_self_nonneg (v.z - w.z)
  ext
  · have : (v.x - w.x) * (v.x - w.x) = 0 := by linarith
    linarith [mul_self_eq_zero.1 this]
  · have : (v.y - w.y) * (v.y - w.y) = 0 := by linarith
    linarith [mul_self_eq_zero.1 this]
  · have : (v.z - w.z) * (v.z - w.z) = 0 := by linarith
    linarith [mul_self_eq_zero.1 this]

theorem eq_of_apply_eq {A : Rotation ℝ} (hA : A.IsUnit) {v w : R3 ℝ} (h : A.apply v = A.apply w) : v = w := by
  rw [← (Rotation.C36_inverse A hA v).2.1, h, (Rotation.C36_inverse A hA w).2.1]

theorem euler_unique {I : R3 ℝ} {m m' : ℝ → R3 ℝ} {t₀ : ℝ} (hI : 0 < I.x ∧ I.x ≤ I.y ∧ I.y ≤ I.z) (h : ∀ t, HasDeriv m ((m t).cross (angularVelocity I (m t))) t)
    (h' : ∀ t, HasDeriv m' ((m' t).cross (angularVelocity I (m' t))) t) (h0 : m t₀ = m' t₀) : m = m' := by
  funext t
  obtain ⟨a, b, c⟩ := I
  have hn : ∀ t, (m' t).normSq = √((m' t₀).normSq) ^ 2 := fun t => by rw [Real.sq_sqrt (normSq_nonneg _)]; exact (constant_of_euler h' t₀ t).1
  refine eq_of_normSq_sub (eq_zero_of_rate (f := fun t => (m t - m' t).normSq) (t₀ := t₀) (fun t => ((h t).sub (h' t)).normSq) (fun t => normSq_nonneg _)
    (K := 2 * √((m' t₀).normSq) / a) (fun t => ?_) (by rw [h0]; simp [R3.normSq]) t)
  refine le_trans (le_of_eq ?_) (euler_bound hI.1 hI.2.1 hI.2.2 (Real.sqrt_nonneg _) (e := m t - m' t) (hn t))
  congr 1
  simp [R3.dot, R3.cross, angularVelocity]
  ring

/-- There is only one free rotation with given initial conditions. -/
theorem FreeRotation.unique {I L : R3 ℝ} {A : Rotation ℝ} {t₀ : ℝ} {m m' : ℝ → R3 ℝ} {R R' : ℝ → Rotation ℝ} (hI : 0 < I.x ∧ I.x ≤ I.y ∧ I.y ≤ I.z)
    (h : FreeRotation I L A t₀ m R) (h' : FreeRotation I L A t₀ m' R') : m = m' ∧ ∀ t v, (R t).apply v = (R' t).apply v := by
  have hm : m = m' := by
    refine euler_unique hI h.euler h'.euler (t₀ := t₀) (eq_of_apply_eq (h.unit t₀) ?_)
    rw [h.conserved, h.initial, ← h'.initial, h'.conserved]
  subst hm
  refine ⟨rfl, fun t => ?_⟩
  let e₁ : R3 ℝ := ⟨1, 0, 0⟩
  let e₂ : R3 ℝ := ⟨0, 1, 0⟩
  let e₃ : R3 ℝ := ⟨0, 0, 1⟩
  have key : ∀ t, HasDerivAt (fun s => ((R s).apply e₁).dot ((R' s).apply e₁) + ((R s).apply e₂).dot ((R' s).apply e₂) + ((R s).apply e₃).dot ((R' s).apply e₃)) 0 t := by
    intro t
    have d := fun v => (h.attitude t v).dot (h'.attitude t v)
    refine (((d e₁).add (d e₂)).add (d e₃)).congr_deriv ?_
    simp only [Rotation.C36_cross _ (h.unit t), Rotation.C36_cross _ (h'.unit t)]
    generalize angularVelocity I (m t) = ω
    have lin : ∀ (Q : Rotation ℝ) (v : R3 ℝ), Q.apply v = v.x • Q.apply e₁ + v.y • Q.apply e₂ + v.z • Q.apply e₃ := by
      intro Q v
      rw [← (Q.C36_linear e₁ 0 v.x).2, ← (Q.C36_linear e₂ 0 v.y).2, ← (Q.C36_linear e₃ 0 v.z).2, ← (Q.C36_linear _ _ 0).1, ← (Q.C36_linear _ _ 0).1]
      congr 1
      ext <;> simp [e₁, e₂, e₃]
    rw [lin (R t) (ω.cross e₁), lin (R t) (ω.cross e₂), lin (R t) (ω.cross e₃), lin (R' t) (ω.cross e₁), lin (R' t) (ω.cross e₂), lin (R' t) (ω.cross e₃)]
    generalize (R t).apply e₁ = p₁
    generalize (R t).apply e₂ = p₂
    generalize (R t).apply e₃ = p₃
    generalize (R' t).apply e₁ = q₁
    generalize (R' t).apply e₂ = q₂
    generalize (R' t).apply e₃ = q₃
    simp [R3.dot, R3.cross, e₁, e₂, e₃]
    ring
  have hc := is_const_of_deriv_eq_zero (fun t => (key t).differentiableAt) (fun t => (key t).deriv) t t₀
  simp only [h.initial, h'.initial] at hc
  have iso : ∀ (Q : Rotation ℝ), Q.IsUnit → ∀ v, (Q.apply v).normSq = v.normSq := by
    intro Q hQ v
    have := Rotation.C36_isometry Q hQ v v
    simpa [R3.dot, R3.normSq] using this
  have hA : A.IsUnit ∨ True := Or.inr trivial
  have n0 : ∀ v, (A.apply v).dot (A.apply v) = v.normSq := by
    intro v
    rw [← h.initial]
    have := iso _ (h.unit t₀) v
    simpa [R3.dot, R3.normSq] using this
  rw [n0, n0, n0] at hc
  have ex : ∀ v w : R3 ℝ, (v - w).normSq = v.normSq + w.normSq - 2 * v.dot w := by
    intro v w; simp [R3.dot, R3.normSq]; ring
  have s1 := normSq_nonneg ((R t).apply e₁ - (R' t).apply e₁)
  have s2 := normSq_nonneg ((R t).apply e₂ - (R' t).apply e₂)
  have s3 := normSq_nonneg ((R t).apply e₃ - (R' t).apply e₃)
  rw [ex, iso _ (h.unit t), iso _ (h'.unit t)] at s1 s2 s3
  have b1 : (R t).apply e₁ = (R' t).apply e₁ := eq_of_normSq_sub (by rw [ex, iso _ (h.unit t), iso _ (h'.unit t)]; linarith)
  have b2 : (R t).apply e₂ = (R' t).apply e₂ := eq_of_normSq_sub (by rw [ex, iso _ (h.unit t), iso _ (h'.unit t)]; linarith)
  have b3 : (R t).apply e₃ = (R' t).apply e₃ := eq_of_normSq_sub (by rw [ex, iso _ (h.unit t), iso _ (h'.unit t)]; linarith)
  intro v
  have lin : ∀ (Q : Rotation ℝ), Q.apply v = v.x • Q.apply e₁ + v.y • Q.apply e₂ + v.z • Q.apply e₃ := by
    intro Q
    rw [← (Q.C36_linear e₁ 0 v.x).2, ← (Q.C36_linear e₂ 0 v.y).2, ← (Q.C36_linear e₃ 0 v.z).2, ← (Q.C36_linear _ _ 0).1, ← (Q.C36_linear _ _ 0).1]
    congr 1
    ext <;> simp [e₁, e₂, e₃]
  rw [lin (R t), lin (R' t), b1, b2, b3]

/-- C71: from any attitude and any angular momentum, for any body whose moments of inertia are positive and in increasing order, the solver is constructed, and the angular
momentum and the attitude that it returns are those of the free rotation of the body. -/
theorem C71_free_rotation (I L : R3 ℝ) (A : Rotation ℝ) (t₀ : ℝ) (hI : 0 < I.x ∧ I.x ≤ I.y ∧ I.y ≤ I.z) (hA : A.IsUnit) :
    ∃ s R, make (M3.diagonal I) L A t₀ = some s ∧ (∀ t, s.attitudeAt (s.angularMomentumAt t) t = some (R t)) ∧
      FreeRotation I L A t₀ s.angularMomentumAt R := by
  obtain ⟨s, M, h, hP, h1, h2, h3, h4⟩ := make_diagonal (L := L) (t₀ := t₀) hI.1 hI.2.1 hI.2.2 hA
  obtain ⟨R, hR, hF⟩ := hP.freeRotation
  rw [h1, h2, h3, h4] at hF
  exact ⟨s, R, h, hR, hF⟩

/-- The solver computes *the* free rotation: there is no other one with these initial conditions. -/
theorem C71_unique (I L : R3 ℝ) (A : Rotation ℝ) (t₀ : ℝ) (hI : 0 < I.x ∧ I.x ≤ I.y ∧ I.y ≤ I.z) (hA : A.IsUnit) (m : ℝ → R3 ℝ) (R : ℝ → Rotation ℝ)
    (h : FreeRotation I L A t₀ m R) (s : EulerSolver) (hs : make (M3.diagonal I) L A t₀ = some s) (t : ℝ) :
    s.angularMomentumAt t = m t ∧ ∃ r, s.attitudeAt (s.angularMomentumAt t) t = some r ∧ ∀ v, r.apply v = (R t).apply v := by
  obtain ⟨s', R', h1, h2, h3⟩ := C71_free_rotation I L A t₀ hI hA
  rw [hs] at h1
  obtain rfl := Option.some.inj h1
  obtain ⟨e1, e2⟩ := h3.unique hI h
  exact ⟨congrFun e1 t, R' t, h2 t, e2 t⟩

/-- A solver that is constructed from the state of another one at any time goes on with the same motion. -/
theorem C71_restart (I L : R3 ℝ) (A : Rotation ℝ) (t₀ t₁ : ℝ) (hI : 0 < I.x ∧ I.x ≤ I.y ∧ I.y ≤ I.z) (hA : A.IsUnit) (s : EulerSolver) (hs : make (M3.diagonal I) L A t₀ = some s) :
    ∃ A₁ s₁, s.attitudeAt (s.angularMomentumAt t₁) t₁ = some A₁ ∧ make (M3.diagonal I) L A₁ t₁ = some s₁ ∧
      ∀ t, s₁.angularMomentumAt t = s.angularMomentumAt t ∧
        ∃ r r₁, s.attitudeAt (s.angularMomentumAt t) t = some r ∧ s₁.attitudeAt (s₁.angularMomentumAt t) t = some r₁ ∧ ∀ v, r₁.apply v = r.apply v := by
  obtain ⟨s', R, h1, h2, h3⟩ := C71_free_rotation I L A t₀ hI hA
  rw [hs] at h1
  obtain rfl := Option.some.inj h1
  obtain ⟨s₁, R₁, k1, k2, k3⟩ := C71_free_rotation I L (R t₁) t₁ hI (h3.unit t₁)
  refine ⟨R t₁, s₁, h2 t₁, k1, fun t => ?_⟩
  have h3' : FreeRotation I L (R t₁) t₁ s.angularMomentumAt R :=
    ⟨h3.unit, fun v => rfl, h3.attitude, h3.euler, h3.conserved, fun t => by rw [h3.energy t, h3.energy t₁]⟩
  obtain ⟨e1, e2⟩ := k3.unique hI h3'
  exact ⟨congrFun e1 t, R t, R₁ t, h2 t, k2 t, e2 t⟩

/-- The motion of the body: when its centre of mass moves along a trajectory, the motion that the solver returns takes a point that is fixed in the body to a point that
turns around the centre of mass, and the velocity that it gives is the derivative of the position. -/
theorem C71_motion (I L : R3 ℝ) (A : Rotation ℝ) (t₀ : ℝ) (hI : 0 < I.x ∧ I.x ≤ I.y ∧ I.y ≤ I.z) (hA : A.IsUnit) (s : EulerSolver) (hs : make (M3.diagonal I) L A t₀ = some s)
    (q v : ℝ → R3 ℝ) (hq : ∀ t, HasDeriv q (v t) t) :
    ∃ μ : ℝ → RigidMotion, (∀ t, s.motionAt t ⟨q t, v t⟩ = some (μ t)) ∧
      ∀ p, (∀ t, HasDeriv (fun t => ((μ t).apply ⟨p, 0⟩).position) ((μ t).apply ⟨p, 0⟩).velocity t) ∧
        ((μ t₀).apply ⟨p, 0⟩).position = q t₀ + A.apply p ∧
        (∀ t, ((μ t).apply ⟨0, 0⟩).position = q t) ∧
        ∀ t p', (((μ t).apply ⟨p, 0⟩).position - ((μ t).apply ⟨p', 0⟩).position).normSq = (p - p').normSq := by
  obtain ⟨s', R, h1, h2, h3⟩ := C71_free_rotation I L A t₀ hI hA
  rw [hs] at h1
  obtain rfl := Option.some.inj h1
  have hu : ∀ t, (R t).forgetOrthogonal.IsUnit := fun t => h3.unit t
  have hω : ∀ m, s.angularVelocityFor m = angularVelocity I m := by
    obtain ⟨s', M, k, hP, k1, -⟩ := make_diagonal (L := L) (t₀ := t₀) hI.1 hI.2.1 hI.2.2 hA
    rw [hs] at k
    obtain rfl := Option.some.inj k
    intro m
    rw [← k1]
    rfl
  refine ⟨fun t => RigidMotion.ofFromFrame ⟨0, q t, (R t).forgetOrthogonal⟩ ((R t).apply (angularVelocity I (s.angularMomentumAt t))) (v t), fun t => ?_, fun p => ?_⟩
  · simp only [EulerSolver.motionAt]
    rw [h2 t, hω]
    rfl
  · have happ : ∀ t p, (RigidMotion.ofFromFrame ⟨0, q t, (R t).forgetOrthogonal⟩ ((R t).apply (angularVelocity I (s.angularMomentumAt t))) (v t)).apply ⟨p, 0⟩ =
        ⟨q t + (R t).apply p, v t + ((R t).apply (angularVelocity I (s.angularMomentumAt t))).cross ((R t).apply p)⟩ := by
      intro t p
      obtain ⟨g1, g2, g3⟩ := C57_getters ⟨0, q t, (R t).forgetOrthogonal⟩ (hu t) ((R t).apply (angularVelocity I (s.angularMomentumAt t))) (v t)
      generalize RigidMotion.ofFromFrame ⟨0, q t, (R t).forgetOrthogonal⟩ ((R t).apply (angularVelocity I (s.angularMomentumAt t))) (v t) = μ at *
      have ho : μ.orthogonalMap = (R t).forgetOrthogonal := by rw [RigidMotion.orthogonalMap, g1]
      have hR : ∀ p, (R t).forgetOrthogonal.apply p = (R t).apply p := by
        intro p
        simp only [Rotation.forgetOrthogonal, OrthogonalMap.apply, OrthogonalMap.makeRotation, OrthogonalMap.makeSignature]
        congr 1
      rw [motion_resting (by rw [ho]; exact hu t), ho, hR, g2]
      have e1 : (μ.apply ⟨0, 0⟩).velocity = v t := g3
      have e2 : (μ.apply ⟨0, 0⟩).position = q t := by
        show μ.rigidTransformation.apply 0 = q t
        rw [g1]
        simp only [Geometry.AffineMap.apply]
        rw [show (0 : R3 ℝ) - 0 = 0 by ext <;> simp, OrthogonalMap.apply_zero (hu t)]
        ext <;> simp
      rw [e1, e2]
    simp only [happ]
    refine ⟨fun t => (hq t).add (h3.attitude t p), by rw [h3.initial], fun t => ?_, fun t p' => ?_⟩
    · have := (Rotation.C36_linear (R t) 0 0 0).2
      have e : ∀ v : R3 ℝ, (0 : ℝ) • v = 0 := by intro v; ext <;> simp
      rw [e, e] at this
      rw [this]
      ext <;> simp
    · have e : q t + (R t).apply p - (q t + (R t).apply p') = (R t).apply (p - p') := by
        have l1 := (Rotation.C36_linear (R t) (p - p') p' 0).1
        rw [show p - p' + p' = p by ext <;> simp] at l1
        rw [l1]
        ext <;> simp
      rw [e]
      have := Rotation.C36_isometry _ (h3.unit t) (p - p') (p - p')
      simpa [R3.dot, R3.normSq] using this

theorem coefficients_same {s s' : EulerSolver} {d₁ d₂ d₃ : ℝ} (h : coefficients s d₁ d₂ d₃ = some s') : SameMembers s s' := by
  unfold coefficients at h
  cases e : s.formula <;> rw [e] at h <;> simp only at h
  · by_cases c : 0 ≤ s.momentsOfInertia.y * d₁ / (s.momentsOfInertia.y - s.momentsOfInertia.x)
    · rw [if_pos c] at h
      obtain rfl := Option.some.inj h
      exact ⟨rfl, rfl, rfl, rfl, rfl, rfl, rfl, rfl, rfl⟩
    · rw [if_neg c] at h; simp at h
  · by_cases c : 0 ≤ s.momentsOfInertia.y * d₃ / -(s.momentsOfInertia.z - s.momentsOfInertia.y)
    · rw [if_pos c] at h
      obtain rfl := Option.some.inj h
      exact ⟨rfl, rfl, rfl, rfl, rfl, rfl, rfl, rfl, rfl⟩
    · rw [if_neg c] at h; simp at h
  · rw [Option.map_eq_some_iff] at h
    obtain ⟨x, -, rfl⟩ := h
    exact ⟨rfl, rfl, rfl, rfl, rfl, rfl, rfl, rfl, rfl⟩
  · obtain rfl := Option.some.inj h
    exact ⟨rfl, rfl, rfl, rfl, rfl, rfl, rfl, rfl, rfl⟩

theorem make_members {F : M3 ℝ} {L : R3 ℝ} {A : Rotation ℝ} {t₀ : ℝ} {s : EulerSolver} (hs : make F L A t₀ = some s) :
    (F = M3.diagonal s.momentsOfInertia ∧ s.momentsOfInertia.x ≤ s.momentsOfInertia.y ∧ s.momentsOfInertia.y ≤ s.momentsOfInertia.z) ∧
      s.serializedInitialAngularMomentum = L ∧ s.initialAttitude = A ∧ s.initialTime = t₀ := by
  unfold make at hs
  simp only at hs
  split at hs
  case isFalse => simp at hs
  case isTrue hc =>
    split at hs
    · simp at hs
    · split at hs
      · rw [Option.bind_eq_some_iff] at hs
        obtain ⟨_, -, hco⟩ := hs
        obtain ⟨q1, q2, q3, q4, -⟩ := coefficients_same hco
        simp only at q1 q2 q3 q4
        clear hco
        refine ⟨?_, q2, q3, q4⟩
        rw [q1]
        obtain ⟨⟨⟨d1, d2, d3, d4, d5, d6⟩, -⟩, h1, h2⟩ := hc
        refine ⟨?_, h1, h2⟩
        obtain ⟨⟨a, b, c⟩, ⟨d, e, f⟩, ⟨g, h, i⟩⟩ := F
        have f1 : b = 0 := d1
        have f2 : c = 0 := d2
        have f3 : d = 0 := d3
        have f4 : f = 0 := d4
        have f5 : g = 0 := d5
        have f6 : h = 0 := d6
        subst f1 f2 f3 f4 f5 f6
        rfl
      · simp at hs

/-- A solver that is written and read back is the same. -/
theorem C71_serialization (F : M3 ℝ) (L : R3 ℝ) (A : Rotation ℝ) (t₀ : ℝ) (s : EulerSolver) (hs : make F L A t₀ = some s) : EulerSolver.read s.write = some s := by
  obtain ⟨⟨h1, -⟩, h2, h3, h4⟩ := make_members hs
  rw [EulerSolver.read, EulerSolver.write]
  simp only
  rw [← h1, h2, h3, h4, hs]

/-- The solver cannot be constructed if the inertia tensor is not diagonal, or if its eigenvalues are not in increasing order. -/
theorem C71_checks (F : M3 ℝ) (L : R3 ℝ) (A : Rotation ℝ) (t₀ : ℝ) (s : EulerSolver) (hs : make F L A t₀ = some s) :
    F = M3.diagonal s.momentsOfInertia ∧ s.momentsOfInertia.x ≤ s.momentsOfInertia.y ∧ s.momentsOfInertia.y ≤ s.momentsOfInertia.z :=
  (make_members hs).1

/-- The hypotheses of `C71_free_rotation` are met by an asymmetric body that turns around no principal axis, and the angular momentum of the body that the solver computes does
change. -/
example : ∃ (I L : R3 ℝ) (A : Rotation ℝ) (s : EulerSolver), (0 < I.x ∧ I.x ≤ I.y ∧ I.y ≤ I.z) ∧ A.IsUnit ∧ make (M3.diagonal I) L A 0 = some s ∧
    s.angularMomentumAt 0 = ⟨1, 1, 1⟩ ∧ ¬ ∀ t, s.angularMomentumAt t = ⟨1, 1, 1⟩ := by
  have hA : (Rotation.identity : Rotation ℝ).IsUnit := by simp [Rotation.IsUnit, Rotation.identity, Quat.ofReal, Quat.normSq, R3.normSq]
  obtain ⟨s, R, h1, h2, h3⟩ := C71_free_rotation ⟨1, 2, 3⟩ ⟨1, 1, 1⟩ .identity 0 ⟨by norm_num, by norm_num, by norm_num⟩ hA
  have h0 : s.angularMomentumAt 0 = ⟨1, 1, 1⟩ := by
    have := h3.conserved 0
    rw [h3.initial] at this
    rwa [(Rotation.C36_inverse .identity hA _).2.2.2.2] at this
  refine ⟨_, _, _, s, ⟨by norm_num, by norm_num, by norm_num⟩, hA, h1, h0, fun h => ?_⟩
  have h4 := (h3.euler 0).x
  have h5 : (fun t => (s.angularMomentumAt t).x) = fun _ => (1 : ℝ) := by funext t; rw [h t]
  rw [h5, h0] at h4
  have := h4.unique (hasDerivAt_const (0 : ℝ) (1 : ℝ))
  norm_num [R3.cross, angularVelocity] at this

end Principia.Physics.Euler
