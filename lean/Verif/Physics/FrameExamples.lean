import Verif.Physics.PulsatingProps

/-!
Two bodies in circular orbits around their barycentre, which meet the hypotheses of the theorems about reference frames, and a defect that does not matter.
-/

set_option linter.unusedSimpArgs false
set_option linter.unusedVariables false
set_option linter.unusedSectionVars false

namespace Principia.Physics.Frames

open Geometry Motion

/-- Two bodies in circular orbits. -/
noncomputable def binary : Ephemeris Bool where
  position b t := if b then ⟨Real.cos t, Real.sin t, 0⟩ else ⟨-Real.cos t, -Real.sin t, 0⟩
  velocity b t := if b then ⟨-Real.sin t, Real.cos t, 0⟩ else ⟨Real.sin t, -Real.cos t, 0⟩
  accelerationOnMassiveBody b t := if b then ⟨-Real.cos t, -Real.sin t, 0⟩ else ⟨Real.cos t, Real.sin t, 0⟩
  jerkOnMassiveBody b t := if b then ⟨Real.sin t, -Real.cos t, 0⟩ else ⟨-Real.sin t, Real.cos t, 0⟩
  accelerationOnMasslessBody q _ := -q
  jerkOnMasslessBody d _ := -d.velocity
  potential q _ := 1 / 2 * q.normSq
  gravitationalParameter _ := 4

theorem binary_consistent : binary.Consistent := by
  have hc := Real.hasDerivAt_cos
  have hs := Real.hasDerivAt_sin
  refine ⟨fun b t => ?_, fun b t => ?_, fun b t => ?_⟩ <;> cases b
  · exact ⟨(hc t).neg.congr_deriv (by simp [binary]), (hs t).neg, hasDerivAt_const _ _⟩
  · exact ⟨hc t, hs t, hasDerivAt_const _ _⟩
  · exact ⟨hs t, (hc t).neg.congr_deriv (by simp [binary]), hasDerivAt_const _ _⟩
  · exact ⟨(hs t).neg, hc t, hasDerivAt_const _ _⟩
  · exact ⟨hc t, hs t, hasDerivAt_const _ _⟩
  · exact ⟨(hc t).neg.congr_deriv (by simp [binary]), (hs t).neg, hasDerivAt_const _ _⟩

theorem binary_cross (t : ℝ) : (binary.position true t - binary.position false t).cross (binary.velocity true t - binary.velocity false t) ≠ 0 := by
  intro h
  have hz := congrArg R3.z h
  have hp := Real.sin_sq_add_cos_sq t
  simp [binary, R3.cross] at hz
  nlinarith

theorem binary_mean (b : Bool) (x : Bool → R3 ℝ) : binary.mean [b] x = x b := by
  simp only [Ephemeris.mean, Ephemeris.parameter, binary, List.map_cons, List.map_nil, List.sum_cons, List.sum_nil]
  ext <;> simp

/-- The frame of the binary oriented by its second body. -/
example : ∃ m, IsFrame (bodyCentredBodyDirection binary (Primary.massive binary false) true) m ∧ ∀ t, (m t).apply (binary.degreesOfFreedom true t) = ⟨⟨2, 0, 0⟩, ⟨0, 0, 0⟩⟩ := by
  obtain ⟨m, h1, -, h2, -⟩ := C59_body_direction binary_consistent (massive_consistent binary_consistent false) true binary_cross
  refine ⟨m, h1, fun t => ?_⟩
  obtain ⟨k, hk, h3⟩ := h2 t
  have hn : ∀ s, (binary.position true s - ((Primary.massive binary false).trajectory s).position).norm = 2 := by
    intro s
    have : (binary.position true s - ((Primary.massive binary false).trajectory s).position).normSq = 2 ^ 2 := by
      have hp := Real.sin_sq_add_cos_sq s
      simp [binary, Primary.massive, Ephemeris.degreesOfFreedom, R3.normSq, R3.dot]
      linear_combination 4 * hp
    rw [R3.norm, this, Real.sqrt_sq (by norm_num)]
  have hk0 : k = 0 := by
    rw [show (fun s => (binary.position true s - ((Primary.massive binary false).trajectory s).position).norm) = fun _ => (2 : ℝ) from funext hn] at hk
    exact hk.unique (hasDerivAt_const _ _)
  rw [h3, hn, hk0]

/-- A frame with one primary and one secondary. -/
noncomputable def binaryFrame : BarycentricRotating Bool := ⟨binary, [false], [true]⟩

/-- The hypotheses of the theorems about the barycentric and pulsating frames. -/
example : binaryFrame.Valid ∧ (∀ b, 0 < binaryFrame.ephemeris.gravitationalParameter b) ∧
    ∃ m, IsFrame binaryFrame.frame m ∧ (∀ t, (m t).apply (binary.degreesOfFreedom true t) = ⟨⟨1 / 2 * (binary.position true t - binary.position false t).norm, 0, 0⟩, ⟨0, 0, 0⟩⟩) ∧
      ∃ p : ℝ → SimilarMotion, (∀ t, RotatingPulsating.toThisFrameAtTimeSimilarly ⟨binaryFrame⟩ t = some (p t)) ∧
        ∀ t, (p t).apply (binary.degreesOfFreedom true t) = some ⟨⟨1 / 2, 0, 0⟩, 0⟩ := by
  have hv : binaryFrame.Valid := by simp [BarycentricRotating.Valid, binaryFrame]
  have hμ : ∀ b, 0 < binaryFrame.ephemeris.gravitationalParameter b := fun b => by show (0 : ℝ) < 4; norm_num
  have h1 : binaryFrame.ephemeris.parameter binaryFrame.primaries = 4 := by simp [binaryFrame, binary, Ephemeris.parameter]
  have h2 : binaryFrame.ephemeris.parameter binaryFrame.secondaries = 4 := by simp [binaryFrame, binary, Ephemeris.parameter]
  have hg : ∀ b t, binary.position b t = binary.mean [b] (binary.position · t) := fun b t => (binary_mean b (binary.position · t)).symm
  have hw : ∀ b t, binary.velocity b t = binary.mean [b] (binary.velocity · t) := fun b t => (binary_mean b (binary.velocity · t)).symm
  obtain ⟨m, hm, -, hd, -⟩ := C59_barycentric_rotating (F := binaryFrame) binary_consistent hv hμ (hg false) (hw false) (hg true) (hw true) binary_cross h1.symm h2.symm
  obtain ⟨p, hp, -, -, -, hs, -⟩ := C59_rotating_pulsating (F := binaryFrame) binary_consistent hv hμ (hg false) (hw false) (hg true) (hw true) binary_cross h1.symm h2.symm
  refine ⟨hv, hμ, m, hm, fun t => ?_, p, hp, fun t => ?_⟩
  · obtain ⟨k, hk, -, h3⟩ := hd t
    have hk0 : k = 0 := by
      have hn : (fun s => (binary.position true s - binary.position false s).norm) = fun _ => 2 := by
        funext s
        have : (binary.position true s - binary.position false s).normSq = 2 ^ 2 := by
          have hp := Real.sin_sq_add_cos_sq s
          simp [binary, R3.normSq, R3.dot]
          linear_combination 4 * hp
        rw [R3.norm, this, Real.sqrt_sq (by norm_num)]
      rw [hn] at hk
      exact hk.unique (hasDerivAt_const _ _)
    refine h3.trans ?_
    rw [hk0]
    ext <;> norm_num
  · refine (hs t).trans ?_
    congr 1
    ext <;> norm_num

/-- A particle in free fall in the binary, for the theorems about free fall. -/
example : ∃ q v : ℝ → R3 ℝ, (∀ s, HasDeriv q (v s) s) ∧ ∀ t, HasDeriv v (binary.accelerationOnMasslessBody (q t) t) t := by
  refine ⟨fun s => ⟨0, 0, Real.cos s⟩, fun s => ⟨0, 0, -Real.sin s⟩, fun s => ⟨hasDerivAt_const _ _, hasDerivAt_const _ _, Real.hasDerivAt_cos s⟩, fun s => ⟨?_, ?_, ?_⟩⟩
  · exact (hasDerivAt_const _ _).congr_deriv (by simp [binary])
  · exact (hasDerivAt_const _ _).congr_deriv (by simp [binary])
  · exact (Real.hasDerivAt_sin s).neg

/-- The potential of the binary, for the theorems about the gradients. -/
example (x : R3 ℝ) (t : ℝ) : IsGradient (binary.potential · t) (-binary.accelerationOnMasslessBody x t) x := by
  intro c c' s hc hx
  refine (hc.normSq.const_mul (1 / 2)).congr_deriv ?_
  rw [hx]
  simp [binary, R3.dot]

/-- What is called the second derivative of the orthonormal trihedron is not the second derivative: the component along the vector is wrong.  (This does not affect the angular acceleration,
to which that component does not contribute; the theorems above hold in spite of it.) -/
theorem C59_second_derivative_counterexample : ∃ v v' v'' : ℝ → R3 ℝ, (∀ s, HasDeriv v (v' s) s) ∧ (∀ s, HasDeriv v' (v'' s) s) ∧ (∀ s, v s ≠ 0) ∧
    ∃ a, HasDeriv (fun s => dNormalized (v s) (v' s)) a 0 ∧ d2Normalized (v 0) (v' 0) (v'' 0) ≠ a := by
  have h1 : ∀ s, HasDeriv (fun s : ℝ => (⟨1 + s ^ 2, 0, 0⟩ : R3 ℝ)) ⟨2 * s, 0, 0⟩ s := fun s =>
    ⟨(((hasDerivAt_id s).pow 2).const_add 1).congr_deriv (by simp), hasDerivAt_const _ _, hasDerivAt_const _ _⟩
  have h2 : ∀ s, HasDeriv (fun s : ℝ => (⟨2 * s, 0, 0⟩ : R3 ℝ)) ⟨2, 0, 0⟩ s := fun s =>
    ⟨((hasDerivAt_id s).const_mul 2).congr_deriv (by simp), hasDerivAt_const _ _, hasDerivAt_const _ _⟩
  have h3 : ∀ s : ℝ, (⟨1 + s ^ 2, 0, 0⟩ : R3 ℝ) ≠ 0 := by
    intro s h
    have := congrArg R3.x h
    simp at this
    nlinarith [sq_nonneg s]
  refine ⟨_, _, _, h1, h2, h3, _, HasDeriv.unit2 (h1 0) (h2 0) (h3 0), ?_⟩
  intro h
  have := congrArg R3.x h
  rw [d2Normalized_eq] at this
  simp [R3.dot, R3.norm, R3.normSq] at this

end Principia.Physics.Frames
