import Verif.Numerics.Hermite2Model
import Mathlib.Analysis.InnerProductSpace.Basic

/-!
A model of numerics/gradient_descent_body.hpp: the line search and the algorithm of Broyden, Fletcher, Goldfarb and Shanno.

Simplifications: exact real arithmetic; the argument is an element of a real inner product space.  The bilinear form Hₖ is the linear map that it induces.  Each of the loops, which are not bounded in the code, is bounded by
`fuel`; running out of it is the outcome `running`.  The loops are not stopped (`RETURN_IF_STOPPED` is not modelled), nor logged.  The radius may be infinite, in which case it is `none`.
-/

set_option linter.unusedVariables false

namespace Principia.Numerics.GradientDescent

/-- The outcome of a computation: it is not finished, or it failed a check or divided by zero, or it returned a result. -/
inductive Outcome (α : Type) where
  | running
  | failed
  | done (result : α)

noncomputable section

/-- numerics/gradient_descent_body.hpp:88. -/
def c₁ : ℝ := 1 / 10000

/-- numerics/gradient_descent_body.hpp:89. -/
def c₂ : ℝ := 9 / 10

/-- numerics/gradient_descent_body.hpp:90. -/
def αMultiplier : ℝ := 2

/-- numerics/gradient_descent_body.hpp:91. -/
def hermite2Tolerance : ℝ := 1 / 100

/-- numerics/gradient_descent_body.hpp:94-106: the variables of `Zoom`. -/
structure ZoomState where
  lo : ℝ
  hi : ℝ
  ϕLo : ℝ
  ϕHi : ℝ
  ϕ'Lo : ℝ
  previous : Option ℝ

open Classical in
/-- numerics/gradient_descent_body.hpp:137-153: the choice of αⱼ.  If the interpolation is affine, the extremum is infinite or a NaN, so the conditions are false. -/
def candidate (s : ZoomState) : ℝ :=
  let margin := |s.hi - s.lo| * hermite2Tolerance
  match (Hermite2s.construct (s.lo, s.hi) (s.ϕLo, s.ϕHi) s.ϕ'Lo).bind Hermite2s.Hermite2.findExtremum with
  | none => (s.lo + s.hi) / 2
  | some extremum => if min s.lo s.hi + margin < extremum ∧ extremum < max s.lo s.hi - margin then extremum else (s.lo + s.hi) / 2

open Classical in
/-- numerics/gradient_descent_body.hpp:93-185 (`Zoom`).  `ϕ` and `ϕ'` are the function and its derivative along the line, as a function of α.  The result is α, and whether it satisfies the
strong Wolfe condition. -/
def zoom (ϕ ϕ' : ℝ → ℝ) (ϕ0 ϕ'0 : ℝ) : ℕ → ZoomState → Outcome (ℝ × Bool)
  | 0, _ => .running
  | fuel + 1, s =>
    if s.lo = s.hi then .failed
    else
      let α := candidate s
      let ϕα := ϕ α
      if s.previous = some ϕα then .done (α, false)
      else if ϕα > ϕ0 + c₁ * α * ϕ'0 ∨ ϕα ≥ s.ϕLo then zoom ϕ ϕ' ϕ0 ϕ'0 fuel { s with hi := α, ϕHi := ϕα, previous := some ϕα }
      else
        let ϕ'α := ϕ' α
        if |ϕ'α| ≤ -c₂ * ϕ'0 then .done (α, true)
        else
          let s := if ϕ'α * (s.hi - s.lo) ≥ 0 then { s with hi := s.lo, ϕHi := s.ϕLo } else s
          zoom ϕ ϕ' ϕ0 ϕ'0 fuel { s with lo := α, ϕLo := ϕα, ϕ'Lo := ϕ'α, previous := some ϕα }

open Classical in
/-- numerics/gradient_descent_body.hpp:202-230: the loop of `LineSearch`. -/
def lineSearchLoop (ϕ ϕ' : ℝ → ℝ) (ϕ0 ϕ'0 : ℝ) (zoomFuel : ℕ) : ℕ → ℝ → Outcome (ℝ × Bool)
  | 0, _ => .running
  | fuel + 1, α =>
    let ϕα := ϕ α
    if ϕα > ϕ0 + c₁ * α * ϕ'0 ∨ ϕα ≥ ϕ0 then zoom ϕ ϕ' ϕ0 ϕ'0 zoomFuel ⟨0, α, ϕ0, ϕα, ϕ'0, none⟩
    else
      let ϕ'α := ϕ' α
      if |ϕ'α| ≤ -c₂ * ϕ'0 then .done (α, true)
      else if ϕ'α ≥ 0 then zoom ϕ ϕ' ϕ0 ϕ'0 zoomFuel ⟨α, 0, ϕα, ϕ0, ϕ'α, none⟩
      else lineSearchLoop ϕ ϕ' ϕ0 ϕ'0 zoomFuel fuel (α * αMultiplier)

variable {V : Type} [NormedAddCommGroup V] [InnerProductSpace ℝ V]

open RealInnerProductSpace

/-- numerics/gradient_descent_body.hpp:187-232 (`LineSearch`). -/
def lineSearch (fuel : ℕ) (x p gradFx : V) (f : V → ℝ) (gateaux : V → V → ℝ) : Outcome (ℝ × Bool) :=
  lineSearchLoop (fun α => f (x + α • p)) (fun α => gateaux (x + α • p) p) (f x) ⟪gradFx, p⟫ fuel fuel 1

/-- geometry/symmetric_bilinear_form_body.hpp (`SymmetricSquare`), as a linear map. -/
def symmetricSquare (s : V) : V →ₗ[ℝ] V where
  toFun v := ⟪s, v⟫ • s
  map_add' v w := by rw [inner_add_right, add_smul]
  map_smul' c v := by rw [inner_smul_right, mul_smul]; rfl

/-- geometry/symmetric_bilinear_form_body.hpp (`SymmetricProduct`), as a linear map. -/
def symmetricProduct (a b : V) : V →ₗ[ℝ] V where
  toFun v := (1 / 2 : ℝ) • (⟪b, v⟫ • a + ⟪a, v⟫ • b)
  map_add' v w := by simp only [inner_add_right, add_smul, smul_add]; abel
  map_smul' c v := by simp only [inner_smul_right, mul_smul, smul_add, RingHom.id_apply, smul_comm c (1 / 2 : ℝ)]

/-- numerics/gradient_descent_body.hpp:335-338: the new Hₖ. -/
def updateH (H : V →ₗ[ℝ] V) (s y : V) : V →ₗ[ℝ] V :=
  let ρ := 1 / ⟪s, y⟫
  H + ρ • ((ρ * ⟪y, H y⟫ + 1) • symmetricSquare s - (2 : ℝ) • symmetricProduct (H y) s)

/-- numerics/gradient_descent_body.hpp:295-297: H₀. -/
def initialH (s y : V) : V →ₗ[ℝ] V := (⟪s, y⟫ / ‖y‖ ^ 2) • LinearMap.id

/-- numerics/gradient_descent.hpp:49-52 and the value of the argument: the result of the algorithm. -/
inductive Result (V : Type) where
  | noMinimum
  | ok (x : V)

open Classical in
/-- numerics/gradient_descent_body.hpp:302-343: the main loop. -/
def loop (searchFuel : ℕ) (f : V → ℝ) (gradF : V → V) (gateaux : V → V → ℝ) (tolerance : ℝ) (radius : Option ℝ) (x₀ : V) : ℕ → V → V → (V →ₗ[ℝ] V) → Outcome (Result V)
  | 0, _, _, _ => .running
  | fuel + 1, x, gradFx, H =>
    if ∃ r ∈ radius, ‖x - x₀‖ > r then .done .noMinimum
    else
      let p := -(H gradFx)
      if ‖p‖ ≤ tolerance then .done (.ok x)
      else
        match lineSearch searchFuel x p gradFx f gateaux with
        | .running => .running
        | .failed => .failed
        | .done (α, satisfies) =>
          let x' := x + α • p
          let gradFx' := gradF x'
          let s := x' - x
          let y := gradFx' - gradFx
          if satisfies = false then .done (.ok x')
          else if ⟪s, y⟫ = 0 then .done (.ok x')
          else loop searchFuel f gradF gateaux tolerance radius x₀ fuel x' gradFx' (updateH H s y)

open Classical in
/-- numerics/gradient_descent_body.hpp:257-344 (`BroydenFletcherGoldfarbShanno`). -/
def bfgs (searchFuel fuel : ℕ) (start : V) (f : V → ℝ) (gradF : V → V) (gateaux : V → V → ℝ) (tolerance : ℝ) (radius : Option ℝ) (firstStep : Option ℝ) : Outcome (Result V) :=
  let x₀ := start
  let gradFx₀ := gradF x₀
  if gradFx₀ = 0 then .done (.ok x₀)
  else
    let p₀ := -((firstStep.getD tolerance) • (‖gradFx₀‖⁻¹ • gradFx₀))
    match lineSearch searchFuel x₀ p₀ gradFx₀ f gateaux with
    | .running => .running
    | .failed => .failed
    | .done (α₀, satisfies) =>
      let x₁ := x₀ + α₀ • p₀
      if satisfies = false then .done (.ok x₁)
      else
        let gradFx₁ := gradF x₁
        let s₀ := x₁ - x₀
        let y₀ := gradFx₁ - gradFx₀
        if ‖y₀‖ ^ 2 = 0 then .failed
        else loop searchFuel f gradF gateaux tolerance radius x₀ fuel x₁ gradFx₁ (initialH s₀ y₀)

end

end Principia.Numerics.GradientDescent
