import Mathlib.MeasureTheory.Integral.IntervalIntegral.FundThmCalculus
import Mathlib.Analysis.SpecialFunctions.Trigonometric.Basic
import Mathlib.Analysis.SpecialFunctions.Sqrt

/-!
The elliptic integrals and functions of numerics/elliptic_integrals.hpp and numerics/elliptic_functions.hpp.

Simplifications: the algorithms of [Fuk12a] and others are not modelled.  The functions are taken to return the mathematical values that their comments promise: the integrals
are integrals and the amplitude is the inverse of the integral of the first kind.
-/

namespace Principia.Numerics.Elliptic

noncomputable section

/-- The function √(1 - m sin² θ), where m = 1 - mc. -/
def delta (mc θ : ℝ) : ℝ := √(1 - (1 - mc) * Real.sin θ ^ 2)

/-- numerics/elliptic_integrals.hpp:31-33 (`EllipticF`). -/
def ellipticF (φ mc : ℝ) : ℝ := ∫ θ in (0 : ℝ)..φ, 1 / delta mc θ

/-- numerics/elliptic_integrals.hpp:39-41 (`EllipticΠ`). -/
def ellipticPi (φ n mc : ℝ) : ℝ := ∫ θ in (0 : ℝ)..φ, 1 / ((1 - n * Real.sin θ ^ 2) * delta mc θ)

/-- numerics/elliptic_functions.hpp:13 (`JacobiAmplitude`). -/
def jacobiAmplitude (u mc : ℝ) : ℝ := Function.invFun (fun φ => ellipticF φ mc) u

/-- The three results of `JacobiSNCNDN`. -/
structure SNCNDN where
  sn : ℝ
  cn : ℝ
  dn : ℝ

/-- numerics/elliptic_functions.hpp:15 (`JacobiSNCNDN`). -/
def jacobiSNCNDN (u mc : ℝ) : SNCNDN :=
  ⟨Real.sin (jacobiAmplitude u mc), Real.cos (jacobiAmplitude u mc), delta mc (jacobiAmplitude u mc)⟩

end

end Principia.Numerics.Elliptic
