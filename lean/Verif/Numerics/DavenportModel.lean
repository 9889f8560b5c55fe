import Verif.Numerics.EigenModel
import Verif.Geometry.RotationModel

/-!
A model of numerics/davenport_q_method_body.hpp.

Simplifications: the arithmetic is that of the real numbers, and units and frames are not modelled.
-/

set_option linter.unusedVariables false

namespace Principia.Numerics.Davenport

open Principia.Geometry Principia.Numerics.Matrices

noncomputable section

open Classical

/-- numerics/davenport_q_method_body.hpp:35-41: the attitude profile matrix. -/
def attitudeProfile (l : List (R3 ℝ × R3 ℝ × ℝ)) : M3 ℝ := l.foldl (fun B t => B + t.2.2 • M3.kronecker t.2.1 t.1) ⟨0, 0, 0⟩

/-- numerics/davenport_q_method_body.hpp:43-63: the matrix K. -/
def kMatrix (B : M3 ℝ) : Mat ℝ := fun i j =>
  let z : R3 ℝ := ⟨B.at' 1 2 - B.at' 2 1, B.at' 2 0 - B.at' 0 2, B.at' 0 1 - B.at' 1 0⟩;
  let S := B + B.transpose;
  let μ := B.trace;
  if i < 3 ∧ j < 3 then (if i = j then S.at' (Fin.ofNat 3 i) (Fin.ofNat 3 j) - μ else S.at' (Fin.ofNat 3 i) (Fin.ofNat 3 j))
  else if j < 3 then z.get (Fin.ofNat 3 j)
  else if i < 3 then z.get (Fin.ofNat 3 i)
  else μ

/-- numerics/davenport_q_method_body.hpp:70-81: the eigenvector of the most positive eigenvalue, with that eigenvalue if it is not -∞. -/
def mostPositive (V : Mat ℝ) (eigenvalues : Vec ℝ) : Option ℝ × Quat ℝ :=
  sweep 0 4 (fun i (s : Option ℝ × Quat ℝ) =>
    if (∀ e, s.1 = some e → e < eigenvalues i) then (some (eigenvalues i), ⟨V 3 i, ⟨V 0 i, V 1 i, V 2 i⟩⟩) else s) (none, ⟨0, 0⟩)

/-- numerics/matrix_computations.hpp:147: the default value of the tolerance. -/
def tolerance : ℝ := 1 / 2 ^ 52 / 128

/-- numerics/davenport_q_method_body.hpp:26-86 (`DavenportQMethod`): `none` is a check that fails, or an access out of bounds. -/
def davenportQMethod (a b : List (R3 ℝ)) (weights : List ℝ) : Option (Rotation ℝ) :=
  if a.length = b.length ∧ a.length = weights.length then
    (classicalJacobi 4 (kMatrix (attitudeProfile (a.zip (b.zip weights)))) 20 tolerance).map fun e => ⟨(mostPositive e.1 e.2).2.conjugate⟩
  else none

end

end Principia.Numerics.Davenport
