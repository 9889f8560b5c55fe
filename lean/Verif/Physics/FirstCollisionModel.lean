import Verif.Numerics.ApproximationModel

/-!
The first collision of a trajectory with the terrain of a body, `ComputeFirstCollision` in physics/apsides_body.hpp.

The instants and the lengths are real numbers.  The height above the terrain is a function of time: the trajectories, the rotation of the body and the terrain are not modelled, nor is the evaluation of
the trajectory at the time of the collision.  The eigenvalues of a matrix are those given by the function `realEigenvalues`: the relative error on the roots is not modelled.
-/

namespace Principia.Physics.FirstCollision

open Principia.Numerics.Chebyshev

noncomputable section

/-- physics/apsides_body.hpp:51 (`max_чебышёв_degree`). -/
def maxChebyshevDegree : ℕ := 8

/-- physics/apsides_body.hpp:413-418 (`subdivide`). -/
def subdivide (p : Interpolant) (errorEstimate : ℝ) : Option Bool := p.2.mayHaveRealRoots errorEstimate

variable (realEigenvalues : (n : ℕ) → Matrix (Fin n) (Fin n) ℝ → Finset ℝ)

/-- physics/apsides_body.hpp:420-452 (`stop`).  The state is `first_collision_time`. -/
def stop (firstCollisionTime : Option ℝ) (p : Interpolant) : Option (Option ℝ × Bool) :=
  (p.2.mayHaveRealRoots 0).bind fun mayHaveRealRoots =>
    if mayHaveRealRoots then
      (p.2.realRoots (realEigenvalues p.1)).bind fun roots =>
        if h : roots.Nonempty then some (some (roots.min' h), true) else some (firstCollisionTime, false)
    else some (firstCollisionTime, false)

/-- physics/apsides_body.hpp:374-471 (`ComputeFirstCollision`): the time of the first collision, if there is one. -/
def computeFirstCollision (height : ℝ → ℝ) (min max maxCollisionError : ℝ) (fuel : ℕ) : Option (Option ℝ) := do
  let (firstCollisionTime, _) ← streaming height maxCollisionError maxChebyshevDegree subdivide (stop realEigenvalues) fuel min max none
  return firstCollisionTime

end

end Principia.Physics.FirstCollision
