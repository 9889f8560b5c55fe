import Verif.Numerics.MatrixModel

/-!
A model of numerics/lattices_body.hpp: the reduction of lattices.

Simplifications for `LenstraLenstraLovász`: exact arithmetic in an ordered field.  The function that rounds to an integer is an argument.  The matrices whose elements are not
initialized have the same arbitrary elements in all the calls to `UnitriangularGramSchmidt`.  The loop has a fuel and fails when it runs out of it.
-/

set_option linter.unusedSimpArgs false
set_option linter.unusedVariables false
set_option linter.unusedSectionVars false

namespace Principia.Numerics.Lattices

open Principia.Numerics.Matrices

variable {K : Type} [Field K] [LinearOrder K]

/-- numerics/lattices_body.hpp:487 with numerics/matrix_views_body.hpp:171-177: `vₖ -= x * Vector(vⱼ)`. -/
def subtractColumn (m : ℕ) (v : Mat K) (k j : ℕ) (x : K) : Mat K := sweep 0 m (fun i (w : Mat K) => w.set i k (w i k - x * v i j)) v

/-- numerics/matrix_views_body.hpp:220-226 (`SwapColumns`). -/
def swapColumns (m : ℕ) (v : Mat K) (j k : ℕ) : Mat K := sweep 0 m (fun i (v : Mat K) => (v.set i j (v i k)).set i k (v i j)) v

/-- numerics/lattices_body.hpp:474-490: the reduction of the column `k`. -/
def reduceColumn (round : K → ℤ) (m n : ℕ) (u w : Mat K) (k : ℕ) (v : Mat K) : Mat K × Mat K × Mat K :=
  (List.range k).reverse.foldl (fun (s : Mat K × Mat K × Mat K) j =>
    let μ := round (s.2.2 j k);
    if μ ≠ 0 then
      let v := subtractColumn m s.1 k j μ;
      (v, unitriangularGramSchmidt m n v u w)
    else s) (v, unitriangularGramSchmidt m n v u w)

/-- numerics/lattices_body.hpp:491-509: the end of an iteration, which computes the next `k`. -/
def advance (m : ℕ) (k : ℕ) (s : Mat K × Mat K × Mat K) : ℕ × Mat K :=
  let μ := s.2.2 (k - 1) k;
  if sum 0 m (fun l => s.2.1 l k * s.2.1 l k) ≥ (3 / 4 - μ ^ 2) * sum 0 m (fun l => s.2.1 l (k - 1) * s.2.1 l (k - 1)) then (k + 1, s.1)
  else (max (k - 1) 1, swapColumns m s.1 (k - 1) k)

/-- numerics/lattices_body.hpp:473: the loop on `k`. -/
def lllLoop (round : K → ℤ) (m n : ℕ) (u w : Mat K) : ℕ → ℕ → Mat K → Option (Mat K)
  | 0, _, _ => none
  | fuel + 1, k, v =>
    if k < n then
      let s := advance m k (reduceColumn round m n u w k v);
      lllLoop round m n u w fuel s.1 s.2
    else some v

/-- numerics/lattices_body.hpp:466-512 (`LenstraLenstraLovász`), for a matrix with `m` rows and `n` columns. -/
def lenstraLenstraLovász (fuel : ℕ) (round : K → ℤ) (m n : ℕ) (u w : Mat K) (L : Mat K) : Option (Mat K) := lllLoop round m n u w fuel 1 L

end Principia.Numerics.Lattices
