import Verif.Numerics.MatrixModel
import Verif.Numerics.RootFindersModel

/-!
A model of numerics/matrix_computations_body.hpp: the Householder reflections, the Hessenberg and real Schur decompositions, Jacobi's method for the eigenvalues of a symmetric matrix,
and Rayleigh's quotient.

Simplifications: those of `MatrixModel`, on the real numbers.  A view of a block of a matrix is modelled by the elements of the matrix, or by a copy of the block which is then written
back.
-/

set_option linter.unusedVariables false

namespace Principia.Numerics.Matrices

noncomputable section

open Classical

/-! ## Householder reflections -/

/-- numerics/matrix_computations_body.hpp:41-44: `HouseholderReflection`, i.e. `1 - β v ᵗv`. -/
structure Reflection where
  v : Vec ℝ
  β : ℝ

/-- numerics/unbounded_arrays_body.hpp:155-159 (`Normalize`). -/
def normalize (m : ℕ) (x : Vec ℝ) : Option (Vec ℝ) :=
  let norm := √(sum 0 m fun i => x i ^ 2);
  if norm = 0 then none else some fun i => x i / norm

/-- numerics/matrix_computations_body.hpp:46-75 (`ComputeHouseholderReflection`), for a vector with `m` elements. -/
def householder (m : ℕ) (x : Vec ℝ) : Option Reflection :=
  (normalize m x).map fun x =>
    let σ := sum 1 m fun i => x i ^ 2;
    if σ = 0 then ⟨x.set 0 1, if x 0 < 0 then -2 else 0⟩
    else
      let v₁ := if x 0 ≤ 0 then x 0 - 1 else -σ / (x 0 + 1);
      ⟨fun i => x.set 0 v₁ i / v₁, 2 * v₁ ^ 2 / (σ + v₁ ^ 2)⟩

/-- numerics/matrix_computations_body.hpp:77-88 (`Premultiply`), for the block that starts at row `r` and has `m` rows, and whose columns start at `c` and end before `c'`. -/
def premultiply (P : Reflection) (m r c c' : ℕ) (A : Mat ℝ) : Mat ℝ := fun i j =>
  if r ≤ i ∧ i < r + m ∧ c ≤ j ∧ j < c' then A i j - P.β * P.v (i - r) * sum 0 m (fun l => A (r + l) j * P.v l) else A i j

/-- numerics/matrix_computations_body.hpp:90-97 (`PostMultiply`), for the block whose rows start at `r` and end before `r'`, and which starts at column `c` and has `m` columns. -/
def postMultiply (P : Reflection) (m r r' c : ℕ) (A : Mat ℝ) : Mat ℝ := fun i j =>
  if r ≤ i ∧ i < r' ∧ c ≤ j ∧ j < c + m then A i j - sum 0 m (fun l => A i (c + l) * P.v l) * (P.β * P.v (j - c)) else A i j

/-! ## Hessenberg decomposition -/

/-- numerics/matrix_computations_body.hpp:852-873: an iteration of the loop of `HessenbergDecomposition`. -/
def hessenbergStep (n k : ℕ) (H : Mat ℝ) : Option (Mat ℝ) :=
  let m := n - (k + 1);
  (householder m fun i => H (k + 1 + i) k).map fun P => postMultiply P m 0 n (k + 1) (premultiply P m (k + 1) k n H)

/-- numerics/matrix_computations_body.hpp:843-875 (`HessenbergDecomposition`). -/
def hessenberg (n : ℕ) (A : Mat ℝ) : Option (Mat ℝ) := loop 0 (n - 2) (hessenbergStep n) A

/-! ## Real Schur decomposition -/

/-- numerics/matrix_computations_body.hpp:194-221: the variables of the loop of `FrancisQRStep`: the matrix, and the vector with elements x, y, z. -/
structure Francis where
  H : Mat ℝ
  xyz : Vec ℝ

/-- numerics/matrix_computations_body.hpp:182-193: the initial vector of `FrancisQRStep`. -/
def francisVector (n : ℕ) (H : Mat ℝ) : Vec ℝ :=
  let m := n - 1;
  let s := H (m - 1) (m - 1) + H (n - 1) (n - 1);
  let t := H (m - 1) (m - 1) * H (n - 1) (n - 1) - H (m - 1) (n - 1) * H (n - 1) (m - 1);
  let x := H 0 0 ^ 2 + H 0 1 * H 1 0 - s * H 0 0 + t;
  let y := H 1 0 * (H 0 0 + H 1 1 - s);
  let z := H 1 0 * H 2 1;
  fun i => if i = 0 then x else if i = 1 then y else z

/-- numerics/matrix_computations_body.hpp:194-221: an iteration of the loop of `FrancisQRStep`. -/
def francisIteration (n k : ℕ) (s : Francis) : Option Francis :=
  (householder 3 s.xyz).map fun P =>
    let q := max 1 k;
    let H := premultiply P 3 k (q - 1) n s.H;
    let r := min (k + 4) n;
    let H := postMultiply P 3 0 r k H;
    ⟨H, fun i => if i = 0 then H (k + 1) k else if i = 1 then H (k + 2) k else if k + 3 < n then H (k + 3) k else s.xyz 2⟩

/-- numerics/matrix_computations_body.hpp:180-238 (`FrancisQRStep`), for at least 3 rows. -/
def francisStep (n : ℕ) (H : Mat ℝ) : Option (Mat ℝ) :=
  (loop 0 (n - 2) (francisIteration n) ⟨H, francisVector n H⟩).bind fun s =>
    (householder 2 s.xyz).map fun P => postMultiply P 2 0 n (n - 2) (premultiply P 2 (n - 2) (n - 3) n s.H)

/-- numerics/matrix_computations_body.hpp:891-895: the small elements are set to zero. -/
def deflate (n : ℕ) (ε : ℝ) (H : Mat ℝ) : Mat ℝ :=
  sweep 1 n (fun i (H : Mat ℝ) => if |H i (i - 1)| ≤ ε * (|H i i| + |H (i - 1) (i - 1)|) then H.set i (i - 1) 0 else H) H

/-- numerics/matrix_computations_body.hpp:899-912: the loop from `i` on, with the number of iterations left. -/
def quasiTriangularLoop (n : ℕ) (H : Mat ℝ) : ℕ → ℕ → Bool → ℕ → ℕ
  | 0, _, _, q => q
  | left + 1, i, hasSubdiagonalElement, q =>
    if i = n ∨ H (n - i) (n - i - 1) = 0 then quasiTriangularLoop n H left (i + 1) false i
    else if hasSubdiagonalElement then q
    else quasiTriangularLoop n H left (i + 1) true q

/-- numerics/matrix_computations_body.hpp:897-912: the dimension of the last block that is upper quasi-triangular. -/
def quasiTriangular (n : ℕ) (H : Mat ℝ) : ℕ := quasiTriangularLoop n H n 1 false 0

/-- numerics/matrix_computations_body.hpp:918-923: the first row of the block that ends at the given row and has no zero under its diagonal. -/
def unreducedStart (H : Mat ℝ) : ℕ → ℕ
  | 0 => 0
  | p + 1 => if H (p + 1) p = 0 then p + 1 else unreducedStart H p

/-- numerics/matrix_computations_body.hpp:925-930: `FrancisQRStep` on the block between rows and columns `p` and `p + m`. -/
def francisBlock (p m : ℕ) (H : Mat ℝ) : Option (Mat ℝ) :=
  (francisStep m fun i j => H (p + i) (p + j)).map fun B i j => if p ≤ i ∧ i < p + m ∧ p ≤ j ∧ j < p + m then B (i - p) (j - p) else H i j

/-- numerics/matrix_computations_body.hpp:890-931: the loop, with a limit on the number of iterations.  The outer option is a division by zero, the inner one a limit that is exceeded. -/
def schurLoop (n : ℕ) (ε : ℝ) : ℕ → Mat ℝ → Option (Option (Mat ℝ))
  | 0, _ => some none
  | fuel + 1, H =>
    let H := deflate n ε H;
    let q := quasiTriangular n H;
    if q = n then some (some H)
    else
      let p := unreducedStart H (n - q - 1);
      (francisBlock p (n - q - p) H).bind (schurLoop n ε fuel)

/-- numerics/matrix_computations_body.hpp:164-178 (`Compute2By2Eigenvalues`), for the block that starts at row and column `i`. -/
def eigenvalues2By2 (H : Mat ℝ) (i : ℕ) : List RootFinders.Ext :=
  let a := H i i;
  let b := H i (i + 1);
  let c := H (i + 1) i;
  let d := H (i + 1) (i + 1);
  RootFinders.solveQuadratic 0 (a * d - b * c) (-a - d) 1

/-- numerics/matrix_computations_body.hpp:936-961: the elements inserted in the set of the real eigenvalues, with a number of iterations that suffices. -/
def realEigenvalues (n : ℕ) (H : Mat ℝ) : ℕ → ℕ → List RootFinders.Ext
  | 0, _ => []
  | left + 1, i =>
    if n ≤ i then []
    else if i = n - 1 then (if i = 0 ∨ H i (i - 1) = 0 then [.fin (H i i)] else [])
    else if H (i + 1) i = 0 then .fin (H i i) :: realEigenvalues n H left (i + 1)
    else eigenvalues2By2 H i ++ realEigenvalues n H left (i + 2)

/-- numerics/matrix_computations_body.hpp:877-965 (`RealSchurDecomposition`), with a limit on the number of iterations: the matrix and the real eigenvalues.  The outer option is a
division by zero, the inner one a limit that is exceeded. -/
def realSchur (fuel n : ℕ) (A : Mat ℝ) (ε : ℝ) : Option (Option (Mat ℝ × List RootFinders.Ext)) :=
  (hessenberg n A).bind fun H => (schurLoop n ε fuel H).map fun H => H.map fun H => (H, realEigenvalues n H n 0)

/-! ## Jacobi's method -/

/-- numerics/matrix_computations_body.hpp:99-107: `JacobiRotation`. -/
structure Rotation where
  cos : ℝ
  sin : ℝ
  p : ℕ
  q : ℕ

/-- numerics/matrix_computations_body.hpp:109-136 (`SymmetricSchurDecomposition2By2`). -/
def jacobiRotation (A : Mat ℝ) (p q : ℕ) : Rotation :=
  if A p q ≠ 0 then
    let τ := (A q q - A p p) / (2 * A p q);
    let t := if 0 ≤ τ then 1 / (τ + √(1 + τ * τ)) else 1 / (τ - √(1 + τ * τ));
    let c := 1 / √(1 + t * t);
    ⟨c, t * c, p, q⟩
  else ⟨1, 0, p, q⟩

/-- numerics/matrix_computations_body.hpp:140-150 (`PremultiplyByTranspose`). -/
def premultiplyByTranspose (J : Rotation) (n : ℕ) (A : Mat ℝ) : Mat ℝ :=
  sweep 0 n (fun j (A : Mat ℝ) => (A.set J.p j (J.cos * A J.p j - J.sin * A J.q j)).set J.q j (J.sin * A J.p j + J.cos * A J.q j)) A

/-- numerics/matrix_computations_body.hpp:152-162 (`PostMultiply`). -/
def postMultiplyByRotation (n : ℕ) (A : Mat ℝ) (J : Rotation) : Mat ℝ :=
  sweep 0 n (fun j (A : Mat ℝ) => (A.set j J.p (J.cos * A j J.p - J.sin * A j J.q)).set j J.q (J.sin * A j J.p + J.cos * A j J.q)) A

/-- numerics/matrix_computations_body.hpp:980-994: the largest element above the diagonal, and its indices if there is one. -/
def largest (n : ℕ) (A : Mat ℝ) : ℝ × Option (ℕ × ℕ) :=
  sweep 0 n (fun p (s : ℝ × Option (ℕ × ℕ)) =>
    sweep (p + 1) n (fun q (s : ℝ × Option (ℕ × ℕ)) => if s.1 ≤ |A p q| then (|A p q|, some (p, q)) else s) s) (0, none)

/-- numerics/fixed_arrays_body.hpp and numerics/unbounded_arrays_body.hpp (`FrobeniusNorm`). -/
def frobeniusNorm (n : ℕ) (A : Mat ℝ) : ℝ := √(sum 0 n fun i => sum 0 n fun j => A i j ^ 2)

/-- numerics/matrix_computations_body.hpp:979-1012: the loop, with the number of iterations left.  The result is the rotation and the matrix that should be diagonal, `none` is an
access out of bounds. -/
def jacobiLoop (n : ℕ) (tolerance : ℝ) : ℕ → Mat ℝ → Mat ℝ → Option (Mat ℝ × Mat ℝ)
  | 0, V, D => some (V, D)
  | left + 1, V, D =>
    if (largest n D).1 ≤ tolerance then some (V, D)
    else (largest n D).2.bind fun pq =>
      let J := jacobiRotation D pq.1 pq.2;
      jacobiLoop n tolerance left (postMultiplyByRotation n V J) (premultiplyByTranspose J n (postMultiplyByRotation n D J))

/-- numerics/matrix_computations_body.hpp:967-1019 (`ClassicalJacobi`): the rotation and the eigenvalues. -/
def classicalJacobi (n : ℕ) (A : Mat ℝ) (maxIterations : ℕ) (ε : ℝ) : Option (Mat ℝ × Vec ℝ) :=
  (jacobiLoop n (ε * frobeniusNorm n A) maxIterations (fun i j => if i = j then 1 else 0) A).map fun s => (s.1, fun i => s.2 i i)

/-! ## Rayleigh's quotient -/

/-- The product of a matrix and a vector. -/
def multiply (n : ℕ) (A : Mat ℝ) (x : Vec ℝ) : Vec ℝ := fun i => sum 0 n fun j => A i j * x j

/-- numerics/matrix_computations_body.hpp:1021-1026 (`RayleighQuotient`). -/
def rayleighQuotient (n : ℕ) (A : Mat ℝ) (x : Vec ℝ) : Option ℝ := quotient (sum 0 n fun i => x i * multiply n A x i) (sum 0 n fun i => x i * x i)

/-- numerics/matrix_computations_body.hpp:1038-1053: the loop of `RayleighQuotientIteration`, with the number of iterations left and the contents of the uninitialized arrays.  The
result tells whether the iteration converged. -/
def rayleighLoop (n : ℕ) (A : Mat ℝ) (tolerance : ℝ) (L U : Mat ℝ) (y z : Vec ℝ) : ℕ → Vec ℝ → ℝ → Option (Bool × Vec ℝ × ℝ)
  | 0, x, μ => some (false, x, μ)
  | left + 1, x, _ =>
    (rayleighQuotient n A x).bind fun μ =>
      let B := sweep 0 n (fun i (B : Mat ℝ) => B.set i i (B i i - μ)) A;
      let residual := √(sum 0 n fun i => multiply n B x i ^ 2);
      if residual < tolerance then some (true, x, μ)
      else (solve n B x L U y z).bind fun z' => (normalize n z').bind fun x => rayleighLoop n A tolerance L U y z left x μ

/-- numerics/matrix_computations_body.hpp:1028-1056 (`RayleighQuotientIteration`): whether the iteration converged, the eigenvector and the eigenvalue. -/
def rayleighQuotientIteration (n : ℕ) (A : Mat ℝ) (x : Vec ℝ) (L U : Mat ℝ) (y z : Vec ℝ) : Option (Bool × Vec ℝ × ℝ) :=
  (normalize n x).bind fun x => rayleighLoop n A (2 * (1 / 2 ^ 52)) L U y z 10 x 0

end

end Principia.Numerics.Matrices
