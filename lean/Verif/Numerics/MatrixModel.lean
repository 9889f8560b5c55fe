import Mathlib.Data.Real.Sqrt
import Mathlib.Data.Matrix.Mul

/-!
A model of numerics/matrix_computations_body.hpp: the decompositions of matrices and the resolution of linear systems.

Simplifications: exact arithmetic, in an ordered field, or in the real numbers where there are square roots.  The dimensions are arguments; a matrix is a function of its row and
its column, whose values outside of the dimensions are irrelevant.  The fixed and the unbounded arrays are not distinguished.  The uninitialized arrays have arbitrary elements.
The views of matrices are replaced by accesses to their elements.  The warnings are not modelled.  `none` is a division by zero or the square root of a negative number, so that
the result has infinities or NaNs, or undefined behaviour, or a failed check.
-/

set_option linter.unusedSimpArgs false
set_option linter.unusedVariables false
set_option linter.unusedSectionVars false

namespace Principia.Numerics.Matrices

/-- The matrices and the vectors. -/
abbrev Mat (K : Type) := ℕ → ℕ → K
abbrev Vec (K : Type) := ℕ → K

/-- `A(i, j) = x`. -/
def Mat.set {K : Type} (A : Mat K) (i j : ℕ) (x : K) : Mat K := fun p q => if p = i ∧ q = j then x else A p q

/-- `b[i] = x`. -/
def Vec.set {K : Type} (b : Vec K) (i : ℕ) (x : K) : Vec K := fun p => if p = i then x else b p

/-- `for (i = lo; i < hi; ++i)`, with a body that may fail. -/
def loop {σ : Type} (lo hi : ℕ) (body : ℕ → σ → Option σ) (s : σ) : Option σ := (List.range' lo (hi - lo)).foldlM (fun s i => body i s) s

/-- `for (i = lo; i < hi; ++i)`, with a body that does not fail. -/
def sweep {σ : Type} (lo hi : ℕ) (body : ℕ → σ → σ) (s : σ) : σ := (List.range' lo (hi - lo)).foldl (fun s i => body i s) s

section Field

variable {K : Type} [Field K] [LinearOrder K]

/-- A quotient that is neither infinite nor a NaN. -/
def quotient (x y : K) : Option K := if y = 0 then none else some (x / y)

/-- `Scalar s{}; for (k = lo; k < hi; ++k) s += g(k);`. -/
def sum (lo hi : ℕ) (g : ℕ → K) : K := sweep lo hi (fun k s => s + g k) 0

/-- `for (k = lo; k < hi; ++k) s -= g(k);`. -/
def subtract (s : K) (lo hi : ℕ) (g : ℕ → K) : K := sweep lo hi (fun k s => s - g k) s

/-- numerics/matrix_computations_body.hpp:682-706 (`ᵗRDRDecomposition`). -/
def rdr (n : ℕ) (A R : Mat K) (D : Vec K) : Option (Mat K × Vec K) :=
  loop 0 n (fun i (s : Mat K × Vec K) =>
    let D := s.2.set i (A i i - sum 0 i fun k => s.1 k i ^ 2 * s.2 k);
    (loop (i + 1) n (fun j (R : Mat K) =>
      (quotient (A i j - sum 0 i fun k => R k i * R k j * D k) (D i)).map fun x => R.set i j x) s.1).map fun R => (R.set i i 1, D)) (R, D)

/-- numerics/matrix_computations_body.hpp:709-726 (`BackSubstitution`). -/
def backSubstitution (n : ℕ) (U : Mat K) (b x : Vec K) : Option (Vec K) :=
  if n = 0 then none
  else
    (quotient (b (n - 1)) (U (n - 1) (n - 1))).bind fun y =>
      (List.range (n - 1)).reverse.foldlM (fun (x : Vec K) i =>
        (quotient (subtract (b i) (i + 1) n fun j => U i j * x j) (U i i)).map fun y => x.set i y) (x.set (n - 1) y)

/-- numerics/matrix_computations_body.hpp:731-746 (`ForwardSubstitution`). -/
def forwardSubstitution (n : ℕ) (L : Mat K) (b x : Vec K) : Option (Vec K) :=
  if n = 0 then none
  else
    (quotient (b 0) (L 0 0)).bind fun y =>
      loop 1 n (fun i (x : Vec K) => (quotient (subtract (b i) 0 i fun j => L i j * x j) (L i i)).map fun y => x.set i y) (x.set 0 y)

/-- numerics/matrix_computations_body.hpp:786-841 (`UnitriangularGramSchmidt`), for a matrix with `m` rows and `n` columns. -/
def unitriangularGramSchmidt (m n : ℕ) (A Q R : Mat K) : Mat K × Mat K :=
  sweep 0 n (fun j (s : Mat K × Mat K) =>
    let R := sweep 0 j (fun i (R : Mat K) =>
      let norm2 := sum 0 m fun l => s.1 l i * s.1 l i;
      if norm2 = 0 then R.set i j 0 else R.set i j ((sum 0 m fun l => s.1 l i * A l j) / norm2)) s.2;
    let Q := sweep 0 m (fun l (Q : Mat K) => Q.set l j (A l j)) s.1;
    let Q := sweep 0 j (fun k (Q : Mat K) => sweep 0 m (fun l (Q' : Mat K) => Q'.set l j (Q l j - R k j * Q l k)) Q) Q;
    (Q, R.set j j 1)) (Q, R)

/-- numerics/matrix_computations_body.hpp:1075-1082: the search of the pivot. -/
def pivot (n : ℕ) (A : Mat K) (k : ℕ) : Option ℕ × K :=
  sweep k n (fun i (s : Option ℕ × K) => if s.2 ≤ |A i k| then (some i, |A i k|) else s) (none, 0)

/-- `std::swap` on the elements of two rows, with columns in a range. -/
def swapRows (A : Mat K) (lo hi k r : ℕ) : Mat K := sweep lo hi (fun i (A : Mat K) => (A.set k i (A r i)).set r i (A k i)) A

/-- `std::swap` on the elements of a vector. -/
def Vec.swap (b : Vec K) (k r : ℕ) : Vec K := (b.set k (b r)).set r (b k)

/-- The variables of `Solve`. -/
structure LU (K : Type) where
  A : Mat K
  L : Mat K
  U : Mat K
  b : Vec K

/-- numerics/matrix_computations_body.hpp:1074-1113: an iteration of the loop on `k`. -/
def luStep (n : ℕ) (k : ℕ) (s : LU K) : Option (LU K) :=
  (pivot n s.A k).1.bind fun r =>
    let A := swapRows s.A 0 n k r;
    let L := swapRows s.L 0 k k r;
    let b := s.b.swap k r;
    let U := sweep k n (fun j (U : Mat K) => U.set k j (subtract (A k j) 0 k fun i => L k i * U i j)) s.U;
    (loop (k + 1) n (fun i (L : Mat K) => (quotient (subtract (A i k) 0 k fun j => L i j * U j k) (U k k)).map fun x => L.set i k x) L).map fun L =>
      ⟨A, L.set k k 1, U, b⟩

/-- numerics/matrix_computations_body.hpp:1058-1123 (`Solve`), for a square matrix.  The last arguments are the contents of the uninitialized arrays. -/
def solve (n : ℕ) (A : Mat K) (b : Vec K) (L U : Mat K) (x y : Vec K) : Option (Vec K) :=
  (loop 0 n (luStep n) ⟨A, L, U, b⟩).bind fun s => (forwardSubstitution n s.L s.b y).bind fun y => backSubstitution n s.U y x

end Field

noncomputable section

open Classical in
/-- `Sqrt`. -/
def squareRoot (x : ℝ) : Option ℝ := if x < 0 then none else some √x

/-- numerics/matrix_computations_body.hpp:658-679 (`CholeskyDecomposition`). -/
def cholesky (n : ℕ) (A R : Mat ℝ) : Option (Mat ℝ) :=
  loop 0 n (fun j (R : Mat ℝ) =>
    (loop 0 j (fun i (R : Mat ℝ) => (quotient (A i j - sum 0 i fun k => R k i * R k j) (R i i)).map fun x => R.set i j x) R).bind fun R =>
      (squareRoot (A j j - sum 0 j fun k => R k j ^ 2)).map fun x => R.set j j x) R

/-- numerics/matrix_computations_body.hpp:748-784 (`ClassicalGramSchmidt`). -/
def classicalGramSchmidt (n : ℕ) (A Q R : Mat ℝ) : Option (Mat ℝ × Mat ℝ) :=
  loop 0 n (fun j (s : Mat ℝ × Mat ℝ) =>
    let R := sweep 0 j (fun i (R : Mat ℝ) => R.set i j (sum 0 n fun l => s.1 l i * A l j)) s.2;
    let q : Vec ℝ := sweep 0 j (fun k (q : Vec ℝ) => fun l => q l - R k j * s.1 l k) (fun l => A l j);
    let R := R.set j j √(sum 0 n fun l => q l ^ 2);
    (loop 0 n (fun l (Q : Mat ℝ) => (quotient (q l) (R j j)).map fun x => Q.set l j x) s.1).map fun Q => (Q, R)) (Q, R)

end

end Principia.Numerics.Matrices
