import Verif.Numerics.MatrixModel

/-!
A model of numerics/lattices_body.hpp: the reduction of lattices with integer coordinates and floating-point coefficients (`NguyễnStehlé`).

The integers are unbounded, as in the code when `Matrix` has elements of type `cpp_int`.  The floating-point numbers are abstract: all their operations are arguments, so that what is
proved without hypotheses on these operations is true for any floating-point arithmetic.

Simplifications: the product of an element of `X` by an integer or by a floating-point number is computed in the type of the latter, as in the code.  The fuel bounds the number of
iterations of each of the loops, which fail if they run out of it, and `none` is also a failed check.  The debug checks are not modelled.
-/

set_option linter.unusedSimpArgs false
set_option linter.unusedVariables false
set_option linter.unusedSectionVars false

namespace Principia.Numerics.Lattices

open Principia.Numerics.Matrices

/-- The operations on floating-point numbers. -/
structure Floats (F : Type) where
  /-- `static_cast<double>(z)`. -/
  ofInt : ℤ → F
  sub : F → F → F
  mul : F → F → F
  div : F → F → F
  /-- `Abs(x) > η̄`. -/
  exceeds : F → Bool
  /-- numerics/lattices_body.hpp:392-399: the conversion to an integer, which saturates. -/
  toInt : F → ℤ
  /-- `δ̄ * x >= y`. -/
  lovász : F → F → Bool

/-- The operations in exact arithmetic, for given values of `δ̄`, `η̄` and of the conversion to an integer. -/
def exactFloats (δ η : ℚ) (toInt : ℚ → ℤ) : Floats ℚ where
  ofInt z := z
  sub x y := x - y
  mul x y := x * y
  div x y := x / y
  exceeds x := decide (|x| > η)
  toInt := toInt
  lovász x y := decide (δ * x ≥ y)

/-- The variables. -/
structure NS (F : Type) where
  b : Mat ℤ
  G : Mat ℤ
  r : Mat F
  μ : Mat F
  s : Vec F

/-- A sum of integers. -/
def sumInt (lo hi : ℕ) (g : ℕ → ℤ) : ℤ := sweep lo hi (fun k s => s + g k) 0

/-- numerics/lattices_body.hpp:240-263 (`Gram`), for a matrix with `n` rows and `d` columns. -/
def gramMatrix (n d : ℕ) (L u : Mat ℤ) : Mat ℤ :=
  sweep 0 d (fun i (g : Mat ℤ) => sweep 0 (i + 1) (fun j (g : Mat ℤ) =>
    let x := sumInt 0 n fun l => L l i * L l j;
    (g.set i j x).set j i x) g) u

/-- numerics/lattices_body.hpp:283-289: the rotation of the columns, in the first rows. -/
def rotateColumns (rows fromColumn toColumn : ℕ) (b : Mat ℤ) : Mat ℤ :=
  sweep 0 rows (fun i (b : Mat ℤ) =>
    let x := b i fromColumn;
    let b := (List.range' (toColumn + 1) (fromColumn - toColumn)).reverse.foldl (fun (b : Mat ℤ) j => b.set i j (b i (j - 1))) b;
    b.set i toColumn x) b

/-- numerics/lattices_body.hpp:298-304: the rotation of the rows, in the first columns. -/
def rotateRows (columns fromRow toRow : ℕ) (G : Mat ℤ) : Mat ℤ :=
  sweep 0 columns (fun j (G : Mat ℤ) =>
    let x := G fromRow j;
    let G := (List.range' (toRow + 1) (fromRow - toRow)).reverse.foldl (fun (G : Mat ℤ) i => G.set i j (G (i - 1) j)) G;
    G.set toRow j x) G

/-- numerics/lattices_body.hpp:272-322 (`Insert`). -/
def insertColumn {F : Type} (n d fromColumn toColumn : ℕ) (t : NS F) : NS F :=
  { t with b := rotateColumns n fromColumn toColumn t.b, G := rotateRows d fromColumn toColumn (rotateColumns d fromColumn toColumn t.G) }

section

variable {F : Type} (fl : Floats F)

/-- numerics/lattices_body.hpp:324-353 (`CholeskyFactorization`). -/
def choleskyFactorization (κ : ℕ) (t : NS F) : NS F :=
  sweep 0 κ (fun j (t : NS F) =>
    let r := t.r.set j κ (fl.ofInt (t.G κ j));
    let r := sweep 0 j (fun k (r : Mat F) => r.set j κ (fl.sub (r j κ) (fl.mul (t.μ k j) (r k κ)))) r;
    let μ := t.μ.set j κ (fl.div (r j κ) (r j j));
    let s := t.s.set 0 (fl.ofInt (t.G κ κ));
    let s := sweep 1 (κ + 1) (fun j (s : Vec F) => s.set j (fl.sub (s (j - 1)) (fl.mul (μ (j - 1) κ) (r (j - 1) κ)))) s;
    { t with r := r.set κ κ (s κ), μ := μ, s := s }) t

/-- numerics/lattices_body.hpp:385-407: the coefficients of the reduction, which also change the elements of `μ`. -/
def coefficients (κ : ℕ) (μ : Mat F) : Vec ℤ × Mat F :=
  (List.range κ).reverse.foldl (fun (a : Vec ℤ × Mat F) i =>
    let x := fl.toInt (a.2 i κ);
    (a.1.set i x, sweep 0 i (fun j (μ : Mat F) => μ.set j κ (fl.sub (μ j κ) (fl.mul (fl.ofInt x) (μ j i)))) a.2)) (fun _ => 0, μ)

/-- numerics/lattices_body.hpp:410-422: the reduction of the column `κ`. -/
def subtractColumns (n κ : ℕ) (X : Vec ℤ) (b : Mat ℤ) : Mat ℤ :=
  sweep 0 κ (fun i (b : Mat ℤ) => sweep 0 n (fun l (c : Mat ℤ) => c.set l κ (c l κ - X i * b l i)) b) b

/-- numerics/lattices_body.hpp:424-461: the update of the Gram matrix. -/
def updateGram (d κ : ℕ) (X : Vec ℤ) (G : Mat ℤ) : Mat ℤ :=
  let a := sumInt 0 κ fun j => X j * (X j * G j j);
  let b := sumInt 0 κ fun j => X j * G j κ;
  let c := sumInt 0 κ fun j => sumInt 0 j fun i => X i * (X j * G i j);
  let G := G.set κ κ (G κ κ + (a - 2 * b + 2 * c));
  sweep 0 d (fun i (G : Mat ℤ) =>
    if i ≠ κ then
      let x := G i κ - sumInt 0 κ fun j => X j * G i j;
      (G.set i κ x).set κ i x
    else G) G

/-- numerics/lattices_body.hpp:355-463 (`SizeReduce`). -/
def sizeReduce (n d κ : ℕ) : ℕ → NS F → Option (NS F)
  | 0, _ => none
  | fuel + 1, t =>
    let t := choleskyFactorization fl κ t;
    if (List.range κ).all fun j => !fl.exceeds (t.μ j κ) then some t
    else
      let a := coefficients fl κ t.μ;
      if (List.range κ).any fun i => a.1 i ≠ 0 then
        sizeReduce n d κ fuel { t with b := subtractColumns n κ a.1 t.b, G := updateGram d κ a.1 t.G, μ := a.2 }
      else none

/-- numerics/lattices_body.hpp:543-546: the index where the column is inserted; `ζ` is one more than in the code. -/
def insertionIndex (ζ : ℕ) (t : NS F) : ℕ → ℕ
  | 0 => 0
  | κ + 1 => if κ + 1 ≥ ζ + 1 ∧ fl.lovász (t.r κ κ) (t.s κ) then insertionIndex ζ t κ else κ + 1

/-- numerics/lattices_body.hpp:541-567: an iteration, after the reduction. -/
def insertionStep (n d κ' ζ : ℕ) (t : NS F) : ℕ × ℕ × NS F :=
  let κ := insertionIndex fl ζ t κ';
  let t := { t with μ := sweep ζ κ (fun i (μ : Mat F) => μ.set i κ (μ i κ')) t.μ, r := sweep ζ κ (fun i (r : Mat F) => r.set i κ (r i κ')) t.r };
  let t := { t with r := t.r.set κ κ (t.s κ) };
  let t := if κ' ≠ κ then insertColumn n d κ' κ t else t;
  let ζ := if (List.range n).all fun i => t.b i κ = 0 then ζ + 1 else ζ;
  (max (ζ + 1) (κ + 1), ζ, t)

/-- numerics/lattices_body.hpp:537-568: the main loop. -/
def nsLoop (n d : ℕ) (inner : ℕ) : ℕ → ℕ → ℕ → NS F → Option (NS F)
  | 0, _, _, _ => none
  | fuel + 1, κ, ζ, t =>
    if κ < d then
      (sizeReduce fl n d κ inner t).bind fun t =>
        let a := insertionStep fl n d κ ζ t;
        nsLoop n d inner fuel a.1 a.2.1 a.2.2
    else some t

/-- numerics/lattices_body.hpp:514-571 (`NguyễnStehlé`), for a matrix with `n` rows and `d` columns.  The arguments `u`, `r`, `μ` and `s` are the contents of the uninitialized
arrays. -/
def nguyenStehle (inner fuel : ℕ) (n d : ℕ) (u : Mat ℤ) (r μ : Mat F) (s : Vec F) (L : Mat ℤ) : Option (Mat ℤ) :=
  let G := gramMatrix n d L u;
  (nsLoop fl n d inner fuel 1 0 ⟨L, G, r.set 0 0 (fl.ofInt (G 0 0)), μ, s⟩).map NS.b

end

end Principia.Numerics.Lattices
