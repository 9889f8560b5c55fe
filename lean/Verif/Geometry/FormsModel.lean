import Verif.Geometry.RotationModel

/-!
A model of the resolution of linear systems in geometry/r3x3_matrix_body.hpp and of the symmetric bilinear forms of
geometry/symmetric_bilinear_form_body.hpp.

Simplifications: as in `Verif.Geometry.R3Model`.  A symmetric bilinear form is modelled by its matrix, `SymmetricBilinearForm::coordinates`.
-/

set_option linter.unusedSimpArgs false
set_option linter.unusedVariables false
set_option linter.unusedSectionVars false

namespace Principia.Geometry

/-! ## Linear systems -/

/-- How the resolution of a linear system may fail: a `CHECK` fails, or there is a division by zero, so that the result has infinities or NaNs. -/
inductive SolveError
  | check
  | division
  deriving DecidableEq

namespace M3

section Solve

variable {K : Type} [Field K] [LinearOrder K]

/-- The indices of a loop `for (int i = …; i < 3; ++i)`. -/
def indices : List (Fin 3) := [0, 1, 2]

/-- geometry/r3x3_matrix_body.hpp:184-193: the search of the pivot. -/
def pivot (A : M3 K) (k : Fin 3) : Option (Fin 3) × K :=
  (indices.filter (k ≤ ·)).foldl (fun s i => if s.2 ≤ |A.at' i k| then (some i, |A.at' i k|) else s) (none, 0)

/-- geometry/r3x3_matrix_body.hpp:196-197: `std::swap` on the rows of a matrix. -/
def swapRows (m : M3 K) (k r : Fin 3) : M3 K := (m.setRow k (m.row r)).setRow r (m.row k)

/-- geometry/r3x3_matrix_body.hpp:198: `std::swap` on the coordinates of a vector. -/
def _root_.Principia.Geometry.R3.swap (b : R3 K) (k r : Fin 3) : R3 K := (b.set k (b.get r)).set r (b.get k)

/-- geometry/r3x3_matrix_body.hpp:201-207: the loop on `j`. -/
def upper (A L U : M3 K) (k : Fin 3) : M3 K :=
  (indices.filter (k ≤ ·)).foldl
    (fun U j => U.set k j ((indices.filter (· < k)).foldl (fun u i => u - L.at' k i * U.at' i j) (A.at' k j))) U

/-- geometry/r3x3_matrix_body.hpp:208-214: the loop on `i`. -/
def lower (A L U : M3 K) (k : Fin 3) : M3 K :=
  (indices.filter (k < ·)).foldl
    (fun L i => L.set i k ((indices.filter (· < k)).foldl (fun l j => l - L.at' i j * U.at' j k) (A.at' i k) / U.at' k k)) L

/-- The variables of the function. -/
structure LU (K : Type) where
  A : M3 K
  b : R3 K
  L : M3 K
  U : M3 K

/-- geometry/r3x3_matrix_body.hpp:182-216: an iteration of the loop on `k`. -/
def luStep (s : LU K) (k : Fin 3) : Except SolveError (LU K) :=
  match (s.A.pivot k).1 with
  | none => .error .check
  | some r =>
    let A := s.A.swapRows k r
    let L := s.L.swapRows k r
    let b := s.b.swap k r
    if A.at' k k = 0 then .error .check
    else
      let U := A.upper L s.U k
      if k < 2 ∧ U.at' k k = 0 then .error .division
      else .ok ⟨A, b, (A.lower L U k).set k k 1, U⟩

/-- geometry/r3x3_matrix_body.hpp:168-242 (`Solve`).  The matrices `L` and `U` are not initialized: their initial elements are arbitrary. -/
def solve (A L U : M3 K) (rhs : R3 K) : Except SolveError (R3 K) :=
  match indices.foldlM luStep ⟨A, rhs, L, U⟩ with
  | .error e => .error e
  | .ok s =>
    let y₀ := s.b.x
    let y₁ := s.b.y - s.L.at' 1 0 * y₀
    let y₂ := s.b.z - s.L.at' 2 0 * y₀ - s.L.at' 2 1 * y₁
    if s.U.at' 2 2 = 0 then .error .division
    else
      let x₂ := y₂ / s.U.at' 2 2
      let x₁ := (y₁ - s.U.at' 1 2 * x₂) / s.U.at' 1 1
      let x₀ := (y₀ - s.U.at' 0 1 * x₁ - s.U.at' 0 2 * x₂) / s.U.at' 0 0
      .ok ⟨x₀, x₁, x₂⟩

end Solve

end M3

/-! ## Operations on forms -/

namespace Form

section

variable {K : Type} [Field K]

/-- geometry/symmetric_bilinear_form_body.hpp:135-146 (`operator()`). -/
def eval (F : M3 K) (left right : R3 K) : K := left.dot (F.mulVec right)

/-- geometry/symmetric_bilinear_form_body.hpp:148-154 (`Anticommutator`, a form on bivectors). -/
def anticommutator (F : M3 K) : M3 K := F.trace • M3.identity - F

/-- geometry/symmetric_bilinear_form_body.hpp:156-166 (`AnticommutatorInverse`). -/
def anticommutatorInverse (F : M3 K) : M3 K := -F + (F.trace / 2) • M3.identity

/-- geometry/symmetric_bilinear_form_body.hpp:414-421 (`Anticommutator` of a form and a bivector). -/
def anticommutatorWith (F : M3 K) (b : R3 K) : R3 K := F.trace • b - F.mulVec b

/-- geometry/symmetric_bilinear_form_body.hpp:397-404 (`SymmetricProduct`). -/
def symmetricProduct (left right : R3 K) : M3 K := (1 / 2 : K) • (M3.kronecker left right + M3.kronecker right left)

/-- geometry/symmetric_bilinear_form_body.hpp:406-412 (`SymmetricSquare`). -/
def symmetricSquare (v : R3 K) : M3 K := M3.kronecker v v

/-- geometry/symmetric_bilinear_form_body.hpp:277-283 (`InnerProductForm`). -/
def innerProduct : M3 K := M3.identity

/-- geometry/symmetric_bilinear_form_body.hpp:383-395 (`operator/`). -/
def divide [LinearOrder K] (L U : M3 K) (left : R3 K) (F : M3 K) : Except SolveError (R3 K) := F.solve L U left

end

/-! ## Diagonalization -/

noncomputable section

/-- geometry/r3x3_matrix_body.hpp:130-133 (`FrobeniusNorm`). -/
def frobeniusNorm (m : M3 ℝ) : ℝ := √(m.rowX.normSq + m.rowY.normSq + m.rowZ.normSq)

/-- geometry/symmetric_bilinear_form_body.hpp:28-40 (`JacobiRotation`). -/
def jacobiRotation (p q : Fin 3) (c s : ℝ) : M3 ℝ :=
  (((M3.identity.set p p c).set q q c).set p q s).set q p (-s)

/-- geometry/symmetric_bilinear_form_body.hpp:42-64 (`SymmetricSchurDecomposition2By2`). -/
def schur (A : M3 ℝ) (p q : Fin 3) : ℝ × ℝ :=
  if A.at' p q ≠ 0 then
    let τ := (A.at' q q - A.at' p p) / (2 * A.at' p q)
    let t := if 0 ≤ τ then 1 / (τ + √(1 + τ * τ)) else 1 / (τ - √(1 + τ * τ))
    let c := 1 / √(1 + t * t)
    (c, t * c)
  else (1, 0)

/-- geometry/symmetric_bilinear_form_body.hpp:178: `max_iterations`. -/
def maxIterations : Nat := 16

/-- geometry/symmetric_bilinear_form_body.hpp:179: `ε`. -/
def ε : ℝ := 2 ^ (-52 : ℤ) / 128

/-- geometry/symmetric_bilinear_form_body.hpp:190-200: the search of the largest off-diagonal element; `none` for uninitialized indices. -/
def largest (A : M3 ℝ) : ℝ × Option (Fin 3 × Fin 3) :=
  ([(0, 1), (0, 2), (1, 2)] : List (Fin 3 × Fin 3)).foldl
    (fun s i => if s.1 ≤ |A.at' i.1 i.2| then (|A.at' i.1 i.2|, some i) else s) (0, none)

/-- geometry/symmetric_bilinear_form_body.hpp:185-213: the loop, with the number of remaining iterations; `none` if uninitialized variables are used. -/
def jacobiLoop (norm : ℝ) : Nat → M3 ℝ × M3 ℝ → Option (M3 ℝ × M3 ℝ)
  | 0, s => some s
  | n + 1, (A, V) =>
    let l := largest A
    if l.1 ≤ ε * norm then some (A, V)
    else l.2.bind fun i =>
      let θ := schur A i.1 i.2
      let J := jacobiRotation i.1 i.2 θ.1 θ.2
      jacobiLoop norm n ((J.transpose.mul A).mul J, V.mul J)

/-- The variables of the sort: `odd`, the diagonal of `A` and `v`. -/
structure SortState where
  odd : Bool
  A : M3 ℝ
  v : M3 ℝ

/-- geometry/symmetric_bilinear_form_body.hpp:225-231 (`swap_if_needed`). -/
def swapIfNeeded (i j : Fin 3) (s : SortState) : SortState :=
  if s.A.at' j j < s.A.at' i i then
    ⟨!s.odd, (s.A.set i i (s.A.at' j j)).set j j (s.A.at' i i), s.v.swapRows i j⟩
  else s

/-- geometry/symmetric_bilinear_form_body.hpp:215-242: the sort of the eigenvalues and the orientation of the eigenvectors. -/
def sort (A V : M3 ℝ) : SortState :=
  let s := swapIfNeeded 0 1 (swapIfNeeded 1 2 (swapIfNeeded 0 1 ⟨false, A, V.transpose⟩))
  if s.odd then { s with v := s.v.setRow 1 ((-1 : ℝ) • s.v.row 1) } else s

/-- geometry/symmetric_bilinear_form_body.hpp:168-246 (`Diagonalize`): the diagonal form and the rotation. -/
def diagonalize (F : M3 ℝ) : Option (M3 ℝ × Rotation ℝ) :=
  (jacobiLoop (frobeniusNorm F) maxIterations (F, M3.identity)).map fun r =>
    let s := sort r.1 r.2
    (M3.diagonal ⟨s.A.at' 0 0, s.A.at' 1 1, s.A.at' 2 2⟩, Rotation.ofFromFrameAxes (s.v.row 0) (s.v.row 1) (s.v.row 2))

/-- geometry/symmetric_bilinear_form_body.hpp:248-255 (`IsDiagonalized`). -/
def isDiagonalized (F : M3 ℝ) : Prop :=
  (F.at' 0 1 = 0 ∧ F.at' 0 2 = 0 ∧ F.at' 1 0 = 0 ∧ F.at' 1 2 = 0 ∧ F.at' 2 0 = 0 ∧ F.at' 2 1 = 0) ∧ F.at' 0 0 ≤ F.at' 1 1 ∧ F.at' 1 1 ≤ F.at' 2 2

end

end Form

end Principia.Geometry
