import Mathlib.Analysis.InnerProductSpace.Basic
import Mathlib.Analysis.SpecialFunctions.Pow.Real
import Mathlib.Data.List.Sort

/-!
Model of physics/geopotential.hpp, physics/geopotential_body.hpp and physics/harmonic_damping_body.hpp, with exact arithmetic.

The longitude λ is denoted by `L`.  The tables `LegendreNormalizationFactor` and `MaxAbsNormalizedAssociatedLegendreFunction` are parameters.  `none` is a failed check, or a result that is not a number.
-/

set_option linter.unusedVariables false

namespace Principia.Geopotential

variable {V : Type*} [NormedAddCommGroup V] [InnerProductSpace ℝ V]

/-! ### The body -/

/-- physics/oblate_body.hpp:59-67 and the orientation of physics/rotating_body.hpp: `surface t` is the pair of the images of the axes x and y of the surface frame at the time t. -/
structure OblateBody (V : Type*) where
  degree : ℕ
  referenceRadius : ℝ
  cos : ℕ → ℕ → ℝ
  sin : ℕ → ℕ → ℝ
  equatorial : V
  biequatorial : V
  polarAxis : V
  surface : ℝ → V × V

/-- physics/oblate_body_body.hpp:88-97; physics/oblate_body_body.hpp:24-33 only sets one coefficient, of order 0. -/
def OblateBody.isZonal (b : OblateBody V) : Prop := ∀ n ≤ b.degree, ∀ m, 1 ≤ m → m ≤ n → ¬(b.cos n m ≠ 0 ∨ b.sin n m ≠ 0)

/-! ### Damping -/

/-- physics/harmonic_damping_body.hpp:16-18: the outer threshold, given the inner one (⊤ is `Infinity<Length>`). -/
def outerThreshold (inner : WithTop ℝ) : WithTop ℝ := inner.map (· * 3)

open Classical in
/-- physics/harmonic_damping_body.hpp:19-22, 62-81 `ComputeDampedRadialQuantities`, for the potential. -/
noncomputable def dampedPotential (inner : WithTop ℝ) (r_norm r2 ℜ_over_r : ℝ) : Option ℝ :=
  if (r_norm : WithTop ℝ) ≤ inner then some ℜ_over_r
  else
    let s0 := inner.untopD 0;
    if s0 = 0 then none
    else
      let c1 := 9 / (4 * s0);
      let c2 := -3 / (2 * s0 ^ 2);
      let c3 := 1 / (4 * s0 ^ 3);
      let r3 := r2 * r_norm;
      let c3r3 := c3 * r3;
      let c2r2 := c2 * r2;
      let c1r := c1 * r_norm;
      let σ := c3r3 + c2r2 + c1r;
      some (σ * ℜ_over_r)

open Classical in
/-- physics/harmonic_damping_body.hpp:19-22, 32-60 `ComputeDampedRadialQuantities`, for the acceleration: `σℜ_over_r` and `grad_σℜ`. -/
noncomputable def dampedAcceleration (inner : WithTop ℝ) (r_norm r2 : ℝ) (r_normalized : V) (ℜ_over_r ℜ' : ℝ) : Option (ℝ × V) :=
  if (r_norm : WithTop ℝ) ≤ inner then some (ℜ_over_r, ℜ' • r_normalized)
  else
    let s0 := inner.untopD 0;
    if s0 = 0 then none
    else
      let c1 := 9 / (4 * s0);
      let c2 := -3 / (2 * s0 ^ 2);
      let c3 := 1 / (4 * s0 ^ 3);
      let r3 := r2 * r_norm;
      let c3r3 := c3 * r3;
      let c2r2 := c2 * r2;
      let c1r := c1 * r_norm;
      let σ := c3r3 + c2r2 + c1r;
      let σ'r := 3 * c3r3 + 2 * c2r2 + c1r;
      some (σ * ℜ_over_r, (σ'r * ℜ_over_r + ℜ' * σ) • r_normalized)

/-- physics/geopotential_body.hpp:680-684. -/
structure Threshold where
  r : WithTop ℝ
  n : ℕ
  m : ℕ

/-- physics/geopotential_body.hpp:687-691 `after`. -/
def after (left right : Threshold) : Prop := left.r < right.r ∨ (left.r = right.r ∧ (left.m < right.m ∨ (left.m = right.m ∧ left.n < right.n)))

open Classical in
/-- physics/geopotential_body.hpp:696-707: the threshold for one harmonic.  If `ε` is 0 the argument of `Root` is infinite. -/
noncomputable def harmonicThreshold (maxAbs : ℕ → ℕ → ℝ) (b : OblateBody V) (ε : ℝ) (n m : ℕ) : WithTop ℝ :=
  if b.cos n m = 0 ∧ b.sin n m = 0 then 0
  else if ε = 0 then ⊤
  else ((b.referenceRadius * (maxAbs n m * (n + 1) * √(b.cos n m ^ 2 + b.sin n m ^ 2) / ε) ^ (1 / (n : ℝ)) : ℝ) : WithTop ℝ)

/-- physics/geopotential_body.hpp:694-713: what is pushed into the priority queue. -/
noncomputable def thresholds (maxAbs : ℕ → ℕ → ℝ) (b : OblateBody V) (ε : ℝ) : List Threshold :=
  ((List.range' 2 (b.degree + 1 - 2)).flatMap fun n => (List.range (n + 1)).map fun m => ⟨harmonicThreshold maxAbs b ε n m, n, m⟩) ++ [⟨⊤, 0, 0⟩, ⟨⊤, 1, 0⟩]

open Classical in
/-- The order in which the thresholds are popped from the priority queue: physics/geopotential_body.hpp:685-693. -/
noncomputable def pops (l : List Threshold) : List Threshold := l.insertionSort fun a b => ¬after a b

/-- physics/geopotential.hpp:106-113: the inner thresholds of `degree_damping_` and `sectoral_damping_`. -/
structure Damping where
  degrees : List (WithTop ℝ)
  sectoral : WithTop ℝ

/-- physics/geopotential_body.hpp:716-730: the body of the loop. -/
def Damping.add (d : Damping) (t : Threshold) : Damping :=
  ⟨d.degrees ++ List.replicate (t.n + 1 - d.degrees.length) t.r,
    if t.n = 2 ∧ t.m = 2 then (if d.degrees.length > 3 then d.degrees.getD 3 ⊤ else t.r) else d.sectoral⟩

/-- physics/geopotential_body.hpp:669-733: the constructor, once the tolerance has been checked. -/
noncomputable def construct (maxAbs : ℕ → ℕ → ℝ) (b : OblateBody V) (ε : ℝ) : Damping := (pops (thresholds maxAbs b ε)).foldl Damping.add ⟨[], ⊤⟩

open Classical in
/-- physics/geopotential_body.hpp:910-922 `LimitingDegree`. -/
noncomputable def Damping.limitingDegree (d : Damping) (r_norm : ℝ) : ℕ := (d.degrees.takeWhile fun inner => (r_norm : WithTop ℝ) < outerThreshold inner).length

/-! ### Precomputations -/

/-- The uninitialized arrays of physics/geopotential_body.hpp:53-64. -/
structure Arrays where
  ℜ_over_r : ℕ → ℝ
  cos_mL : ℕ → ℝ
  sin_mL : ℕ → ℝ
  cos_β_to_the_m : ℕ → ℝ
  DmPn_of_sin_β : ℕ → ℕ → ℝ

/-- physics/geopotential_body.hpp:33-65 `Precomputations`, without the coefficients. -/
structure Precomputations (V : Type*) extends Arrays where
  r_norm : ℝ
  r2 : ℝ
  r_normalized : V
  sin_β : ℝ
  cos_β : ℝ
  grad_𝔅_vector : V
  grad_𝔏_vector : V

/-- An assignment to an element of the triangular matrix. -/
def set (D : ℕ → ℕ → ℝ) (n m : ℕ) (x : ℝ) : ℕ → ℕ → ℝ := Function.update D n (Function.update (D n) m x)

/-- physics/geopotential_body.hpp:249-331 `DegreeNOrderM::UpdatePrecomputations`. -/
noncomputable def updateOrder (n m : ℕ) (p : Precomputations V) : Precomputations V :=
  if n = 2 ∧ m = 1 then { p with DmPn_of_sin_β := set p.DmPn_of_sin_β 2 2 3 }
  else
    let p1 : Precomputations V :=
      if m = n then
        if m % 2 = 0 then
          let h := m / 2;
          { p with
            sin_mL := Function.update p.sin_mL m (2 * p.sin_mL h * p.cos_mL h)
            cos_mL := Function.update p.cos_mL m ((p.cos_mL h + p.sin_mL h) * (p.cos_mL h - p.sin_mL h))
            cos_β_to_the_m := Function.update p.cos_β_to_the_m m (p.cos_β_to_the_m h * p.cos_β_to_the_m h) }
        else
          let h1 := m / 2;
          let h2 := m - h1;
          { p with
            sin_mL := Function.update p.sin_mL m (p.sin_mL h1 * p.cos_mL h2 + p.cos_mL h1 * p.sin_mL h2)
            cos_mL := Function.update p.cos_mL m (p.cos_mL h1 * p.cos_mL h2 - p.sin_mL h1 * p.sin_mL h2)
            cos_β_to_the_m := Function.update p.cos_β_to_the_m m (p.cos_β_to_the_m h1 * p.cos_β_to_the_m h2) }
      else p;
    let D := p1.DmPn_of_sin_β;
    let D1 := if m = 0 then set D n 0 (((2 * n - 1) * p.sin_β * D (n - 1) 0 - (n - 1) * D (n - 2) 0) / n) else D;
    let D2 :=
      if m = n then D1
      else if m + 1 = n then set D1 n (m + 1) ((2 * n - 1) * (m + 1) * D1 (n - 1) m / n)
      else if m + 2 = n then set D1 n (m + 1) ((2 * n - 1) * (p.sin_β * D1 (n - 1) (m + 1) + (m + 1) * D1 (n - 1) m) / n)
      else set D1 n (m + 1) (((2 * n - 1) * (p.sin_β * D1 (n - 1) (m + 1) + (m + 1) * D1 (n - 1) m) - (n - 1) * D1 (n - 2) (m + 1)) / n);
    { p1 with DmPn_of_sin_β := D2 }

/-- physics/geopotential_body.hpp:476-499 `DegreeNAllOrders::UpdatePrecomputations`. -/
noncomputable def updateDegree (n : ℕ) (p : Precomputations V) : Precomputations V :=
  if n % 2 = 0 then
    let h := n / 2;
    { p with ℜ_over_r := Function.update p.ℜ_over_r n (p.ℜ_over_r h * p.ℜ_over_r h * p.r2) }
  else
    let h1 := n / 2;
    let h2 := n - h1;
    { p with ℜ_over_r := Function.update p.ℜ_over_r n (p.ℜ_over_r h1 * p.ℜ_over_r h2 * p.r2) }

open Classical in
/-- physics/geopotential_body.hpp:614-625: the axes. -/
noncomputable def OblateBody.axes (b : OblateBody V) (zonal : Prop) (t : ℝ) : V × V × V :=
  if zonal then (b.equatorial, b.biequatorial, b.polarAxis) else ((b.surface t).1, (b.surface t).2, b.polarAxis)

open Classical in
/-- physics/geopotential_body.hpp:590-666 `InitializePrecomputations`, given the axes. -/
noncomputable def initializePrecomputations (b : OblateBody V) (axes : V × V × V) (r : V) (r_norm r2 one_over_r3 : ℝ) (u : Arrays) : Precomputations V :=
  let x := inner ℝ r axes.1;
  let y := inner ℝ r axes.2.1;
  let z := inner ℝ r axes.2.2;
  let r_equatorial := √(x * x + y * y);
  let cos_L := if r_equatorial > 0 then x * (1 / r_equatorial) else 1;
  let sin_L := if r_equatorial > 0 then y * (1 / r_equatorial) else 0;
  let one_over_r_norm := 1 / r_norm;
  let cos_β := r_equatorial * one_over_r_norm;
  let sin_β := z * one_over_r_norm;
  { r_norm := r_norm
    r2 := r2
    r_normalized := one_over_r_norm • r
    sin_β := sin_β
    cos_β := cos_β
    grad_𝔅_vector := (-sin_β * cos_L) • axes.1 - (sin_β * sin_L) • axes.2.1 + cos_β • axes.2.2
    grad_𝔏_vector := cos_L • axes.2.1 - sin_L • axes.1
    ℜ_over_r := Function.update u.ℜ_over_r 1 (b.referenceRadius * one_over_r3)
    cos_mL := Function.update u.cos_mL 1 cos_L
    sin_mL := Function.update u.sin_mL 1 sin_L
    cos_β_to_the_m := Function.update (Function.update u.cos_β_to_the_m 0 1) 1 cos_β
    DmPn_of_sin_β := set (set (set u.DmPn_of_sin_β 0 0 1) 1 0 sin_β) 1 1 1 }

/-! ### Evaluation -/

/-- physics/geopotential_body.hpp:139-203 `DegreeNOrderM::Acceleration`, after the precomputations; `N` is `LegendreNormalizationFactor`. -/
noncomputable def orderAcceleration (N : ℕ → ℕ → ℝ) (b : OblateBody V) (n m : ℕ) (radial : ℝ × V) (p : Precomputations V) : V :=
  if n = 2 ∧ m = 1 then 0
  else
    let 𝔅 := p.cos_β_to_the_m m * p.DmPn_of_sin_β n m;
    let g0 := if m < n then p.cos_β * p.cos_β_to_the_m m * p.DmPn_of_sin_β n (m + 1) else 0;
    let grad_𝔅_polynomials := if m > 0 then g0 - m * p.sin_β * p.cos_β_to_the_m (m - 1) * p.DmPn_of_sin_β n m else g0;
    let 𝔏 := if m = 0 then b.cos n m else b.cos n m * p.cos_mL m + b.sin n m * p.sin_mL m;
    let v := (𝔅 * 𝔏) • radial.2 + (radial.1 * 𝔏 * grad_𝔅_polynomials) • p.grad_𝔅_vector;
    N n m • (if m > 0 then v + (radial.1 * p.cos_β_to_the_m (m - 1) * p.DmPn_of_sin_β n m * m * (b.sin n m * p.cos_mL m - b.cos n m * p.sin_mL m)) • p.grad_𝔏_vector else v)

/-- physics/geopotential_body.hpp:213-246 `DegreeNOrderM::Potential`, after the precomputations. -/
noncomputable def orderPotential (N : ℕ → ℕ → ℝ) (b : OblateBody V) (n m : ℕ) (σℜ_over_r : ℝ) (p : Precomputations V) : ℝ :=
  if n = 2 ∧ m = 1 then 0
  else
    let σℜ := p.r_norm * σℜ_over_r;
    let 𝔅 := p.cos_β_to_the_m m * p.DmPn_of_sin_β n m;
    let 𝔏 := if m = 0 then b.cos n m else b.cos n m * p.cos_mL m + b.sin n m * p.sin_mL m;
    -N n m * σℜ * 𝔅 * 𝔏

/-- physics/geopotential_body.hpp:333-413 and 415-474: `DegreeNAllOrders::Acceleration` and `DegreeNAllOrders::Potential`, which only differ by the damped radial quantities (`radial`) and the contribution of
each order (`term`).  `size` is the number of orders.  The `DCHECK`s are not modelled. -/
noncomputable def degreeAllOrders {ρ W : Type*} [AddCommGroup W] (radial : WithTop ℝ → ℝ → ℝ → Precomputations V → Option ρ) (term : ℕ → ℕ → ρ → Precomputations V → W) (d : Damping) (n size : ℕ) (p : Precomputations V) :
    Option (W × Precomputations V) :=
  if n < 2 then some (0, p)
  else
    let p := updateDegree n p;
    let ℜ_over_r := p.ℜ_over_r n;
    let ℜ' := -((n : ℝ) + 1) * ℜ_over_r;
    if n = 2 ∧ size > 1 then
      (radial (d.degrees.getD 2 ⊤) ℜ_over_r ℜ' p).bind fun ρ2 =>
        let p0 := updateOrder 2 0 p;
        let j2 := term 2 0 ρ2 p0;
        (radial d.sectoral ℜ_over_r ℜ' p0).bind fun ρs =>
          let p2 := updateOrder 2 2 (updateOrder 2 1 p0);
          some (j2 + term 2 2 ρs p2, p2)
    else
      (radial (d.degrees.getD n ⊤) ℜ_over_r ℜ' p).map fun ρ =>
        (List.range size).foldl (fun wp m =>
          let p := updateOrder n m wp.2;
          (wp.1 + term n m ρ p, p)) (0, p)

/-- physics/geopotential_body.hpp:521-535 and 558-572: the sum over the degrees. -/
noncomputable def allDegrees {ρ W : Type*} [AddCommGroup W] (radial : WithTop ℝ → ℝ → ℝ → Precomputations V → Option ρ) (term : ℕ → ℕ → ρ → Precomputations V → W) (d : Damping) (size : ℕ → ℕ) (maxDegree : ℕ)
    (p : Precomputations V) : Option (W × Precomputations V) :=
  (List.range (maxDegree + 1)).foldl (fun o n => o.bind fun wp => (degreeAllOrders radial term d n (size n) wp.2).map fun wp' => (wp.1 + wp'.1, wp'.2)) (some (0, p))

open Classical in
/-- physics/geopotential_body.hpp:740-813 and 822-895, with 501-519 and 538-556: `GeneralSphericalHarmonicsAcceleration` and `GeneralSphericalHarmonicsPotential`.  `compiledDegree` is the last `case` of the
`switch`: 30, or 50 if `PRINCIPIA_GEOPOTENTIAL_MAX_DEGREE_50`. -/
noncomputable def evaluate {ρ W : Type*} [AddCommGroup W] (radial : WithTop ℝ → ℝ → ℝ → Precomputations V → Option ρ) (term : ℕ → ℕ → ρ → Precomputations V → W) (compiledDegree : ℕ) (b : OblateBody V) (d : Damping)
    (t : ℝ) (r : V) (r_norm r2 one_over_r3 : ℝ) (u : Arrays) : Option W :=
  let maxDegree := d.limitingDegree r_norm - 1;
  if maxDegree = 1 then some 0
  else if 2 ≤ maxDegree ∧ maxDegree ≤ compiledDegree then
    let zonal := b.isZonal ∨ (r_norm : WithTop ℝ) > outerThreshold d.sectoral;
    (allDegrees radial term d (fun n => if zonal then 1 else n + 1) maxDegree (initializePrecomputations b (b.axes zonal t) r r_norm r2 one_over_r3 u)).map Prod.fst
  else none

/-- physics/geopotential_body.hpp:740-813 `GeneralSphericalHarmonicsAcceleration`. -/
noncomputable def acceleration (N : ℕ → ℕ → ℝ) (compiledDegree : ℕ) (b : OblateBody V) (d : Damping) (t : ℝ) (r : V) (r_norm r2 one_over_r3 : ℝ) (u : Arrays) : Option V :=
  evaluate (fun inner ℜ_over_r ℜ' p => dampedAcceleration inner p.r_norm p.r2 p.r_normalized ℜ_over_r ℜ') (orderAcceleration N b) compiledDegree b d t r r_norm r2 one_over_r3 u

/-- physics/geopotential_body.hpp:822-895 `GeneralSphericalHarmonicsPotential`. -/
noncomputable def potential (N : ℕ → ℕ → ℝ) (compiledDegree : ℕ) (b : OblateBody V) (d : Damping) (t : ℝ) (r : V) (r_norm r2 one_over_r3 : ℝ) (u : Arrays) : Option ℝ :=
  evaluate (fun inner ℜ_over_r _ p => dampedPotential inner p.r_norm p.r2 ℜ_over_r) (orderPotential N b) compiledDegree b d t r r_norm r2 one_over_r3 u

end Principia.Geopotential
