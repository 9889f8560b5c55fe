import Verif.Numerics.RootFindersModel

/-!
# Model of Brent's methods

numerics/root_finders_body.hpp: `Brent` (for the zeroes and for the extrema), `DoubleBrent` and `GoldenSectionSearch`.  The arithmetic is exact.  The arguments are real numbers: for an affine space, that is
their difference with the origin `Argument{}`, on which the tolerances depend.
-/

namespace Principia.RootFinders

noncomputable section

/-- numerics/root_finders_body.hpp:78 and 357. -/
def brentε : ℝ := 1 / 2 ^ 53

/-- geometry/sign_body.hpp:18-21: the product of the sign of `m` and of `x`. -/
def signTimes (m x : ℝ) : ℝ := if negative m then -x else x

/-! ### Zeroes -/

/-- The local variables of numerics/root_finders_body.hpp:80-89. -/
structure BrentState where
  a : ℝ
  b : ℝ
  c : ℝ
  d : ℝ
  e : ℝ
  fa : ℝ
  fb : ℝ
  fc : ℝ

/-- numerics/root_finders_body.hpp:102-104: the beginning of the outer loop. -/
def BrentState.restart (s : BrentState) : BrentState := { s with c := s.a, fc := s.fa, d := s.b - s.a, e := s.b - s.a }

/-- numerics/root_finders_body.hpp:106-113. -/
def BrentState.order (s : BrentState) : BrentState :=
  if |s.fc| < |s.fb| then { s with a := s.b, b := s.c, c := s.b, fa := s.fb, fb := s.fc, fc := s.fb } else s

/-- numerics/root_finders_body.hpp:114. -/
def BrentState.δ (s : BrentState) : ℝ := 2 * brentε * |s.b|

/-- numerics/root_finders_body.hpp:115. -/
def BrentState.m (s : BrentState) : ℝ := 1 / 2 * (s.c - s.b)

/-- numerics/root_finders_body.hpp:123-137: `p` and `q`, as obtained by interpolation. -/
def BrentState.interpolation (s : BrentState) : ℝ × ℝ :=
  if s.a = s.c then
    let s' := s.fb / s.fa
    (2 * s.m * s', 1 - s')
  else
    let r1 := s.fa / s.fc
    let r2 := s.fb / s.fc
    let r3 := s.fb / s.fa
    (r3 * (2 * s.m * r1 * (r1 - r2) - (s.b - s.a) * (r2 - 1)), (r1 - 1) * (r2 - 1) * (r3 - 1))

/-- numerics/root_finders_body.hpp:138-142. -/
def adjustSigns (pq : ℝ × ℝ) : ℝ × ℝ := if negative pq.1 then (-pq.1, pq.2) else (pq.1, -pq.2)

/-- numerics/root_finders_body.hpp:119-149: the new values of `d` and `e`. -/
def BrentState.displacements (s : BrentState) : ℝ × ℝ :=
  if |s.e| < s.δ ∨ |s.fa| ≤ |s.fb| then (s.m, s.m)
  else
    let pq := adjustSigns s.interpolation
    if 2 * pq.1 < 3 * s.m * pq.2 - |s.δ * pq.2| ∧ pq.1 < |1 / 2 * s.e * pq.2| then (pq.1 / pq.2, s.d) else (s.m, s.m)

/-- numerics/root_finders_body.hpp:119-154: from the test for a bisection to the end of the inner loop, and to the beginning of the outer one if it is reached. -/
def BrentState.next (f : ℝ → ℝ) (s : BrentState) : BrentState :=
  let de := s.displacements
  let b := s.b + if |de.1| > s.δ then de.1 else signTimes s.m s.δ
  let s' : BrentState := ⟨s.b, b, s.c, de.1, de.2, s.fb, f b, s.fc⟩
  if negative s'.fb ≠ negative s'.fc then s' else s'.restart

/-- numerics/root_finders_body.hpp:105-154, with `fuel` iterations. -/
def brentLoop (f : ℝ → ℝ) : ℕ → BrentState → Outcome ℝ
  | 0, _ => .outOfFuel
  | fuel + 1, s =>
    let s := s.order
    if |s.m| ≤ s.δ ∨ s.fb = 0 then .returned s.b else brentLoop f fuel (s.next f)

/-- numerics/root_finders_body.hpp:67-156 `Brent`. -/
def brent (f : ℝ → ℝ) (fuel : ℕ) (lowerBound upperBound : ℝ) : Outcome ℝ :=
  let fa := f lowerBound
  let fb := f upperBound
  if fa = 0 then .returned lowerBound
  else if fb = 0 then .returned upperBound
  else if negative fa = negative fb then .crashed
  else brentLoop f fuel (BrentState.restart ⟨lowerBound, upperBound, 0, 0, 0, fa, fb, 0⟩)

/-! ### Extrema -/

/-- quantities/numbers.hpp:5: the golden ratio. -/
def φ : ℝ := (1 + √5) / 2

/-- numerics/root_finders_body.hpp:363-365: the smallest strictly positive number. -/
def brentT : ℝ := 1 / 2 ^ 1074

/-- The local variables of numerics/root_finders_body.hpp:367-382. -/
structure MinState where
  a : ℝ
  b : ℝ
  d : ℝ
  e : ℝ
  v : ℝ
  w : ℝ
  x : ℝ
  fv : ℝ
  fw : ℝ
  fx : ℝ

/-- numerics/root_finders_body.hpp:384. -/
def MinState.m (s : MinState) : ℝ := (s.a + s.b) / 2

/-- numerics/root_finders_body.hpp:385. -/
def MinState.tol (eps : ℝ) (s : MinState) : ℝ := eps * |s.x| + brentT

/-- numerics/root_finders_body.hpp:391-405: `p` and `q`. -/
def MinState.parabola (eps : ℝ) (s : MinState) : ℝ × ℝ :=
  if |s.e| > s.tol eps then
    let r1 := (s.x - s.w) * (s.fx - s.fv)
    let r2 := (s.x - s.v) * (s.fx - s.fw)
    let p := (s.x - s.v) * r2 - (s.x - s.w) * r1
    let q := 2 * (r2 - r1)
    if negative q then (p, -q) else (-p, q)
  else (0, 0)

/-- numerics/root_finders_body.hpp:406-421: the new values of `d` and `e`. -/
def MinState.displacements (eps : ℝ) (s : MinState) : ℝ × ℝ :=
  let pq := s.parabola eps
  if |pq.1| < |1 / 2 * pq.2 * s.e| ∧ pq.1 > pq.2 * (s.a - s.x) ∧ pq.1 < pq.2 * (s.b - s.x) then
    let d := pq.1 / pq.2
    let u := s.x + d
    (if u - s.a < 2 * s.tol eps ∨ s.b - u < 2 * s.tol eps then (if s.x < s.m then s.tol eps else -s.tol eps) else d, s.d)
  else
    let e := (if s.x < s.m then s.b else s.a) - s.x
    ((2 - φ) * e, e)

/-- numerics/root_finders_body.hpp:424-454: the update of the variables, given the point `u`. -/
def MinState.update (f : ℝ → ℝ) (s : MinState) (d e u : ℝ) : MinState :=
  let fu := f u
  if fu ≤ s.fx then
    { a := if u < s.x then s.a else s.x, b := if u < s.x then s.x else s.b, d := d, e := e, v := s.w, fv := s.fw, w := s.x, fw := s.fx, x := u, fx := fu }
  else
    let s' : MinState := { s with a := if u < s.x then u else s.a, b := if u < s.x then s.b else u, d := d, e := e }
    if fu ≤ s.fw ∨ s.w = s.x then { s' with v := s.w, fv := s.fw, w := u, fw := fu }
    else if fu ≤ s.fv ∨ s.v = s.x ∨ s.v = s.w then { s' with v := u, fv := fu }
    else s'

/-- numerics/root_finders_body.hpp:391-454: the body of the loop, after the stopping criterion. -/
def MinState.next (f : ℝ → ℝ) (eps : ℝ) (s : MinState) : MinState :=
  let de := s.displacements eps
  s.update f de.1 de.2 (s.x + if |de.1| > s.tol eps then de.1 else signTimes de.1 (s.tol eps))

/-- numerics/root_finders_body.hpp:383-455, with `fuel` iterations. -/
def minimumLoop (f : ℝ → ℝ) (eps : ℝ) : ℕ → MinState → Outcome ℝ
  | 0, _ => .outOfFuel
  | fuel + 1, s => if |s.x - s.m| ≤ 2 * s.tol eps - 1 / 2 * (s.b - s.a) then .returned s.x else minimumLoop f eps fuel (s.next f eps)

/-- numerics/root_finders_body.hpp:326-456 `Brent`, with `std::less<>`. -/
def brentMinimum (f : ℝ → ℝ) (fuel : ℕ) (lowerBound upperBound eps : ℝ) : Outcome ℝ :=
  let x := lowerBound + (2 - φ) * (upperBound - lowerBound)
  minimumLoop f (max eps (2 * brentε)) fuel ⟨lowerBound, upperBound, 0, 0, x, x, x, f x, f x, f x⟩

/-- numerics/root_finders_body.hpp:326-456 `Brent`, with `std::greater<>`. -/
def brentMaximum (f : ℝ → ℝ) (fuel : ℕ) (lowerBound upperBound eps : ℝ) : Outcome ℝ := brentMinimum (fun x => -f x) fuel lowerBound upperBound eps

/-! ### All the zeroes -/

/-- The result of calling `g` with what a call returns. -/
def Outcome.bind {A B : Type} (o : Outcome A) (g : A → Outcome B) : Outcome B :=
  match o with
  | .returned a => g a
  | .crashed => .crashed
  | .outOfFuel => .outOfFuel

/-- numerics/root_finders.hpp:83: the default value of `eps`. -/
def brentEps : ℝ := √brentε

/-- numerics/root_finders_body.hpp:158-268 `DoubleBrent`, with at most `fuel` nested calls.  The sets are the sets of their elements. -/
def doubleBrent (f : ℝ → ℝ) (eps : ℝ) : ℕ → ℝ → ℝ → Outcome (Finset ℝ)
  | 0, _, _ => .outOfFuel
  | fuel + 1, a, b =>
    let tolerance := eps * max |a| |b|
    let inside (x : ℝ) : Prop := x ≥ a + tolerance ∧ x ≤ b - tolerance
    let around (x : ℝ) : Outcome (Finset ℝ) := (doubleBrent f eps fuel x b).bind fun above => (doubleBrent f eps fuel a x).bind fun below => .returned (above ∪ below)
    let zeroAtBound (zeroes : Finset ℝ) : Outcome (Finset ℝ) :=
      (brentMinimum f fuel a b brentEps).bind fun minimum =>
        open Classical in
        if inside minimum then (around minimum).bind fun z => .returned (zeroes ∪ z)
        else (brentMaximum f fuel a b brentEps).bind fun maximum => if inside maximum then (around maximum).bind fun z => .returned (zeroes ∪ z) else .returned zeroes
    open Classical in
    if f a = 0 ∨ f b = 0 then zeroAtBound ((if f a = 0 then {a} else ∅) ∪ (if f b = 0 then {b} else ∅))
    else if negative (f a) = negative (f b) then
      (if negative (f a) then brentMaximum f fuel a b brentEps else brentMinimum f fuel a b brentEps).bind fun extremum => if inside extremum then around extremum else .returned ∅
    else (brent f fuel a b).bind fun c => if a = c ∨ b = c then zeroAtBound {c} else around c

/-! ### The golden section search -/

/-- The local variables of numerics/root_finders_body.hpp:279-293. -/
structure GoldenState where
  lower : ℝ
  lowerInterior : ℝ
  upperInterior : ℝ
  upper : ℝ

/-- numerics/root_finders_body.hpp:295-322: an iteration of the loop, with `std::less<>`.  The values of the function are not computed again in the code. -/
def GoldenState.next (f : ℝ → ℝ) (s : GoldenState) : GoldenState :=
  if min (f s.lower) (f s.lowerInterior) < min (f s.upperInterior) (f s.upper) then
    { lower := s.lower, upper := s.upperInterior, upperInterior := s.lowerInterior, lowerInterior := s.lowerInterior - (s.lowerInterior - s.lower) * (2 - φ) }
  else
    { lower := s.lowerInterior, upper := s.upper, lowerInterior := s.upperInterior, upperInterior := s.upperInterior + (s.upper - s.upperInterior) * (2 - φ) }

/-- numerics/root_finders_body.hpp:270-324 `GoldenSectionSearch`, with `std::less<>`.  The condition of the loop remains true in exact arithmetic, it ends because of the rounding; here it ends after the
given number of iterations. -/
def goldenSectionSearch (f : ℝ → ℝ) (iterations : ℕ) (lowerBound upperBound : ℝ) : ℝ :=
  let s := (GoldenState.next f)^[iterations]
    ⟨lowerBound, (lowerBound * (φ - 1) + upperBound * (2 - φ)) / (φ - 1 + (2 - φ)), (lowerBound * (2 - φ) + upperBound * (φ - 1)) / (2 - φ + (φ - 1)), upperBound⟩
  (s.lower + s.upper) / 2

end

end Principia.RootFinders
