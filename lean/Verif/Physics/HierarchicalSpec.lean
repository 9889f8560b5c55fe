import Verif.Physics.HierarchicalModel
import Verif.Geometry.BarycentreProps

/-!
The specification of Jacobi coordinates and of hierarchical systems.
-/

set_option linter.unusedVariables false

namespace Principia.Physics.Hierarchical

open Principia.Geometry.Barycentre

variable {K V E B : Type} [Field K] [AddCommGroup V] [Module K V]

/-- Jacobi coordinates: `relative` lists the gravitational parameters of the bodies after the first one and their displacements from the barycentre of
the bodies that precede them; `bodies` lists the positions of all the bodies and their gravitational parameters. -/
inductive Chain : (relative : List (K × V)) → (bodies : List (V × K)) → Prop
  | primary (x : V) (μ : K) : Chain [] [(x, μ)]
  | add (relative : List (K × V)) (bodies : List (V × K)) (b : V) (μ : K) (d : V) : Chain relative bodies → Balanced (V := V) bodies b →
      Chain (relative ++ [(μ, d)]) (bodies ++ [(b + d, μ)])

/-- The bodies of a system: the primary, then the bodies of each of the satellites. -/
def System.bodies : System E B → List B
  | ⟨_, p, s⟩ => p :: s.flatMap fun s => s.bodies

/-- The satellites are in the order of increasing semimajor axes, or of decreasing mean motions, or of increasing periods. -/
def Size.le [LE K] : Size K → Size K → Prop
  | .semimajorAxis a, .semimajorAxis a' => a ≤ a'
  | .meanMotion n, .meanMotion n' => n' ≤ n
  | .period T, .period T' => T ≤ T'
  | _, _ => False

mutual

/-- Systems that are the same except for the order of the satellites, which are sorted in the second one. -/
inductive Sorted [LE K] (size : E → Size K) : System E B → System E B → Prop
  | mk (e : E) (p : B) (s t u : List (System E B)) : SortedAll size s t → t.Perm u →
      u.Pairwise (fun x y => (size x.elements).le (size y.elements)) → Sorted size ⟨e, p, s⟩ ⟨e, p, u⟩

/-- Lists of such systems. -/
inductive SortedAll [LE K] (size : E → Size K) : List (System E B) → List (System E B) → Prop
  | nil : SortedAll size [] []
  | cons (s t : System E B) (l m : List (System E B)) : Sorted size s t → SortedAll size l m → SortedAll size (s :: l) (t :: m)

end

/-- The gravitational parameter of a list of bodies. -/
def mass (μ : B → K) (l : List (B × V)) : K := (l.map fun x => μ x.1).sum

/-- `c` is the barycentre of a list of bodies, given with their positions. -/
def IsBarycentre (μ : B → K) (l : List (B × V)) (c : V) : Prop := Balanced (V := V) (l.map fun x => (x.2, μ x.1)) c

/-- The bodies are where the elements say: the displacement of the barycentre of each satellite from the barycentre of its primary and of the preceding
satellites is that of a Kepler orbit with the elements of the satellite, for the gravitational parameters of these bodies. -/
inductive Arranged (μ : B → K) (kepler : K → K → E → Option V) : System E B → List (B × V) → Prop
  | primary (e : E) (p : B) (x : V) : Arranged μ kepler ⟨e, p, []⟩ [(p, x)]
  | satellite (e : E) (p : B) (inner : List (System E B)) (s : System E B) (l l' : List (B × V)) (c c' : V) :
      Arranged μ kepler ⟨e, p, inner⟩ l → Arranged μ kepler s l' → IsBarycentre μ l c → IsBarycentre μ l' c' →
      kepler (mass μ l) (mass μ l') s.elements = some (c' - c) → Arranged μ kepler ⟨e, p, inner ++ [s]⟩ (l ++ l')

/-- The requirements of `std::sort`: the comparison is a strict weak order. -/
structure StrictWeakOrder {α : Type} (less : α → α → Bool) (l : List α) : Prop where
  irrefl : ∀ x ∈ l, ¬less x x
  trans : ∀ x ∈ l, ∀ y ∈ l, ∀ z ∈ l, less x y → less y z → less x z
  negTrans : ∀ x ∈ l, ∀ y ∈ l, ∀ z ∈ l, less x z → less x y ∨ less y z

/-- The result of `std::sort`. -/
def Sorts (sort : Sorter) : Prop :=
  ∀ (α : Type) (less : α → α → Bool) (l : List α), StrictWeakOrder less l → (sort α less l).Perm l ∧ (sort α less l).Pairwise fun x y => ¬less y x

mutual

/-- Systems that are the same except for the order of the satellites. -/
inductive Same : System E B → System E B → Prop
  | mk (e : E) (p : B) (s t u : List (System E B)) : SameAll s t → t.Perm u → Same ⟨e, p, s⟩ ⟨e, p, u⟩

/-- Lists of such systems. -/
inductive SameAll : List (System E B) → List (System E B) → Prop
  | nil : SameAll [] []
  | cons (s t : System E B) (l m : List (System E B)) : Same s t → SameAll l m → SameAll (s :: l) (t :: m)

end

/-- A property of the siblings, for all the lists of siblings. -/
inductive Siblings (p : List (System E B) → Prop) : System E B → Prop
  | mk (e : E) (b : B) (s : List (System E B)) : p s → (∀ t ∈ s, Siblings p t) → Siblings p ⟨e, b, s⟩

end Principia.Physics.Hierarchical
