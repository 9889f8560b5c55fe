/-!
# Model of `base/disjoint_sets_body.hpp`

The nodes are identified with the elements that own them (type `α`), so that `Node::Get` is the identity.  The fields of
the nodes are functions from `α`.  The class `Properties` is a parameter: a type `P`, and a function `merge` which models
`MergeWith`: it takes the properties on which it is called, those given as parameter, and the rest of the world (type
`G`), on which it may have side effects, and returns their new values, or `none` if a `CHECK` fails.
-/

namespace Principia.DisjointSets

variable {α P G : Type} [DecidableEq α]

/-- Assignment to one field of one node. -/
def upd {β : Type} (f : α → β) (a : α) (v : β) : α → β := fun x => if x = a then v else f x

/-- base/disjoint_sets.hpp:64-68: the fields of all the nodes, and the world. -/
structure State (α P G : Type) where
  parent : α → α
  rank : α → Nat
  props : α → P
  world : G

/-- The type of models of `Properties::MergeWith`. -/
abbrev Merge (P G : Type) := P → P → G → Option (P × P × G)

/-- base/disjoint_sets_body.hpp:25-36 `MakeSingleton`; `mk` is the constructor of `Properties`. -/
def makeSingleton (mk : α → G → P) (s : State α P G) (a : α) : State α P G :=
  { s with parent := upd s.parent a a, rank := upd s.rank a 0, props := upd s.props a (mk a s.world) }

/-- base/disjoint_sets_body.hpp:68-75 `Node::Root`, with path compression.  The recursion of the C++ code is not obviously
terminating, so the model takes a bound on the depth of the stack and returns `none` if it is exceeded. -/
def root : Nat → (α → α) → α → Option ((α → α) × α)
  | 0, _, _ => none
  | fuel + 1, parent, x =>
    if parent x ≠ x then do
      let (parent', r) ← root fuel parent (parent x)
      return (upd parent' x r, r)
    else some (parent, x)

/-- base/disjoint_sets_body.hpp:60-63 `Find`. -/
def find (fuel : Nat) (s : State α P G) (a : α) : Option (State α P G × α) := do
  let (parent', r) ← root fuel s.parent a
  return ({ s with parent := parent' }, r)

/-- `into->properties_->MergeWith(*from->properties_)`. -/
def mergeProps (merge : Merge P G) (s : State α P G) (into source : α) : Option (State α P G) := do
  let (p, q, w) ← merge (s.props into) (s.props source) s.world
  return { s with props := upd (upd s.props source q) into p, world := w }

/-- base/disjoint_sets_body.hpp:38-58 `Unite`; the arguments are the nodes of the subsets. -/
def unite (merge : Merge P G) (s : State α P G) (left right : α) : Option (State α P G × α) :=
  if left = right then some (s, left)
  else if s.rank left < s.rank right then do
    let s ← mergeProps merge { s with parent := upd s.parent left right } right left
    return (s, right)
  else if s.rank right < s.rank left then do
    let s ← mergeProps merge { s with parent := upd s.parent right left } left right
    return (s, left)
  else do
    let s ← mergeProps merge
      { s with parent := upd s.parent right left, rank := upd s.rank left (s.rank left + 1) } left right
    return (s, left)

/-- ksp_plugin/plugin.cpp:589, 628: `Unite(Find(a), Find(b))`.  The order of evaluation of the arguments is unspecified
in C++, `rightFirst` tells which one the compiler chose. -/
def uniteElements (merge : Merge P G) (fuel : Nat) (rightFirst : Bool) (s : State α P G) (a b : α) :
    Option (State α P G) := do
  if rightFirst then
    let (s, r) ← find fuel s b
    let (s, l) ← find fuel s a
    let (s, _) ← unite merge s l r
    return s
  else
    let (s, l) ← find fuel s a
    let (s, r) ← find fuel s b
    let (s, _) ← unite merge s l r
    return s

end Principia.DisjointSets
