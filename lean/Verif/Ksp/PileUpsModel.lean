import Verif.Base.DisjointSetsModel

/-!
# Model of `ksp_plugin/part_subsets.cpp`: how parts are arranged into pile-ups

Parts are elements of a type `α`.  Pile-ups have an identity, a natural number (the address of the object; identities are
never reused by the model, whereas addresses may be reused once the object is destroyed, at which point nothing refers to
it any more).  The dynamics of the pile-ups (masses, motions) are not modelled.
-/

namespace Principia.PileUps

open Principia.DisjointSets

variable {α : Type} [DecidableEq α]

/-- The objects other than the subsets: for each part, its `containing_pile_up_` (ksp_plugin/part.hpp:209, a
`std::shared_ptr`), for each pile-up its list of parts and the use count of the shared pointers to it, the list
`Plugin::pile_ups_`, and the next identity. -/
structure World (α : Type) where
  containing : α → Option Nat
  parts : Nat → List α
  refs : Nat → Nat
  pileUps : List Nat
  next : Nat

/-- ksp_plugin/part_subsets.hpp:89-97: the fields of `Subset<Part>::Properties`. -/
structure Properties (α : Type) where
  collected : Bool
  missing : Int
  parts : List α
  grounded : Bool

/-- Releasing one shared pointer to `P`: when the last one goes, the destructor (ksp_plugin/pile_up.cpp:86-91) calls the
deletion callback, which erases the pile-up from `pile_ups` (ksp_plugin/part_subsets.cpp:84-86). -/
def release (w : World α) (P : Nat) : World α :=
  let n := w.refs P - 1
  { w with refs := upd w.refs P n, pileUps := if n = 0 then w.pileUps.erase P else w.pileUps }

/-- ksp_plugin/part.cpp:227-232 `reset_containing_pile_up`. -/
def reset (w : World α) (p : α) : World α :=
  match w.containing p with
  | none => w
  | some P => release { w with containing := upd w.containing p none } P

/-- ksp_plugin/part.cpp:211-217 `set_containing_pile_up`; `none` is a failed `CHECK`. -/
def setContaining (P : Nat) (w : World α) (p : α) : Option (World α) :=
  if (w.containing p).isSome then none
  else some { w with containing := upd w.containing p (some P), refs := upd w.refs P (w.refs P + 1) }

/-- ksp_plugin/part_subsets.cpp:25-30: the constructor.  `missing_` is left uninitialized if the part is not piled up:
`junk` is its value in that case. -/
def mk (junk : α → Int) (part : α) (w : World α) : Properties α :=
  { collected := false
    missing := match w.containing part with
      | some P => ((w.parts P).length : Int) - 1
      | none => junk part
    parts := [part]
    grounded := false }

/-- `parts_.front()->containing_pile_up()`; `none` if the list is empty (undefined behaviour). -/
def frontPileUp (p : Properties α) (w : World α) : Option (Option Nat) := p.parts.head?.map w.containing

/-- ksp_plugin/part_subsets.cpp:32-49 `MergeWith`, with `SubsetsOfSamePileUp` (103-109) and `SubsetOfExistingPileUp`
(115-117) inlined.  The comparison on line 35, done in C++ modulo 2^64, is done on `Int`. -/
def merge : Merge (Properties α) (World α) := fun this other w => do
  let left ← frontPileUp this w
  let right ← frontPileUp other w
  if left.isSome ∧ left = right then
    if this.missing - other.parts.length = other.missing - this.parts.length then
      let missing := this.missing - other.parts.length
      if 0 ≤ missing then
        return ({ this with missing := missing, parts := this.parts ++ other.parts,
                            grounded := this.grounded || other.grounded },
                { other with parts := [] }, w)
      else none
    else none
  else
    let w := this.parts.foldl reset w
    let w := other.parts.foldl reset w
    return ({ this with parts := this.parts ++ other.parts, grounded := this.grounded || other.grounded },
            { other with parts := [] }, w)

/-- ksp_plugin/part_subsets.cpp:59-101 `Collect`, with `EqualsExistingPileUp` (111-113) and `StrictSubsetOfExistingPileUp`
(119-122) inlined.  `RecomputeFromParts` does not affect the arrangement.  The local `pile_up` holds one reference until
the end of the function. -/
def collect (p : Properties α) (w : World α) : Option (Properties α × World α) := do
  if p.collected then return (p, w)
  let front ← frontPileUp p w
  if front.isSome ∧ p.missing = 0 then return ({ p with collected := true }, w)
  let w := if front.isSome ∧ p.missing > 0 then p.parts.foldl reset w else w
  if p.parts.isEmpty then none
  let id := w.next
  let w := { w with pileUps := id :: w.pileUps, next := id + 1, parts := upd w.parts id p.parts,
                    refs := upd w.refs id 1 }
  let w ← p.parts.foldlM (setContaining id) w
  let w := release w id
  return ({ p with collected := true, parts := [] }, w)

/-- What the plugin does to subsets and parts between `PrepareToReportCollisions` and the collection:
collisions and binding of vessels (ksp_plugin/plugin.cpp:589, 628), ground collisions (575), queries (644), and
destruction of parts (ksp_plugin/vessel.cpp:175, ksp_plugin/plugin.cpp:612, 655). -/
inductive Op (α : Type)
  | unite (rightFirst : Bool) (a b : α)
  | ground (a : α)
  | find (a : α)
  | free (a : α)

abbrev PState (α : Type) := State α (Properties α) (World α)

def step (fuel : Nat) (s : PState α) : Op α → Option (PState α)
  | .unite rf a b => uniteElements merge fuel rf s a b
  | .ground a => do
    let (s, r) ← find fuel s a
    return { s with props := upd s.props r { s.props r with grounded := true } }
  | .find a => (find fuel s a).map (·.1)
  | .free a => some { s with world := reset s.world a }

/-- ksp_plugin/plugin.cpp:664-671: collection of the subset of a part. -/
def collectPart (fuel : Nat) (s : PState α) (a : α) : Option (PState α) := do
  let (s, r) ← find fuel s a
  let (p, w) ← collect (s.props r) s.world
  return { s with props := upd s.props r p, world := w }

/-- The parameters of one frame: the contacts reported (`ReportGroundCollision`, `ReportPartCollision`), in order; the parts
which are not kept, in the order in which they are destroyed; the vessels which are kept, each with the list of its kept
parts. -/
structure Frame (α : Type) where
  contacts : List (Op α)
  removed : List α
  vessels : List (List α)

/-- ksp_plugin/plugin.cpp:626-631: binding of one vessel (`ForSomePart` gives the first part, ksp_plugin/vessel.cpp:225-228).
`rf` is the order of evaluation of the operands of `Unite`. -/
def bindOps (rf : Bool) : List α → List (Op α)
  | [] => []
  | p :: ps => (p :: ps).map (Op.unite rf p)

/-- ksp_plugin/plugin.cpp:643-645: whether a vessel is grounded; `none` is the failed `CHECK` of `ForSomePart`, when the
vessel has no parts. -/
def isGrounded (fuel : Nat) (s : PState α) : List α → Option (PState α × Bool)
  | [] => none
  | p :: _ => do
    let (s, r) ← find fuel s p
    return (s, (s.props r).grounded)

/-- ksp_plugin/plugin.cpp:642-648: the partition of the vessels into grounded and not grounded ones. -/
def partitionVessels (fuel : Nat) : PState α → List (List α) → Option (PState α × List (List α) × List (List α))
  | s, [] => some (s, [], [])
  | s, v :: vs => do
    let (s, g) ← isGrounded fuel s v
    let (s, gs, ks) ← partitionVessels fuel s vs
    return if g then (s, v :: gs, ks) else (s, gs, v :: ks)

/-- ksp_plugin/plugin.cpp:559-568 (`PrepareToReportCollisions`, on the list `all` of the parts), the contacts (570-590), and
592-679 (`FreeVesselsAndPartsAndCollectPileUps`): destruction of the vessels and parts that are not kept (599-621), binding
of the vessels (625-632), removal of the grounded vessels (634-657), collection of the first part of each vessel (661-672).
The vessels are visited in a fixed order instead of that of a `std::map`, which is not restricted here. -/
def frame (fuel : Nat) (rf : Bool) (junk : α → Int) (all : List α) (s : PState α) (f : Frame α) : Option (PState α) := do
  let s := all.foldl (makeSingleton (mk junk)) s
  let s ← f.contacts.foldlM (step fuel) s
  let s ← (f.removed.map Op.free).foldlM (step fuel) s
  let s ← (f.vessels.flatMap (bindOps rf)).foldlM (step fuel) s
  let (s, grounded, kept) ← partitionVessels fuel s f.vessels
  let s ← (grounded.flatten.map Op.free).foldlM (step fuel) s
  (kept.filterMap List.head?).foldlM (collectPart fuel) s

end Principia.PileUps
