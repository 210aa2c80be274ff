import Verif.RStar.Box
import Verif.Common

/-!
# Model of `lib/RStarTree/RStarTree.h`

(`multiscale/RStarTree/RStarTree.h` only differs by holding the root in an `auto_ptr`.)

A node holds either leaves (`hasLeaves`) or nodes. Pointers are not represented: nodes are never
shared. What the heuristics decide (`ChooseSubtree`, the split distribution, the order of
reinsertion) is a parameter `Heur`; `Verif/RStar/Heur.lean` models the heuristics of the code and
shows that they satisfy the hypotheses made on the parameter.
-/

namespace Colloids

/-- `RStarLeaf` lib/RStarTree/RStarTree.h:56-60. -/
structure Leaf (d : Nat) (G α : Type) where
  bound : Box d G
  val : α

/-- `RStarNode` lib/RStarTree/RStarTree.h:63-79: `hasLeaves` distinguishes the constructors. -/
inductive RNode (d : Nat) (G α : Type) where
  | leaves (bound : Box d G) (items : List (Leaf d G α))
  | inner (bound : Box d G) (items : List (RNode d G α))

/-- Template parameters and constants: `m = min_child_items`, `M = max_child_items`
(lib/RStarTree/RStarTree.h:95-99), limits of the edge type used by `reset()`. -/
structure RParams (G : Type) where
  m : Nat
  M : Nat
  mx : G
  mn : G

/-- The decisions taken by the heuristics.
* `choose b hl bounds`: the index of the child picked by `ChooseSubtree` for a leaf bounded by `b`
  among children bounded by `bounds`, `hl` telling if these have leaves (lines 347-392);
* `split f l`: the order of the items and the split index chosen by `Split` (lines 491-594);
* `order f b l`: the order given by `partial_sort` in `Reinsert` (lines 627-628). -/
structure Heur (d : Nat) (G : Type) where
  choose : Box d G → Bool → List (Box d G) → Nat
  split : {β : Type} → (β → Box d G) → List β → List β × Nat
  order : {β : Type} → (β → Box d G) → Box d G → List β → List β

namespace RNode
variable {d : Nat} {G α : Type}

/-- `node->bound`. -/
def bound : RNode d G α → Box d G
  | .leaves b _ => b
  | .inner b _ => b

/-- `node->hasLeaves`. -/
def hasLeaves : RNode d G α → Bool
  | .leaves _ _ => true
  | .inner _ _ => false

variable [LT G] [DecidableLT G]

/-- `p` in `Reinsert` lib/RStarTree/RStarTree.h:618: `(size_t)((double)n * 0.30)`, at least 1. -/
def reinsertCount (n : Nat) : Nat := if n * 3 / 10 > 0 then n * 3 / 10 else 1

/-- `Split` lib/RStarTree/RStarTree.h:491-609 on a list of items: the two groups. -/
def splitItems (H : Heur d G) {β : Type} (f : β → Box d G) (items : List β) : List β × List β :=
  let s := H.split f items
  (s.1.take s.2, s.1.drop s.2)

/-- `Split` of a node with leaves, the bounds being recomputed (602-606). -/
def splitLeaves (P : RParams G) (H : Heur d G) (items : List (Leaf d G α)) :
    RNode d G α × RNode d G α :=
  let s := splitItems H Leaf.bound items
  (.leaves (Box.hull P.mx P.mn Leaf.bound s.1) s.1, .leaves (Box.hull P.mx P.mn Leaf.bound s.2) s.2)

/-- `Split` of a node without leaves. -/
def splitInner (P : RParams G) (H : Heur d G) (items : List (RNode d G α)) :
    RNode d G α × RNode d G α :=
  let s := splitItems H RNode.bound items
  (.inner (Box.hull P.mx P.mn RNode.bound s.1) s.1, .inner (Box.hull P.mx P.mn RNode.bound s.2) s.2)

/-- New root of `OverflowTreatment` lib/RStarTree/RStarTree.h:463-479. -/
def newRoot (P : RParams G) (a b : RNode d G α) : RNode d G α :=
  .inner (Box.hull P.mx P.mn RNode.bound [a, b]) [a, b]

/-- Result of inserting a leaf below a node: the node, a node to be added to the level above if there
was a split, and the leaves to be reinserted from the root. `Reinsert` is always the last thing done
during an insertion (every caller returns NULL at once when it returns), so performing the
reinsertions after the recursion is the same as performing them inside `Reinsert`. -/
structure InsResult (d : Nat) (G α : Type) where
  node : RNode d G α
  sibling : Option (RNode d G α)
  reinsert : List (Leaf d G α)

/-- `OverflowTreatment` lib/RStarTree/RStarTree.h:448-484 (and `Reinsert` 613-643 up to the loop at
641) for a node with leaves. -/
def overflowLeaves (P : RParams G) (H : Heur d G) (first isRoot : Bool) (b : Box d G)
    (items : List (Leaf d G α)) : InsResult d G α :=
  if !isRoot && first then
    let n := items.length
    let l := H.order Leaf.bound b items
    let k := n - reinsertCount n
    ⟨.leaves (Box.hull P.mx P.mn Leaf.bound (l.take k)) (l.take k), none, l.drop k⟩
  else
    let s := splitLeaves P H items
    if isRoot then ⟨newRoot P s.1 s.2, none, []⟩ else ⟨s.1, some s.2, []⟩

/-- `OverflowTreatment` for a node without leaves. Reinserting nodes as if they were leaves
(`static_cast<Leaf*>` line 642) would be undefined behaviour. -/
def overflowInner (P : RParams G) (H : Heur d G) (first isRoot : Bool)
    (items : List (RNode d G α)) : R (InsResult d G α) :=
  if !isRoot && first then .error .ub
  else
    let s := splitInner P H items
    if isRoot then .ok ⟨newRoot P s.1 s.2, none, []⟩ else .ok ⟨s.1, some s.2, []⟩

/-- Children are not empty and the first one has leaves: `static_cast<Node*>(node->items[0])->hasLeaves`
lib/RStarTree/RStarTree.h:350. -/
def firstHasLeaves (items : List (RNode d G α)) : R Bool := do
  return (← getR items 0).hasLeaves

mutual
/-- `InsertInternal` lib/RStarTree/RStarTree.h:398-444. -/
def ins (P : RParams G) (H : Heur d G) (first isRoot : Bool) (lf : Leaf d G α) :
    RNode d G α → R (InsResult d G α)
  | .leaves b items =>
    let b' := b.stretch lf.bound
    let items' := items ++ [lf]
    if items'.length > P.M then .ok (overflowLeaves P H first isRoot b' items')
    else .ok ⟨.leaves b' items', none, []⟩
  | .inner b items => do
    let b' := b.stretch lf.bound
    let hl ← firstHasLeaves items
    let (items', sib, re) ← insAt P H first lf (H.choose lf.bound hl (items.map bound)) items
    match sib with
    | none => return ⟨.inner b' items', none, re⟩
    | some s =>
      let items'' := items' ++ [s]
      if items''.length > P.M then overflowInner P H first isRoot items''
      else return ⟨.inner b' items'', none, re⟩

/-- Recursive call of `InsertInternal` (line 422) on the child of index `i`. -/
def insAt (P : RParams G) (H : Heur d G) (first : Bool) (lf : Leaf d G α) :
    Nat → List (RNode d G α) → R (List (RNode d G α) × Option (RNode d G α) × List (Leaf d G α))
  | _, [] => .error .ub
  | 0, c :: cs => do
    let r ← ins P H first false lf c
    return (r.node :: cs, r.sibling, r.reinsert)
  | i + 1, c :: cs => do
    let (cs', sib, re) ← insAt P H first lf i cs
    return (c :: cs', sib, re)
end

/-- `InsertInternal(leaf, m_root, first)`: the new root. A sibling returned for the root would be lost
(leaked). -/
def insRoot (P : RParams G) (H : Heur d G) (first : Bool) (root : RNode d G α) (lf : Leaf d G α) :
    R (RNode d G α × List (Leaf d G α)) := do
  let r ← ins P H first true lf root
  return (r.node, r.reinsert)

/-- `InsertInternal(leaf, m_root)` with the reinsertions of `Reinsert` (line 641-642), which are done
with `firstInsert = false` and cannot trigger new ones. -/
def insertLeaf (P : RParams G) (H : Heur d G) (root : RNode d G α) (lf : Leaf d G α) :
    R (RNode d G α) := do
  let (root1, re) ← insRoot P H true root lf
  re.foldlM (fun r l => do return (← insRoot P H false r l).1) root1

mutual
/-- `QueryFunctor::operator()` lib/RStarTree/RStarTree.h:677-688 and `VisitFunctor` (652-667), with a
visitor that gathers the leaves and never stops (`Gatherer` lib/index.hpp:140-150). -/
def query (accN : Box d G → Bool) (accL : Leaf d G α → Bool) : RNode d G α → List (Leaf d G α)
  | .leaves b items => if accN b then items.filter accL else []
  | .inner b items => if accN b then queryList accN accL items else []

/-- `for_each(items, *this)`. -/
def queryList (accN : Box d G → Bool) (accL : Leaf d G α → Bool) :
    List (RNode d G α) → List (Leaf d G α)
  | [] => []
  | c :: cs => query accN accL c ++ queryList accN accL cs
end

mutual
/-- `QueueItemsToReinsert` lib/RStarTree/RStarTree.h:824-839: all the leaves below, in order. -/
def allLeaves : RNode d G α → List (Leaf d G α)
  | .leaves _ items => items
  | .inner _ items => allLeavesList items

/-- Loop of `QueueItemsToReinsert`. -/
def allLeavesList : List (RNode d G α) → List (Leaf d G α)
  | [] => []
  | c :: cs => allLeaves c ++ allLeavesList cs
end

mutual
/-- `RemoveFunctor::operator()` lib/RStarTree/RStarTree.h:779-819. Returns the node if it is kept, the
leaves queued for reinsertion and the number of leaves deleted. `accL` tells if
`accept(leaf) && remove(leaf)`. -/
def rem (P : RParams G) (accN : Box d G → Bool) (accL : Leaf d G α → Bool) (isRoot : Bool) :
    RNode d G α → Option (RNode d G α) × List (Leaf d G α) × Nat
  | .leaves b items =>
    if accN b then
      let kept := items.filter (fun l => !accL l)
      let cnt := items.length - kept.length
      if !isRoot then
        if kept.isEmpty then (none, [], cnt)
        else if kept.length < P.m then (none, kept, cnt)
        else (some (.leaves b kept), [], cnt)
      else if kept.isEmpty then (some (.leaves (Box.reset d P.mx P.mn) []), [], cnt)
      else (some (.leaves b kept), [], cnt)
    else (some (.leaves b items), [], 0)
  | .inner b items =>
    if accN b then
      let (kept, re, cnt) := remList P accN accL items
      if !isRoot then
        if kept.isEmpty then (none, re, cnt)
        else if kept.length < P.m then (none, re ++ allLeavesList kept, cnt)
        else (some (.inner b kept), re, cnt)
      else if kept.isEmpty then (some (.leaves (Box.reset d P.mx P.mn) []), re, cnt)
      else (some (.inner b kept), re, cnt)
    else (some (.inner b items), [], 0)

/-- `remove_if(items, *this)` line 791. -/
def remList (P : RParams G) (accN : Box d G → Bool) (accL : Leaf d G α → Bool) :
    List (RNode d G α) → List (RNode d G α) × List (Leaf d G α) × Nat
  | [] => ([], [], 0)
  | c :: cs =>
    let (c', re, n) := rem P accN accL false c
    let (cs', re', n') := remList P accN accL cs
    (c'.toList ++ cs', re ++ re', n + n')
end

mutual
/-- `ModifFunctor` lib/RStarTree/RStarTree.h:707-724 applying `TranslateBoundingBox`
(RStarBoundingBox.h:353-366) to every node and leaf. -/
def translate [Add G] (v : Fin d → G) : RNode d G α → RNode d G α
  | .leaves b items => .leaves (b.translate v) (items.map fun l => { l with bound := l.bound.translate v })
  | .inner b items => .inner (b.translate v) (translateList v items)

/-- `for_each(items, *this)`. -/
def translateList [Add G] (v : Fin d → G) : List (RNode d G α) → List (RNode d G α)
  | [] => []
  | c :: cs => translate v c :: translateList v cs
end

end RNode

/-- `RStarTree`: `m_root` (NULL = `none`) and `m_size`, lib/RStarTree/RStarTree.h:843-847. -/
structure RTree (d : Nat) (G α : Type) where
  root : Option (RNode d G α)
  size : Nat

namespace RTree
variable {d : Nat} {G α : Type} [LT G] [DecidableLT G]

/-- Default constructor, line 122. -/
def empty : RTree d G α := ⟨none, 0⟩

/-- `Insert` lib/RStarTree/RStarTree.h:153-178. -/
def insert (P : RParams G) (H : Heur d G) (t : RTree d G α) (val : α) (b : Box d G) :
    R (RTree d G α) :=
  match t.root with
  | none => .ok ⟨some (.leaves b [⟨b, val⟩]), t.size + 1⟩
  | some r => do return ⟨some (← RNode.insertLeaf P H r ⟨b, val⟩), t.size + 1⟩

/-- `Query` lib/RStarTree/RStarTree.h:244-265. -/
def query (t : RTree d G α) (accN : Box d G → Bool) (accL : Leaf d G α → Bool) : List (Leaf d G α) :=
  match t.root with
  | none => []
  | some r => r.query accN accL

/-- `Remove` lib/RStarTree/RStarTree.h:285-305 with an acceptor that refuses a NULL node
(`AcceptOverlapping`, `AcceptEnclosing`, `AcceptAny`). `accL` tells if the leaf is accepted and
removed. -/
def remove (P : RParams G) (H : Heur d G) (t : RTree d G α) (accN : Box d G → Bool)
    (accL : Leaf d G α → Bool) : R (RTree d G α) :=
  match t.root with
  | none => .ok t
  | some r =>
    match r.rem P accN accL true with
    | (none, _, _) => .error .ub
    | (some r', re, cnt) => do
      let r'' ← re.foldlM (RNode.insertLeaf P H) r'
      return ⟨some r'', t.size - cnt⟩

/-- `operator+=` lib/RStarTree/RStarTree.h:335-339. -/
def translate [Add G] (t : RTree d G α) (v : Fin d → G) : RTree d G α :=
  { t with root := t.root.map (RNode.translate v) }

/-- `getOverallBox` lib/RStarTree/RStarTree.h:143-150. -/
def getOverallBox (t : RTree d G α) : R (Box d G) :=
  match t.root with
  | none => .error .outOfRange
  | some r => .ok r.bound

/-- Node and leaf tests of `RStarAcceptOverlapping` lib/RStarTree/RStarVisitor.h:55-71. -/
def queryOverlapping (t : RTree d G α) (q : Box d G) : List (Leaf d G α) :=
  t.query q.overlaps (fun l => q.overlaps l.bound)

/-- Node and leaf tests of `RStarAcceptEnclosing` lib/RStarTree/RStarVisitor.h:76-92: the leaves
enclosed by `q`. -/
def queryEnclosing (t : RTree d G α) (q : Box d G) : List (Leaf d G α) :=
  t.query q.overlaps (fun l => q.encloses l.bound)

/-- Node and leaf tests of `RStarAcceptEnclosed` lib/RStarTree/RStarVisitor.h:96-112: the leaves that
enclose `q`. -/
def queryEnclosed (t : RTree d G α) (q : Box d G) : List (Leaf d G α) :=
  t.query q.overlaps (fun l => l.bound.encloses q)

/-- `RemoveBoundedArea` lib/RStarTree/RStarTree.h:308-311. -/
def removeBoundedArea (P : RParams G) (H : Heur d G) (t : RTree d G α) (q : Box d G) :
    R (RTree d G α) :=
  t.remove P H q.overlaps (fun l => q.encloses l.bound)

end RTree
end Colloids
