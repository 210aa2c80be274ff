import Verif.RStar.Spec
import Verif.Common

/-!
# Model of `lib/index.hpp` and `lib/index.cpp`

Spatial indices hold pairs of a number and a box in three dimensions. `SpatioTemporalIndex` has no
implementation in the library; its interface is modelled in `Verif/Index/STModel.lean`.
-/

namespace Colloids

/-- `std::list::unique`: removes all but the first of consecutive equal elements. -/
def listUnique : List Nat → List Nat
  | [] => []
  | [a] => [a]
  | a :: b :: l => if a = b then listUnique (b :: l) else a :: listUnique (b :: l)

/-- `g.sort(); g.unique();` on a list of numbers (lib/index.cpp:93-94, 114-115, 143-144). -/
def sortUnique (l : List Nat) : List Nat := listUnique (l.mergeSort (fun a b => decide (a ≤ b)))

/-- The box of `SpatialIndex::getInside` lib/index.cpp:26-35: every axis (but the last if `noZ`) wider
than `2*margin` is shrunk by `margin` on both sides. -/
def insideBox {G : Type} [Add G] [Sub G] [Mul G] [OfNat G 2] [LT G] [DecidableLT G] (B : Box 3 G)
    (margin : G) (noZ : Bool) : Box 3 G :=
  ⟨fun a => if a.val < 3 - noZ.toNat ∧ B.hi a - B.lo a > 2 * margin then B.lo a + margin else B.lo a,
   fun a => if a.val < 3 - noZ.toNat ∧ B.hi a - B.lo a > 2 * margin then B.hi a - margin else B.hi a⟩

/-- `RStarIndex_S` lib/index.hpp:132-156. -/
abbrev RStarIndex (G : Type) := RTree 3 G Nat

namespace RStarIndex
variable {G : Type} [LT G] [DecidableLT G]

/-- `INDEX_CONSTRUCTOR(RStarIndex_S, BoundingBox)` lib/index.hpp:38-44, 151: box `i` is inserted with
the number `i`. -/
def ofBoxes (P : RParams G) (H : Heur 3 G) (boxes : List (Box 3 G)) : R (RStarIndex G) :=
  RTree.ofList P H (boxes.zipIdx.map fun b => ⟨b.1, b.2⟩)

/-- `RStarIndex_S::operator()(BoundingBox)` lib/index.cpp:111-117. -/
def select (t : RStarIndex G) (q : Box 3 G) : List Nat :=
  sortUnique ((t.queryEnclosing q).map Leaf.val)

/-- `SpatialIndex::getInside` lib/index.cpp:26-37. -/
def getInside [Add G] [Sub G] [Mul G] [OfNat G 2] (t : RStarIndex G) (margin : G) (noZ : Bool) :
    R (List Nat) := do
  let B ← t.getOverallBox
  return select t (insideBox B margin noZ)

end RStarIndex

/-- A raw pointer member: not initialised, null, or owning an object. -/
inductive Ptr (α : Type) where
  | uninit
  | null
  | obj (a : α)

/-- `BruteSpatialIndex` lib/index.hpp:119-130. The multimap is a list sorted by number, equal numbers in
order of insertion. -/
structure BruteIndex (G : Type) where
  overallBox : Ptr (Box 3 G)
  items : List (Nat × Box 3 G)

namespace BruteIndex
variable {G : Type} [LT G] [DecidableLT G]

/-- State in which the constructor (lib/index.hpp:38-44, 125) starts inserting: no member initialiser
for `overallBox`. -/
def fresh : BruteIndex G := ⟨.uninit, []⟩

/-- `multimap::insert`: after the elements with the same key. -/
def mmInsertBox (i : Nat) (b : Box 3 G) : List (Nat × Box 3 G) → List (Nat × Box 3 G)
  | [] => [(i, b)]
  | x :: l => if i < x.1 then (i, b) :: x :: l else x :: mmInsertBox i b l

/-- `BruteSpatialIndex::insert` lib/index.cpp:75-82. Reading the uninitialised pointer is undefined. -/
def insert (s : BruteIndex G) (i : Nat) (b : Box 3 G) : R (BruteIndex G) :=
  match s.overallBox with
  | .uninit => .error .ub
  | .null => .ok ⟨.obj b, mmInsertBox i b s.items⟩
  | .obj B => .ok ⟨.obj (B.stretch b), mmInsertBox i b s.items⟩

/-- `BruteSpatialIndex::operator()` lib/index.cpp:87-96. -/
def select (s : BruteIndex G) (q : Box 3 G) : List Nat :=
  sortUnique ((s.items.filter fun x => q.encloses x.2).map Prod.fst)

/-- `BruteSpatialIndex::operator+=` lib/index.cpp:99-103: the overall box is left in place. -/
def translate [Add G] (s : BruteIndex G) (v : Fin 3 → G) : BruteIndex G :=
  { s with items := s.items.map fun x => (x.1, x.2.translate v) }

/-- `BruteSpatialIndex::getOverallBox` lib/index.hpp:129. -/
def getOverallBox (s : BruteIndex G) : R (Box 3 G) :=
  match s.overallBox with
  | .obj B => .ok B
  | _ => .error .ub

end BruteIndex

/-- `TreeIndex_T` lib/index.hpp:159-170: `tree[start][length]` is a set of numbers (sorted list). -/
structure TreeIndex where
  overall : Ptr (Nat × Nat)
  tree : List (List (List Nat))

namespace TreeIndex

/-- State in which the constructor starts inserting: `overallInterval` is not initialised. -/
def fresh : TreeIndex := ⟨.uninit, []⟩

/-- `std::set::insert`. -/
def setIns (i : Nat) : List Nat → List Nat
  | [] => [i]
  | x :: l => if i < x then i :: x :: l else if i = x then x :: l else x :: setIns i l

/-- `push_back` empty elements until there are `n` of them (lib/index.cpp:129-132). -/
def growTo {β : Type} (n : Nat) (e : β) (l : List β) : List β := l ++ List.replicate (n - l.length) e

/-- Update of `overallInterval` lib/index.cpp:122-128. Reading the uninitialised pointer is undefined. -/
def newOverall (p : Ptr (Nat × Nat)) (iv : Nat × Nat) : R (Nat × Nat) :=
  match p with
  | .uninit => .error .ub
  | .null => .ok iv
  | .obj o => .ok (min o.1 iv.1, max o.2 iv.2)

/-- `TreeIndex_T::insert` lib/index.cpp:120-134, for intervals with `first ≤ second` (the difference
would wrap otherwise). -/
def insert (s : TreeIndex) (i : Nat) (iv : Nat × Nat) : R TreeIndex := do
  let ov ← newOverall s.overall iv
  let len := iv.2 - iv.1
  let tree1 := growTo (iv.1 + 1) [] s.tree
  let tree2 ← modifyR tree1 iv.1 (growTo (len + 1) [])
  let row ← getR tree2 iv.1
  let row' ← modifyR row len (setIns i)
  let tree3 ← setR tree2 iv.1 row'
  return ⟨.obj ov, tree3⟩

/-- `TreeIndex_T::operator()(Interval)` lib/index.cpp:137-146, same restriction. `tree[t0]` with
`t0 == tree.size()` is out of bounds. -/
def select (s : TreeIndex) (iv : Nat × Nat) : R (List Nat) := do
  let ls ← (List.range (min iv.1 s.tree.length + 1)).mapM (fun t0 => do
    let row ← getR s.tree t0
    return (row.drop (iv.2 - iv.1)).flatten)
  return sortUnique ls.flatten

end TreeIndex
end Colloids
