import Verif.Bonds.Model
import Verif.Index.Model
import Mathlib.Algebra.Order.Field.Basic

/-! # Voronoi cells: mains/cgVoro.cpp, the class `VoroContainer`

The tessellation is made by voro++, and given here: the volume of each cell and, for each cell, the numbers of
the neighbouring cells, negative for the walls of the container. `neighbours[p]` is as sorted by lines 81-82; the
reading of the text buffer (lines 65-79) is in VoroReadModel; the export of the volumes is not modelled. Exact arithmetic. -/

namespace Colloids
namespace Mains

/-- `l[n]` with a signed `n`: a negative number is out of range. -/
def getI (l : List α) (n : Int) : R α := if 0 ≤ n then getR l n.toNat else .error .ub

/-- `f(l[n])` in place with a signed `n`: a negative number is out of range. -/
def modifyI (l : List α) (n : Int) (f : α → α) : R (List α) :=
  if 0 ≤ n then modifyR l n.toNat f else .error .ub

/-- `std::lower_bound` on a vector of `int`: binary search (libstdc++ `__lower_bound`), `lt x` being the
comparison `x < value`; returns the index. `fuel` is any number not less than `len`. -/
def lowerBoundBy (lt : Int → Bool) (l : List Int) : (fuel first len : Nat) → Nat
  | 0, first, _ => first
  | fuel + 1, first, len =>
    if len = 0 then first
    else
      let half := len / 2
      if lt (l.getD (first + half) 0) then lowerBoundBy lt l fuel (first + half + 1) (len - half - 1)
      else lowerBoundBy lt l fuel first half

/-- The range from `lower_bound` to the end. -/
def fromLowerBoundBy (lt : Int → Bool) (l : List Int) : List Int :=
  l.drop (lowerBoundBy lt l l.length 0 l.length)

/-- Conversion of an `int` to `size_t`. -/
def toSize (x : Int) : Nat := (x % (szMod : Int)).toNat

/-- `neighbours[p].empty() || neighbours[p].front()<0` mains/cgVoro.cpp:95. -/
def noBulk : List Int → Bool
  | [] => true
  | a :: _ => decide (a < 0)

variable {G : Type} [Field G] [LinearOrder G]

/-- `cgVolumes[n] += v; div[n]++`, mains/cgVoro.cpp:97-98 and 102-103. -/
def addVolume (v : G) (acc : List G × List Nat) (n : Int) : R (List G × List Nat) := do
  let cg ← modifyI acc.1 n (· + v)
  let div ← modifyI acc.2 n (· + 1)
  pure (cg, div)

/-- Body of the loop mains/cgVoro.cpp:91-105. -/
def spreadVolume (cells : List (List Int)) (volumes : List G) (acc : List G × List Nat) (p : Nat) :
    R (List G × List Nat) := do
  let row ← getR cells p
  if noBulk row then pure acc
  else do
    let v ← getR volumes p
    let acc ← addVolume v acc (p : Int)
    row.foldlM (addVolume v) acc

/-- The loop mains/cgVoro.cpp:107-112 on the cell `p`: the state is `(cgVolumes, secondChance)`. -/
def divideVolume (cells : List (List Int)) (div : List Nat) (st : List G × List Nat) (p : Nat) :
    R (List G × List Nat) := do
  let d ← getR div p
  if 0 < d then do
    let cg ← modifyR st.1 p (· / (d : G))
    pure (cg, st.2)
  else do
    let row ← getR cells p
    if row.isEmpty then pure st else pure (st.1, st.2 ++ [p])

/-- The inner loop mains/cgVoro.cpp:121-126: the state is `(cgVolumes, nb)`. The test
`1.0+cgVolumes[*n]*cgVolumes[*n] > 1.0` is `cgVolumes[*n] ≠ 0` in exact arithmetic. -/
def chanceNgb (p : Nat) (st : List G × Nat) (n : Int) : R (List G × Nat) := do
  let x ← getI st.1 n
  if x = 0 then pure st
  else do
    let cg ← modifyR st.1 p (· + x)
    pure (cg, st.2 + 1)

/-- The loop mains/cgVoro.cpp:116-131. `fuel` bounds the number of turns. -/
def secondChance (cells : List (List Int)) : (fuel : Nat) → (queue : List Nat) → (cg : List G) → R (List G)
  | _, [], cg => .ok cg
  | 0, _ :: _, _ => .error .diverge
  | fuel + 1, p :: queue, cg => do
    let row ← getR cells p
    let st ← (fromLowerBoundBy (fun x => decide (x < 0)) row).foldlM (chanceNgb p) (cg, 0)
    if 0 < st.2 then do
      let cg' ← modifyR st.1 p (· / (st.2 : G))
      secondChance cells fuel queue cg'
    else secondChance cells fuel (queue ++ [p]) st.1

/-- `get_cgVolumes` mains/cgVoro.cpp:85-133, `cgVolumes` being made of zeros (line 279). -/
def cgVolumes (cells : List (List Int)) (volumes : List G) (fuel : Nat) : R (List G) := do
  let n := cells.length
  let acc ← (List.range n).foldlM (spreadVolume cells volumes) (List.replicate n 0, List.replicate n 0)
  let st ← (List.range n).foldlM (divideVolume cells acc.2) (acc.1, [])
  secondChance cells fuel st.2 st.1

/-- `neighbours[p].front()<0`, mains/cgVoro.cpp:141: undefined for an empty list. -/
def frontNeg : List Int → R Bool
  | [] => .error .ub
  | a :: _ => .ok (decide (a < 0))

/-- Body of the loop mains/cgVoro.cpp:140-150: the state is `(outside, secondOutside)`. -/
def outsideStep (cells : List (List Int)) (st : List Nat × List Nat) (p : Nat) : R (List Nat × List Nat) := do
  let row ← getR cells p
  let w ← frontNeg row
  if w then
    pure (st.1 ++ [p], st.2 ++ p :: (fromLowerBoundBy (fun x => decide (x < 0)) row).map toSize)
  else pure st

/-- `getOutsides` mains/cgVoro.cpp:136-153. -/
def getOutsides (cells : List (List Int)) : R (List Nat × List Nat) := do
  let st ← (List.range cells.length).foldlM (outsideStep cells) ([], [])
  pure (st.1, sortUnique st.2)

/-- `print_bonds` mains/cgVoro.cpp:156-163: the pairs printed. The value of `lower_bound` is a `size_t`: the
comparison `*it < p` is made after converting the `int` to `size_t`. -/
def printBonds (cells : List (List Int)) : List (Nat × Int) :=
  cells.zipIdx.flatMap fun rp =>
    (fromLowerBoundBy (fun x => decide (toSize x < rp.2)) rp.1).map fun q => (rp.2, q)

end Mains
end Colloids
