import Mathlib.Algebra.Order.Field.Basic
import Verif.Common

/-!
# `python/colloids/voro.py`

What is read in the output of voro++; the program itself, the formats of numbers and the calls of the system are not
modelled.  The module needs `map` to return a list and `np.unique1d`: python 2 and an old numpy.
-/

namespace Colloids
namespace Py
namespace Voro

/-- a line of the output of voro++ with `"%i %v %s %n"`, without the volume: particle, number of neighbours, neighbours (walls
are negative) -/
structure Cell where
  id : Nat
  s : Nat
  ngb : List Int

/-- the lines of `np.column_stack` for a cell; another number of neighbours than announced is an error.
voro.py:111-114 -/
def cellBonds (c : Cell) : R (List (Int × Int)) :=
  if c.s = c.ngb.length then .ok (c.ngb.map fun n => ((c.id : Int), n)) else .error .invalidArgument

/-- lexicographic order -/
def lexLE (a b : Int × Int) : Bool := decide (a.1 < b.1) || (decide (a.1 = b.1) && decide (a.2 ≤ b.2))

/-- `load_vorobonds`; `uniq` is `np.unique1d`; `lexsort` has the first column as its main key.  No line is an error of
`vstack`.  voro.py:108-123 -/
def loadVorobonds (uniq : List Int → List Int) (cells : List Cell) : R (List (Int × Int) × List Int) :=
  if cells = [] then .error .invalidArgument
  else do
    let all ← cells.mapM cellBonds
    let bonds := all.flatten
    let outside := uniq ((bonds.filter fun b => decide (min b.1 b.2 < 0)).map fun b => max b.1 b.2)
    let kept := bonds.filter fun b => decide (0 < b.2 - b.1) && !decide (min b.1 b.2 < 0)
    .ok (kept.mergeSort lexLE, outside)

/-- one bond in the lists of neighbours.  voro.py:131-133 -/
def addBond (ngb : List (List Nat)) (b : Nat × Nat) : List (List Nat) :=
  (ngb.modify b.1 (· ++ [b.2])).modify b.2 (· ++ [b.1])

/-- `get_second_outside`; the maximum of no bond is an error.  voro.py:125-134 -/
def secondOutside (bonds : List (Nat × Nat)) (outside : List Nat) : R (List Nat) :=
  match bonds with
  | [] => .error .invalidArgument
  | _ =>
    let N := (bonds.map fun b => max b.1 b.2).foldl max 0 + 1
    if outside.any fun o => decide (N ≤ o) then .error .outOfRange
    else
      let out1 := fun (p : Nat) => outside.contains p
      let ngb := bonds.foldl addBond (List.replicate N [])
      .ok ((List.range N).filter fun p => out1 p || (ngb.getD p []).any out1)

variable {F : Type} [Field F] [LinearOrder F]

/-- one line of the output of voro++ with `"%i %v %n"`: particle, volume, neighbours -/
structure VCell (F : Type) where
  id : Nat
  v : F
  ngb : List Int

/-- `vol[i] += v; nbNgb[i] += 1` -/
def addTo (st : List (F × Nat)) (v : F) (i : Nat) : R (List (F × Nat)) :=
  match st[i]? with
  | some x => .ok (st.set i (x.1 + v, x.2 + 1))
  | none => .error .outOfRange

/-- one line of the loop of `cgVolume`.  voro.py:90-101 -/
def cgLine (st : List (F × Nat)) (c : VCell F) : R (List (F × Nat)) :=
  let ngb := (c.ngb.filter fun n => decide (0 ≤ n)).map Int.toNat
  if ngb.length = c.ngb.length then do
    let st ← addTo st c.v c.id
    ngb.foldlM (fun st n => addTo st c.v n) st
  else .ok st

/-- what `cgVolume` saves for each of the `size` particles.  voro.py:87-102 -/
def cgVolume (size : Nat) (cells : List (VCell F)) : R (List F) := do
  let st ← cells.foldlM cgLine (List.replicate size (0, 0))
  .ok (st.map fun x => if x.1 * (x.2 : F) ≠ 0 then x.1 / (x.2 : F) else x.1)

end Voro
end Py
end Colloids
