import Verif.Octave.SubModel
import Verif.Tracker.PixelModel

/-! # The centers with a sub-pixel resolution: graphic/tracker.cpp:646-850, 434-452 -/

namespace Colloids
namespace Tracker

open Octave (Ext)

variable {G : Type} [Field G] [LinearOrder G]

/-- `x + i`, with `x` infinite or not a number. -/
def addExt (i : G) : Ext G → Ext G
  | .nan => .nan
  | .neg => .neg
  | .pos => .pos
  | .fin x => .fin (x + i)

/-- `x < 0`. -/
def negExt : Ext G → Bool
  | .nan => false
  | .neg => true
  | .pos => false
  | .fin x => decide (x < 0)

/-- The range of the neighbourhood in a dimension of `n` pixels, graphic/tracker.cpp:698-700. The bounds of
a view must be in the array. -/
def around (n i : Nat) : R (List Nat) :=
  if n < 5 then .ok (List.range n)
  else if 2 ≤ i ∧ i + 3 ≤ n then .ok (List.range' (i - 2) 5)
  else .error .ub

/-- The places of the neighbourhood, graphic/tracker.cpp:696-701. -/
def neighbourhood (D : Dims) (i j k : Nat) : R (List Nat) := do
  let is ← around D.n0 i
  let js ← around D.n1 j
  let ks ← around D.n2 k
  pure (is.flatMap fun a => js.flatMap fun b => ks.map fun c => D.idx a b c)

/-- `-d/dd` from the five values in a dimension, graphic/tracker.cpp:715-726, with the coefficients of
graphic/tracker.cpp:671-673. -/
def newton (a b c d e : G) : Ext G :=
  Ext.div (-(a * 1 + b * (-8) + c * 0 + d * 8 + e * (-1)))
    (a * (-1) + b * 16 + c * (-30) + d * 16 + e * (-1))

/-- The shift in a dimension of `n` pixels and stride `s`, graphic/tracker.cpp:712-727. -/
def shift (img : List G) (n s l : Nat) : R (Ext G) :=
  if n ≥ 5 then do
    let a ← readBack img l (2 * s)
    let b ← readBack img l s
    let c ← getR img l
    let d ← getR img (l + s)
    let e ← getR img (l + 2 * s)
    pure (newton a b c d e)
  else .ok (.fin 0)

/-- A position: three coordinates. -/
structure Pos3 (G : Type) where
  x0 : Ext G
  x1 : Ext G
  x2 : Ext G

/-- The position that marks what is not a center, graphic/tracker.cpp:706, 709. -/
def noPos : Pos3 G := ⟨.fin (-1), .fin (-1), .fin (-1)⟩

/-- `centroid::operator()`, graphic/tracker.cpp:686-733. -/
def centroid (D : Dims) (img : List G) (l : Nat) : R (Pos3 G) := do
  let i := l / (D.n1 * D.n2)
  let j := l % (D.n1 * D.n2) / D.n2
  let k := l % (D.n1 * D.n2) % D.n2
  let ps ← neighbourhood D i j k
  let ngb ← ps.mapM (getR img)
  let x ← getR img l
  if ngb.any (fun y => decide (y < 0)) then pure noPos
  else if ngb.any (fun y => decide (x < y)) then pure noPos
  else do
    let c0 ← shift img D.n0 (D.n1 * D.n2) l
    let c1 ← shift img D.n1 D.n2 l
    let c2 ← shift img D.n2 1 l
    pure ⟨addExt (i : G) c0, addExt (j : G) c1, addExt (k : G) c2⟩

/-- `flat_positions`, graphic/tracker.cpp:761-765. -/
def flatPositions (map : List Bool) : List Nat :=
  (List.range map.length).filter (fun p => map.getD p false)

/-- The order of `compIntensities`, graphic/tracker.cpp:646-655. -/
def brighter (img : List G) (a b : Nat) : Bool := decide (img.getD a 0 ≤ img.getD b 0)

/-- `list::sort` is stable, graphic/tracker.cpp:769. The places are in the image. -/
def sortByIntensity (img : List G) (fs : List Nat) : List Nat := fs.mergeSort (brighter img)

/-- `Particles`, as far as they are made here: positions and the upper bounds of the box. -/
structure Found (G : Type) where
  centers : List (Pos3 G)
  box : Nat × Nat × Nat

/-- `swap(v[0], v[2])`, graphic/tracker.cpp:738-742. -/
def swap02 (c : Pos3 G) : Pos3 G := ⟨c.x2, c.x1, c.x0⟩

/-- The end of `Tracker::getSubPixel`, graphic/tracker.cpp:811-848, from the positions in increasing order of
intensity. -/
def subPixel (D : Dims) (img : List G) (fortran : Bool) (fs : List Nat) : R (Found G) := do
  let ps ← fs.reverse.mapM (centroid D img)
  let ps := ps.filter (fun c => !negExt c.x0)
  if fortran then pure ⟨ps.map swap02, (D.n2, D.n1, D.n0)⟩
  else pure ⟨ps, (D.n0, D.n1, D.n2)⟩

/-- `(size_t)` of a `double`: undefined if it cannot be represented. -/
def toSize [FloorSemiring G] : Ext G → R Nat
  | .fin x => if -1 < x then .ok ⌊x⌋₊ else .error .ub
  | _ => .error .ub

/-- `Tracker::getIntensities` of one center, graphic/tracker.cpp:440-449. -/
def getIntensity [FloorSemiring G] (D : Dims) (img : List G) (fortran : Bool) (c : Pos3 G) : R G := do
  let c := if fortran then swap02 c else c
  let i ← toSize c.x0
  let j ← toSize c.x1
  let k ← toSize c.x2
  let x ← getR img (D.n1 * D.n2 * i + D.n2 * j + 1 * k)
  pure (x / (D.size : G))

end Tracker
end Colloids
