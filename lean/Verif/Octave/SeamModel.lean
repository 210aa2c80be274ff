import Verif.Common
import Mathlib.Algebra.Order.Field.Basic

/-! # `seam_binary`: centers found in two consecutive octaves, octavefinder.cpp:843-971

The three versions (one, two and three dimensions) are the same code on positions with one, two and three coordinates:
`Pos` is the type of the positions. -/

namespace Colloids
namespace Octave

variable {G Pos : Type} [LinearOrder G] [DecidableEq Pos]

/-- What `seam_binary` reads and modifies of an octave: `layers[k](p)` is `value k p`; `binary[k-1](p)` is
`binary k p`; `centers_no_subpix` is the list of pairs (position, layer). `inside` are the positions in the images,
`nbBinary` is `binary.size()`. -/
structure SeamSide (G Pos : Type) where
  nbLayers : Nat
  nbBinary : Nat
  height : Nat
  inside : Pos → Bool
  value : Nat → Pos → G
  binary : Nat → Pos → Bool
  centers : List (Pos × Nat)

/-- `layers[k](p)`; `nbLayers + 2` layers (octavefinder.cpp:43-45). -/
def SeamSide.layer (o : SeamSide G Pos) (k : Nat) (p : Pos) : R G :=
  if k < o.nbLayers + 2 ∧ o.inside p = true then .ok (o.value k p) else .error .ub

/-- `binary[k-1](p)`. -/
def SeamSide.bit (o : SeamSide G Pos) (k : Nat) (p : Pos) : R Bool :=
  if 1 ≤ k ∧ k ≤ o.nbBinary ∧ o.inside p = true then .ok (o.binary k p) else .error .ub

/-- `binary[k-1](p) = v`. -/
def SeamSide.setBit (o : SeamSide G Pos) (k : Nat) (p : Pos) (v : Bool) : R (SeamSide G Pos) :=
  if 1 ≤ k ∧ k ≤ o.nbBinary ∧ o.inside p = true then
    .ok { o with binary := fun k' p' => if k' = k ∧ p' = p then v else o.binary k' p' }
  else .error .ub

/-- The test on a center of the high resolution octave, octavefinder.cpp:853-856. `pix` is the position in the low
resolution octave. -/
def highTest (pix : Pos → Pos) (lo hi : SeamSide G Pos) (c : Pos × Nat) : R Bool :=
  if c.2 = hi.nbLayers then do
    let b ← lo.bit 1 (pix c.1)
    if b then do
      let v ← hi.layer c.2 c.1
      let w ← lo.layer 1 (pix c.1)
      pure (decide (w < v))
    else pure false
  else pure false

/-- One turn of the first loop, octavefinder.cpp:852-862. -/
def highTurn (pix : Pos → Pos) (lo hi : SeamSide G Pos) (c : Pos × Nat) : R (SeamSide G Pos) := do
  let t ← highTest pix lo hi c
  if t then hi.setBit c.2 c.1 false else pure { hi with centers := hi.centers ++ [c] }

/-- The first loop, octavefinder.cpp:849-862. The list is rebuilt instead of erased in place. -/
def highLoop (pix : Pos → Pos) (lo hi : SeamSide G Pos) : R (SeamSide G Pos) :=
  hi.centers.foldlM (highTurn pix lo) { hi with centers := [] }

/-- One pixel of the high resolution octave, octavefinder.cpp:874. -/
def lowPixel (hi : SeamSide G Pos) (vb : G) (b : Bool) (p : Pos) : R Bool := do
  let h ← hi.bit hi.nbBinary p
  if h then do
    let v ← hi.layer hi.nbLayers p
    pure (b && !(decide (v < vb)))
  else pure b

/-- One turn of the second loop, octavefinder.cpp:867-882. `window` lists the pixels of the loops 872-873. -/
def lowTurn (window : Pos → R (List Pos)) (hi lo : SeamSide G Pos) (c : Pos × Nat) : R (SeamSide G Pos) :=
  if c.2 = 1 then do
    let b ← lo.bit 1 c.1
    let vb ← lo.layer 1 c.1
    let w ← window c.1
    let b ← w.foldlM (lowPixel hi vb) b
    let lo ← lo.setBit 1 c.1 b
    pure (if b then { lo with centers := lo.centers ++ [c] } else lo)
  else pure { lo with centers := lo.centers ++ [c] }

/-- The second loop, octavefinder.cpp:864-882. -/
def lowLoop (window : Pos → R (List Pos)) (hi lo : SeamSide G Pos) : R (SeamSide G Pos) :=
  lo.centers.foldlM (lowTurn window hi) { lo with centers := [] }

/-- `(int)(x/sf + 0.5)`. `none` is an infinite `sf`. -/
def roundDiv (sf : Option Nat) (x : Nat) : Nat :=
  match sf with
  | none => 0
  | some s => (2 * x + s) / (2 * s)

/-- The values of the index of a loop over the pixels of the high resolution octave that overlap the pixel `x`,
octavefinder.cpp:872: `for(size_t j=max(0, (int)((x-1)*sf)); j<(size_t)((x+1)*sf) && j<bound; ++j)`. With an infinite
`sf` the conversions are undefined behaviour. -/
def overlapRange (sf : Option Nat) (bound x : Nat) : R (List Nat) :=
  match sf with
  | none => .error .ub
  | some s => .ok (List.range' ((x - 1) * s) (min ((x + 1) * s) bound - (x - 1) * s))

/-- `seam_binary`, octavefinder.cpp:843-884. The result is `this` and `other`. `sizefactor` is a quotient of integers:
`get_height` gives an `int`. -/
def seamBinary (pix : Option Nat → Pos → Pos) (window : Option Nat → SeamSide G Pos → Pos → R (List Pos))
    (this other : SeamSide G Pos) : R (SeamSide G Pos × SeamSide G Pos) := do
  if other.height = 0 then throw Fault.ub
  let sizefactor := this.height / other.height
  if 1 < sizefactor then do
    let sf := some sizefactor
    let hi ← highLoop (pix sf) other this
    let lo ← lowLoop (window sf hi) hi other
    pure (hi, lo)
  else do
    let sf := if sizefactor = 0 then none else some (1 / sizefactor)
    let hi ← highLoop (pix sf) this other
    let lo ← lowLoop (window sf hi) hi this
    pure (lo, hi)

/-- `OctaveFinder1D::seam_binary`, octavefinder.cpp:886-927: positions are columns. -/
def seamBinary1 (this other : SeamSide G Nat) : R (SeamSide G Nat × SeamSide G Nat) :=
  seamBinary roundDiv (fun sf hi x => overlapRange sf hi.height x) this other

/-- `OctaveFinder::seam_binary`, octavefinder.cpp:843-884: positions are `(column, row)`. `width` is that of the high
resolution octave. -/
def seamBinary2 (width : Nat) (this other : SeamSide G (Nat × Nat)) :
    R (SeamSide G (Nat × Nat) × SeamSide G (Nat × Nat)) :=
  seamBinary (fun sf p => (roundDiv sf p.1, roundDiv sf p.2))
    (fun sf hi p => do
      let js ← overlapRange sf width p.2
      let is ← overlapRange sf hi.height p.1
      pure (js.flatMap fun j => is.map fun i => (i, j))) this other

/-- `OctaveFinder3D::seam_binary`, octavefinder.cpp:928-971: positions are `(column, row, plane)`. -/
def seamBinary3 (width depth : Nat) (this other : SeamSide G (Nat × Nat × Nat)) :
    R (SeamSide G (Nat × Nat × Nat) × SeamSide G (Nat × Nat × Nat)) :=
  seamBinary (fun sf p => (roundDiv sf p.1, roundDiv sf p.2.1, roundDiv sf p.2.2))
    (fun sf hi p => do
      let ks ← overlapRange sf depth p.2.2
      let js ← overlapRange sf width p.2.1
      let is ← overlapRange sf hi.height p.1
      pure (ks.flatMap fun k => js.flatMap fun j => is.map fun i => (i, j, k))) this other

end Octave
end Colloids
