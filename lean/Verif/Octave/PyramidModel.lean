import Verif.Octave.SubModel

/-!
# The pyramid of octaves

`multiscale/src/multiscalefinder.{hpp,cpp}`: sizes of the octaves, downscaling, upscaling, and the
return to the coordinates of the input; `inplace_blur3D` of `octavefinder.cpp`.

The blurs themselves (OpenCV) are not modelled: where one is applied, its result is an input of
the model.
-/

namespace Colloids
namespace Octave

variable {G : Type} [Field G] [LinearOrder G]

/-- The loop of the constructors (multiscalefinder.cpp 23-28, 37-41, 50-56): `dims` is the list of
the sizes along each dimension, `lo` is 12 in one and two dimensions and 10 in three. The loop is
a `while`: out of fuel is `diverge`. -/
def pushOctaves (lo : Nat) : Nat → List Nat → List (List Nat) → R (List (List Nat))
  | 0, _, _ => .error .diverge
  | fuel + 1, dims, octaves =>
    if dims.all (fun n => decide (lo ≤ n)) then
      pushOctaves lo fuel (dims.map (fun n => n / 2)) (octaves ++ [dims])
    else .ok octaves

/-- Sizes of the octaves built by the constructors (multiscalefinder.cpp 16-57). Not modelled:
the call to `reserve`, and negative sizes. -/
def octaveSizes (fuel lo : Nat) (dims : List Nat) : R (List (List Nat)) :=
  pushOctaves lo fuel dims [dims.map (fun n => 2 * n)]

/-- A 2D image. -/
structure Img (G : Type) where
  rows : Nat
  cols : Nat
  px : Nat → Nat → G

/-- `a(i, j)`. -/
def Img.get (a : Img G) (i j : Nat) : R G :=
  if i < a.rows ∧ j < a.cols then .ok (a.px i j) else .error .ub

/-- `MultiscaleFinder2D::downscale` (multiscalefinder.cpp 139-148): `a` is the layer of the
previous octave, `rows` and `cols` the size of this octave. The new image is not initialised:
`none` is a pixel that was not written. -/
def downscale2 (a : Img G) (rows cols : Nat) : R (Nat → Nat → Option G) :=
  ((List.range cols).takeWhile (fun j => decide (2 * j + 1 < a.cols))).foldlM (fun roi j =>
    ((List.range rows).takeWhile (fun i => decide (2 * i + 1 < a.rows))).foldlM (fun roi i => do
      let p ← a.get (2 * i) (2 * j)
      let q ← a.get (2 * i + 1) (2 * j)
      let r ← a.get (2 * i) (2 * j + 1)
      let s ← a.get (2 * i + 1) (2 * j + 1)
      pure (fun i' j' => if i' = i ∧ j' = j then some ((p + q + r + s) / 4) else roi i' j'))
      roi) (fun _ _ => none)

/-- `MultiscaleFinder1D::downscale` (multiscalefinder.cpp 149-157), without a guard. -/
def downscale1 (a : Img G) (cols : Nat) : R (Nat → Option G) :=
  (List.range cols).foldlM (fun roi i => do
    let p ← a.get 0 (2 * i)
    let q ← a.get 0 (2 * i + 1)
    pure (fun i' => if i' = i then some ((p + q) / 2) else roi i')) (fun _ => none)

/-- The memory of an image that is being filled: `size` pixels at the addresses from 0. -/
structure Mem (G : Type) where
  size : Nat
  val : Nat → G

/-- `*u`. -/
def Mem.rd (m : Mem G) (u : Nat) : R G := if u < m.size then .ok (m.val u) else .error .ub

/-- `*u = x`. -/
def Mem.wr (m : Mem G) (u : Nat) (x : G) : R (Mem G) :=
  if u < m.size then .ok { m with val := fun p => if p = u then x else m.val p } else .error .ub

/-- Copy of a row of `n` pixels to one pixel out of two, from the address `u` on
(multiscalefinder.cpp 193-199, 228-234, 264-270). -/
def copyEven (row : Nat → G) (n u : Nat) (m : Mem G) : R (Mem G) :=
  (List.range n).foldlM (fun m i => m.wr (u + 2 * i) (row i)) m

/-- Interpolation of one pixel out of two: `n` steps from the address `u` on, advancing by two
(multiscalefinder.cpp 201-207, 236-242). -/
def interpolateOdd (n u : Nat) (m : Mem G) : R (Mem G) :=
  (List.range n).foldlM (fun m i => do
    let a ← m.rd (u + 2 * i - 1)
    let b ← m.rd (u + 2 * i + 1)
    m.wr (u + 2 * i) (1 / 2 * (a + b))) m

/-- Mean of `n` pixels from the addresses `u` and `w` on, written from the address `v` on
(multiscalefinder.cpp 212-216, 282-286, 291-295). -/
def meanLines (n u v w : Nat) (m : Mem G) : R (Mem G) :=
  (List.range n).foldlM (fun m i => do
    let a ← m.rd (u + i)
    let b ← m.rd (w + i)
    m.wr (v + i) (1 / 2 * (a + b))) m

/-- `MultiscaleFinder2D::upscale` (multiscalefinder.cpp 178-219) of the image `a`, which is the
input after the blur of line 181. The pixel at row `r` and column `c` of the result is at the
address `r * (2 * a.cols) + c`. -/
def upscale2 (a : Img G) : R (Mem G) := do
  let w := 2 * a.cols
  let m ← (List.range a.rows).foldlM (fun m j => do
    let m ← copyEven (a.px j) a.cols (2 * j * w) m
    interpolateOdd (a.cols - 1) (2 * j * w + 1) m) { size := 2 * a.rows * w, val := fun _ => 0 }
  (List.range (a.rows - 1)).foldlM (fun m j =>
    meanLines w (2 * j * w) ((2 * j + 1) * w) ((2 * j + 2) * w) m) m

/-- The same interpolation in `MultiscaleFinder3D::upscale` (multiscalefinder.cpp 271-276): the
pointer goes on from where the copy left it, and advances by one. -/
def interpolateNext (n u : Nat) (m : Mem G) : R (Mem G) :=
  (List.range n).foldlM (fun m i => do
    let a ← m.rd (u + i - 1)
    let b ← m.rd (u + i + 1)
    m.wr (u + i) (1 / 2 * (a + b))) m

/-- `MultiscaleFinder3D::upscale` (multiscalefinder.cpp 245-298) of a volume of `depth` planes of
`rows` rows of `cols` columns after the blur of line 253, with `a k j i` its pixels. The pixel
`(k, j, i)` of the result is at the address `(k * (2 * rows) + j) * (2 * cols) + i`. -/
def upscale3 (depth rows cols : Nat) (a : Nat → Nat → Nat → G) : R (Mem G) := do
  let h := 2 * rows
  let w := 2 * cols
  let m ← (List.range depth).foldlM (fun m k =>
    (List.range rows).foldlM (fun m j => do
      let m ← copyEven (a k j) cols ((2 * k * h + 2 * j) * w) m
      interpolateNext (cols - 1) ((2 * k * h + 2 * j) * w + 2 * cols) m) m)
    { size := 2 * depth * h * w, val := fun _ => 0 }
  let m ← (List.range depth).foldlM (fun m k =>
    (List.range (rows - 1)).foldlM (fun m j =>
      meanLines w ((2 * k * h + 2 * j) * w) ((2 * k * h + 2 * j + 1) * w)
        ((2 * k * h + 2 * j + 2) * w) m) m) m
  (List.range (depth - 1)).foldlM (fun m k =>
    meanLines (h * w) (2 * k * h * w) ((2 * k + 1) * h * w) ((2 * k + 2) * h * w) m) m

/-- The part along Z of `inplace_blur3D` with OpenMP (octavefinder.cpp 219-235): `col c` is the
column `c` of the image `temp2D` of `cols` columns, and `blur` its filter along Z. Thread `t` of
`threads` filters the columns of its rectangle, clipped to the image. `order` is the order in
which the threads run; as they work on different columns, running one after the other is no
restriction. -/
def zblur {C : Type} (blur : C → C) (threads cols : Nat) (order : List Nat) (col : Nat → C) :
    Nat → C :=
  order.foldl (fun col t =>
    let section' := cols / threads
    fun c => if t * section' ≤ c ∧ c < min (t * section' + section') cols then blur (col c)
      else col c) col

/-- A center found in an octave: coordinates and scale, then coordinates and radius. -/
structure Spot (G : Type) where
  pos : List G
  r : G

/-- `MultiscaleFinder::subpix` (multiscalefinder.hpp 93-125): `found o` are the centers of the
octave `o` (`octaves[o]->subpix`), `seam o` the correction at the seam with the octave `o`
(149-156, the identity in one and three dimensions), `scale` is `OctaveFinder::scale`
(octavefinder.hpp 55-57). -/
def subpixAll (octave0 : Bool) (n : Nat) (found : Nat → List (Spot G)) (seam : Nat → Spot G → Spot G)
    (scale : Spot G → Spot G) : List (Spot G) :=
  let o0 := if octave0 then 0 else 1
  (List.range' o0 (n - o0)).foldl (fun centers o =>
    let v := if o0 < o then (found o).map (seam (o - 1)) else found o
    centers ++ v.map (fun c =>
      let c := scale c
      { pos := c.pos.map (fun x => x * (2 : G) ^ ((o : Int) - 1))
        r := c.r * (2 : G) ^ ((o : Int) - 1) })) []

/-- `MultiscaleFinder::seam` in two dimensions (multiscalefinder.hpp 149-156), for the scale of the
center: `scaleAt l` is `octaves[o]->scale_subpix` for the layer `l` and the pixel given by
`previous_octave_coords` (138-147), `n` the number of layers. -/
def seamScale [FloorSemiring G] (n : Nat) (scaleAt : Nat → R (Ext G)) (r : Ext G) : R (Ext G) :=
  match r with
  | .fin x =>
    if x < 1 then
      if 0 ≤ x + n + 1 / 2 then do
        match ← scaleAt ⌊x + n + 1 / 2⌋₊ with
        | .fin y => pure (.fin (y - n))
        | s => pure s
      else .error .ub
    else pure r
  | .neg => .error .ub
  | _ => pure r

end Octave
end Colloids
