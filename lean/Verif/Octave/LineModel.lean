import Verif.Octave.SubModel

/-! # Subpixel and subscale resolution of lines, response of volumes

`multiscale/src/octavefinder.cpp`: `OctaveFinder1D::spatial_subpix`, `OctaveFinder1D::gaussianResponse`,
`OctaveFinder1D::scale_subpix`, `OctaveFinder3D::gaussianResponse`. -/

namespace Colloids
namespace Octave

variable {G : Type} [Field G] [LinearOrder G]

/-- `OctaveFinder1D::spatial_subpix` (octavefinder.cpp 578-588) of the pixel `i` in the layer `k`: position and intensity.
When the position is infinite the intensity is plus infinity: the difference in 587 has the sign of the numerator of 586. -/
def spatialSubpix1 (o : Finder G) (i k : Nat) : R (Ext G × Ext G) := do
  let l := if 0 < k then k - 1 else k
  let after ← o.gauss l 0 (i + 1)
  let before ← o.gauss l 0 (i - 1)
  let here ← o.gauss l 0 i
  let v ← o.layer k 0 i
  let c := (Ext.div ((after - before) / 2) (after - 2 * here + before)).subFrom ((i : G) + 1 / 2)
  let intensity := match c with
    | .nan => Ext.nan
    | .fin x => .fin (v - 1 / 4 * (x - i) * (after - before))
    | _ => .pos
  pure (c, intensity)

/-- `cv::borderInterpolate(p, len, BORDER_REFLECT_101)` as OpenCV documents it: the pixels before the first one and after
the last one are mirror images. -/
def reflect101 (len : Nat) (p : Int) : Nat :=
  if len = 1 then 0 else
    let q := (p % (2 * ((len : Int) - 1))).toNat
    if q < len then q else 2 * (len - 1) - q

/-- `OctaveFinder1D::gaussianResponse` (octavefinder.cpp 652-673), after the choice of the layer and of the kernel. -/
def convolve1 (o : Finder G) (k : Nat) (kernel : List G) (c : Nat) : R G :=
  (List.range kernel.length).foldlM (fun resp (x : Nat) => do
    let v ← o.gauss k 0 (reflect101 o.height ((c : Int) - x + (kernel.length / 2 : Nat)))
    let w ← getR kernel x
    pure (resp + v * w)) 0

/-- `OctaveFinder1D::scale_subpix` (octavefinder.cpp 779-790) from the response at each scale; `p` is
`pow(2, -2/n)` where `n` is the number of layers. -/
def scaleSubpix1 (p : G) (resp : G → R G) (l : Nat) : R (Ext G) := do
  let g ← (List.range 7).mapM (fun u => resp ((l : G) - 3 * (1 / 3) + (u : Nat) * (1 / 3)))
  let a : Nat → G := fun u => g.getD u 0
  let s := Ext.div (2 * (1 / 3) * (a 5 - 2 * a 3 + a 1)) (a 6 - 3 * a 4 + 3 * a 2 - a 0)
  pure (match s with
    | .nan => .nan
    | .pos => .nan
    | .neg => .pos
    | .fin s => .fin ((l : G) - 105 / 100 * s + 8 / 100 * s ^ 2 - p + 25 / 1000 * l - 25 / 1000))

/-- `layersG[l](k, j, i)` in a volume. -/
def Finder3.gauss (o : Finder3 G) (l k j i : Nat) : R G :=
  if l < o.nbLayers + 3 ∧ k < o.depth ∧ j < o.rows ∧ i < o.cols then .ok (o.layersG l k j i) else .error .ub

/-- `im(y, x) += v * w` along a row (octavefinder.cpp 704-707). The image `im` has `m` rows and `m` columns, which
contain the window by construction: it is a function here. -/
def addRow (read : Nat → R G) (w : G) (X : List Nat) (y : Nat) (im : Nat → Nat → G) : R (Nat → Nat → G) :=
  X.foldlM (fun im x => do
    let v ← read x
    pure (fun y' x' => if y' = y ∧ x' = x then im y' x' + v * w else im y' x')) im

/-- `OctaveFinder3D::gaussianResponse` (octavefinder.cpp 675-726), after the choice of the layer and of the kernel. The
single precision of `im` is not modelled. -/
def convolve3 (o : Finder3 G) (l : Nat) (kernel : List G) (c0 c1 c2 : Nat) : R G := do
  let m := kernel.length
  let xmin := c0 + m / 2 + 1 - o.rows
  let xmax := min m (c0 + m / 2 + 1)
  let ymin := c1 + m / 2 + 1 - o.cols
  let ymax := min m (c1 + m / 2 + 1)
  let zmin := c2 + m / 2 + 1 - o.depth
  let zmax := min m (c2 + m / 2 + 1)
  let X := List.range' xmin (xmax - xmin)
  let im ← (List.range' zmin (zmax - zmin)).foldlM (fun im z => do
    let w ← getR kernel z
    (List.range' ymin (ymax - ymin)).foldlM (fun im y =>
      addRow (fun x => o.gauss l (c2 + m / 2 - z) (c1 + m / 2 - y) (c0 + m / 2 - x)) w X y im) im)
    (fun _ _ => 0)
  let gx ← (List.range' ymin (ymax - ymin)).foldlM (fun gx y => do
    let w ← getR kernel y
    X.foldlM (fun gx x => do
      let v ← (pure (im y x) : R G)
      modifyR gx x (fun a => a + v * w)) gx) (List.replicate m 0)
  (List.range m).foldlM (fun resp x => do
    let a ← getR gx x
    let w ← getR kernel x
    pure (resp + a * w)) 0

end Octave
end Colloids
