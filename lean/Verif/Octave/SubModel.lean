import Verif.Octave.Model3
import Mathlib.Algebra.Order.Floor.Semiring

/-!
# Subpixel and subscale resolution

`multiscale/src/octavefinder.cpp`: `spatial_subpix`, `gaussianResponse`, `scale_subpix`.
-/

namespace Colloids
namespace Octave

variable {G : Type} [Field G] [LinearOrder G]

/-- One coordinate of `OctaveFinder::spatial_subpix` (octavefinder.cpp 567-574): `before`, `here`
and `after` are three consecutive pixels of the Gaussian layer. -/
def parabola (x : Nat) (before here after : G) : G :=
  let d1 := (after - before) / 2
  let d2 := after - 2 * here + before
  (x : G) + 1 / 2 - (if d2 = 0 then 0 else d1 / d2)

/-- `OctaveFinder::spatial_subpix` (octavefinder.cpp 559-576) of the pixel `(i, j, k)`: position
and intensity. -/
def spatialSubpix2 (o : Finder G) (c : Nat × Nat × Nat) : R ((G × G) × G) := do
  let i := c.1
  let j := c.2.1
  let k := c.2.2
  let l := if 0 < k then k - 1 else k
  let here ← o.gauss l j i
  let right ← o.gauss l j (i + 1)
  let left ← o.gauss l j (i - 1)
  let below ← o.gauss l (j + 1) i
  let above ← o.gauss l (j - 1) i
  let v ← o.layer k j i
  pure ((parabola i left here right, parabola j above here below), v)

/-- `OctaveFinder::gaussianResponse` (octavefinder.cpp 614-650), the part after the choice of the
layer `k` and of the kernel, a column of `m` numbers (626-649). -/
def convolve2 (o : Finder G) (k : Nat) (kernel : List G) (c0 c1 : Nat) : R G := do
  let m := kernel.length
  let xmin := c0 + m / 2 + 1 - o.width
  let xmax := min m (c0 + m / 2 + 1)
  let ymin := c1 + m / 2 + 1 - o.height
  let ymax := min m (c1 + m / 2 + 1)
  let gx ← (List.range' ymin (ymax - ymin)).foldlM (fun gx y => do
    let w ← getR kernel y
    (List.range' xmin (xmax - xmin)).foldlM (fun gx x => do
      let v ← o.gauss k (c1 + m / 2 - y) (c0 + m / 2 - x)
      modifyR gx x (fun a => a + v * w)) gx) (List.replicate m 0)
  (List.range m).foldlM (fun resp x => do
    let a ← getR gx x
    let w ← getR kernel x
    pure (resp + a * w)) 0

/-- `OctaveFinder::gaussianResponse` (octavefinder.cpp 614-650). `exact x` is the test
`x * x + 1 == 1`; `kernel s k` is the kernel of `get_kernel(get_iterative_radius(s, k))`
(octavefinder.cpp 18-35, 829-832), which is not modelled. The size of `ci` is right. -/
def gaussianResponse2 [FloorSemiring G] (exact : G → Bool) (kernel : G → Nat → List G)
    (o : Finder G) (c0 c1 : Nat) (scale : G) : R G := do
  if scale < 0 then throw .invalidArgument
  let k := min ⌊scale⌋₊ (o.nbLayers + 2)
  if exact (scale - k) then o.gauss k c1 c0
  else convolve2 o k (kernel scale k) c0 c1

/-- A `double` that may be infinite or not a number. -/
inductive Ext (G : Type) where
  | nan
  | neg
  | pos
  | fin (x : G)

/-- Division of `double` (a divisor equal to minus zero is not considered). -/
def Ext.div (num den : G) : Ext G :=
  if den = 0 then (if num = 0 then .nan else if 0 < num then .pos else .neg) else .fin (num / den)

/-- `l - x`. -/
def Ext.subFrom (l : G) : Ext G → Ext G
  | .nan => .nan
  | .neg => .pos
  | .pos => .neg
  | .fin x => .fin (l - x)

/-- `if(s > b) s = b; if(s < a) s = a;` (octavefinder.cpp 746-749, 773-776). -/
def Ext.saturate (a b : G) : Ext G → Ext G
  | .nan => .nan
  | .neg => .fin a
  | .pos => .fin b
  | .fin x => .fin (max a (min b x))

/-- The five differences of the responses around the scale `s` (octavefinder.cpp 733-742). -/
def responses (resp : G → R G) (s : G) : R (Nat → G) := do
  let g ← (List.range 8).mapM (fun u => resp (s - 1 + 1 / 2 * (u : Nat)))
  pure (fun u => g.getD (u + 2) 0 - g.getD u 0)

/-- `OctaveFinder::scale_subpix` (octavefinder.cpp 728-778), from the response `resp` at each
scale. -/
def scaleSubpix2 (resp : G → R G) (l : Nat) : R (Ext G) := do
  let a ← responses resp l
  let s := ((Ext.div ((-a 4 + 8 * a 3 - 8 * a 1 + a 0) / 6) (a 4 - 2 * a 2 + a 0)).subFrom
    (l : G)).saturate ((l : G) - 1 / 2) ((l : G) + 1 / 2)
  let s' ← (match s with
    | .fin x =>
      if 1 ≤ x then
        if x + 1 / 10 < l then do
          let x := (l : G) - 1 / 2
          let a ← responses resp x
          pure ((Ext.div ((-a 4 + 8 * a 3 - 8 * a 1 + a 0) / 6) (a 4 - 2 * a 2 + a 0)).subFrom x)
        else pure s
      else if x + 1 / 4 < l then
        pure ((Ext.div (a 3 - a 1) (a 4 - 2 * a 2 + a 0)).subFrom (l : G))
      else pure s
    | _ => pure s : R (Ext G))
  pure (s'.saturate ((l : G) - 1 / 2) ((l : G) + 1 / 2))

end Octave
end Colloids
