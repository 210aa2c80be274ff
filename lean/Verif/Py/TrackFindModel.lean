import Mathlib.Algebra.Order.Field.Basic
import Mathlib.Algebra.Order.Floor.Ring
import Verif.Common
import Verif.Py.TrackBlurModel

/-!
# `python/colloids/track.py`: the finders of blobs

Two dimensional images; pixels are in a linearly ordered field (rounding is not modelled).  An image is a
function of the two indices, read inside of its shape only.  `gaussian_filter`, `uniform_filter` are
parameters, or appear by the variance of the blur only.
-/

namespace Colloids
namespace Py
namespace Track

variable {F : Type} [Field F] [LinearOrder F]

/-- an index outside of the image by one pixel at most, as the mode `reflect` of `scipy.ndimage` -/
def reflect (n : Nat) (i : Int) : Nat := if i < 0 then 0 else if (n : Int) ≤ i then n - 1 else i.toNat

/-- the indices of the neighbourhood of size 3 in one direction -/
def three (n i : Nat) : List Nat := [reflect n (i - 1), i, reflect n (i + 1)]

/-- `grey_dilation(b, [3, 3])`.  track.py:711 -/
def dilated (H W : Nat) (b : Nat → Nat → F) (i j : Nat) : F :=
  ((three H i).flatMap fun u => (three W j).map fun v => b u v).foldl max (b i j)

/-- `CrockerGrierFinder.initialize_binary`, lines that find local maxima and exclude the edges of the image.
track.py:713-724 -/
def peaks (H W : Nat) (b : Nat → Nat → F) (threshold : Option F) (i j : Nat) : Bool :=
  (match threshold with
    | none => decide (b i j = dilated H W b i j)
    | some thr => decide (b i j = dilated H W b i j) && decide (thr < b i j))
  && decide (2 ≤ i ∧ i + 2 < H ∧ 2 ≤ j ∧ j + 2 < W)

/-- the coefficients of the second derivatives.  track.py:731-735,874-878 -/
def hess (b : Nat → Nat → F) (i j : Nat) : F × F × F :=
  (b (i - 1) j - 2 * b i j + b (i + 1) j, b i (j - 1) - 2 * b i j + b i (j + 1),
    b (i - 1) (j - 1) + b (i + 1) (j + 1) - b (i - 1) (j + 1) - b (i + 1) (j - 1))

/-- `detH<0 or ratio>maxedge`.  A ratio with a zero denominator is infinite, or not a number if its numerator
is zero too.  track.py:739-741,882-884 -/
def isEdge (maxedge : F) (h : F × F × F) : Bool :=
  decide (h.1 * h.2.1 - h.2.2 ^ 2 < 0) ||
    (if h.1 * h.2.1 = 0 then decide (h.1 + h.2.1 ≠ 0)
      else decide (maxedge < (h.1 + h.2.1) ^ 2 / (4 * h.1 * h.2.1)))

/-- `CrockerGrierFinder.initialize_binary`.  track.py:713-742 -/
def cgBinary (H W : Nat) (b : Nat → Nat → F) (maxedge : F) (threshold : Option F) (i j : Nat) : Bool :=
  peaks H W b threshold i j && (if 0 < maxedge then !isEdge maxedge (hess b i j) else true)

/-- `np.dot(coefprime, a)`.  track.py:33 -/
def dotPrime (a : Nat → F) : F := a 0 - 8 * a 1 + 0 * a 2 + 8 * a 3 - a 4

/-- `np.dot(coefsec, a)`.  track.py:34 -/
def dotSec (a : Nat → F) : F := -a 0 + 16 * a 1 - 30 * a 2 + 16 * a 3 - a 4

/-- a division; `none` is an infinite result or not a number -/
def quot (a b : F) : Option F := if b = 0 then none else some (a / b)

/-- one line of `CrockerGrierFinder.subpix` on an image of two dimensions: intensity and two coordinates.  The
neighbourhood is 5 pixels wide, its pixel `1` is read in the other direction.  track.py:762-768 -/
def cgSubpix (b : Nat → Nat → F) (p : Nat × Nat) : F × Option F × Option F :=
  let ngb := fun u v => b (p.1 + u - 2) (p.2 + v - 2)
  let a0 := fun t => ngb 1 t
  let a1 := fun t => ngb t 1
  (((List.range 5).map fun u => ((List.range 5).map fun v => ngb u v).sum).sum / 25,
    (quot (dotPrime a0) (dotSec a0)).map (p.1 - ·), (quot (dotPrime a1) (dotSec a1)).map (p.2 - ·))

/-- the same on an image of one dimension.  track.py:762-768 -/
def cgSubpix1 (b : Nat → F) (p : Nat) : F × Option F :=
  let a := fun t => b (p + t - 2)
  (((List.range 5).map a).sum / 5, (quot (dotPrime a) (dotSec a)).map (p - ·))

/-! ### One octave -/

/-- `grey_erosion(layers, [3, 3, 3])` of `n` layers.  track.py:816 -/
def eroded (n H W : Nat) (d : Nat → Nat → Nat → F) (l i j : Nat) : F :=
  ((three n l).flatMap fun t => (three H i).flatMap fun u => (three W j).map fun v => d t u v).foldl min
    (d l i j)

/-- whether an index is kept by `bi[0:r] = False`, `bi[-r:] = False`: with `r = 0` the second one is the
whole axis.  track.py:865-866 -/
def keptAxis (n r i : Nat) : Bool := decide (r ≤ i) && (if r = 0 then false else decide (i + r < n))

/-- `OctaveBlobFinder.initialize_binary` without the first layer; `n` layers of differences; `sizes` are those of
`get_iterative_radii`.  track.py:820-885 -/
def ocBinary (n H W : Nat) (d : Nat → Nat → Nat → F) (sizes : Nat → Nat) (maxedge : F)
    (maxDoG : Option F) (l i j : Nat) : Bool :=
  decide (d l i j = eroded n H W d l i j) && decide (d l i j < maxDoG.getD 0) && decide (1 < d l i j ^ 2 + 1)
  && decide (l ≠ 0 ∧ l ≠ n - 1)
  && (keptAxis W (sizes l) j && keptAxis H (sizes l) i)
  && (if 0 < maxedge then !isEdge maxedge (hess (d l) i j) else true)

/-- `measurements.label` -/
abbrev Labeller3 := (Nat × Nat × Nat → Bool) → Nat × Nat × Nat → Nat

/-- the pixels of the neighbourhood of `OctaveBlobFinder.subpix`.  track.py:936-943 -/
def window (r : Nat) : List (Nat × Nat × Nat) :=
  (List.range 3).flatMap fun t => (List.range (2 * r + 1)).flatMap fun u =>
    (List.range (2 * r + 1)).map fun v => (t, u, v)

/-- the weights and pixels of the center of mass: the pixels that have the label of the center, with the
largest of their values removed unless it is that of the center.  track.py:944-952 -/
def massOf (label : Labeller3) (d : Nat → Nat → Nat → F) (r : Nat) (p : Nat × Nat × Nat) :
    List ((Nat × Nat × Nat) × F) :=
  let ngb := fun (x : Nat × Nat × Nat) => d (p.1 + x.1 - 1) (p.2.1 + x.2.1 - r) (p.2.2 + x.2.2 - r)
  let labels := label fun x => decide (ngb x < 0)
  let here := (window r).filter fun x => labels x == labels (1, r, r)
  let ped := (here.map ngb).foldl max (ngb (1, r, r))
  here.map fun x => (x, if ped ≠ ngb (1, r, r) then ngb x - ped else ngb x)

/-- one coordinate of `measurements.center_of_mass`.  track.py:953-955 -/
def massCenter (coord : Nat × Nat × Nat → Nat) (m : List ((Nat × Nat × Nat) × F)) : Option F :=
  quot (m.map fun x => x.2 * (coord x.1 : F)).sum (m.map fun x => x.2).sum

/-- one line of `OctaveBlobFinder.subpix` with its default method: scale and two coordinates.  What is removed
from the neighbourhood before the scale is computed does not change it.
track.py:933-964 -/
def ocSubpix (label : Labeller3) (d : Nat → Nat → Nat → F) (sizes : Nat → Nat) (p : Nat × Nat × Nat) :
    F × Option F × Option F :=
  let r := sizes p.1
  let m := massOf label d r p
  let n := fun t => d (p.1 + t - 1) p.2.1 p.2.2
  let denom := n 2 - 2 * n 1 + n 0
  ((if 1 < (|denom| + 1) ^ 2 then (p.1 : F) - (n 2 - n 0) / 2 / denom else (p.1 : F)),
    (massCenter (fun x => x.2.1) m).map (fun c => c - (r : F) + (p.2.1 : F)),
    (massCenter (fun x => x.2.2) m).map (fun c => c - (r : F) + (p.2.2 : F)))

noncomputable section

/-- the target blurs of `get_iterative_radii`.  track.py:796 -/
def sigmaOf (k : ℝ) (n l : Nat) : ℝ := k * (2 : ℝ) ^ ((l : ℝ) / n)

/-- the iterative blurs of `get_iterative_radii`.  track.py:798 -/
def sigmaIter (k : ℝ) (n l : Nat) : ℝ := √(sigmaOf k n (l + 1) ^ 2 - sigmaOf k n l ^ 2)

/-- the variance of the blur of each layer of `fill`, from that of the image it is given: Gaussian filters
one after the other add their variances.  track.py:810-811 -/
def layerVar (var k : ℝ) (n : Nat) : Nat → ℝ
  | 0 => var
  | l + 1 => layerVar var k n l + sigmaIter k n l ^ 2

/-- what `OctaveBlobFinder.__call__` returns of a line of `subpix`: `(x, y, r, value)`.  The value is not
modelled.  track.py:967-980 -/
def ocRow (k : ℝ) (n : Nat) (c : ℝ × ℝ × ℝ) : ℝ × ℝ × ℝ := (c.2.2, c.2.1, scale2radius c.1 k n 2)

end

end Track
end Py
end Colloids
