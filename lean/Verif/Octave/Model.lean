import Verif.Common
import Mathlib.Algebra.Field.Defs
import Mathlib.Algebra.Order.Field.Basic

/-!
# The octave finder: local minima of the scale space

`multiscale/src/octavefinder.{hpp,cpp}`: detection of the local minima of the differences of
Gaussians by the dynamic block algorithm, in one and two dimensions.

Pixels (`float`) and `double` are elements of a linearly ordered field `G`.  The test
`1 + pow(x, 2) > 1`, which only makes sense with rounding, is a parameter `nz : G → Bool` of
the model.  Images are functions of their indices; every access goes through a bound check and
an access out of the image is `Fault.ub`.
-/

namespace Colloids
namespace Octave

variable {G : Type} [Field G] [LinearOrder G]

/-- Scan of `std::min_element` after the first element: `best` is the position and the value of
the first smallest element so far, `i` the position of the next element. -/
def minFrom (best : Nat × G) (i : Nat) : List G → Nat × G
  | [] => best
  | x :: l => minFrom (if x < best.2 then (i, x) else best) (i + 1) l

/-- `std::min_element(begin, end)` and the value there (octavefinder.cpp 368, 447, 1073). -/
def minElement : List G → R (Nat × G)
  | [] => .error .ub
  | x :: l => .ok (minFrom (0, x) 1 l)

/-- Values of the index of `for(int j = lo; j < hi; j += 2)` (octavefinder.cpp 348, 352, 360,
433, 440, 501, 508, 512, 513). -/
def steps (lo hi : Nat) : List Nat := (List.range ((hi - lo + 1) / 2)).map (fun m => lo + 2 * m)

/-- The parts of `OctaveFinder` that the detection reads (octavefinder.hpp 65-72, sizes of the
containers in octavefinder.cpp 37-50): `nbLayers = binary.size()`, `nbLayers + 2` layers (DoG),
`nbLayers + 3` Gaussian layers, `width` rows and `height` columns (octavefinder.hpp 28-29).
`layers k j i` is `layers[k](j, i)`.  The 1D finder has one row. -/
structure Finder (G : Type) where
  nbLayers : Nat
  width : Nat
  height : Nat
  sizes : List Nat
  layersG : Nat → Nat → Nat → G
  layers : Nat → Nat → Nat → G

/-- `this->layers[k](j, i)`. Simplified: `cv::Mat_::operator()` with a column out of range would
read the next row; here it is undefined behaviour as well. -/
def Finder.layer (o : Finder G) (k j i : Nat) : R G :=
  if k < o.nbLayers + 2 ∧ j < o.width ∧ i < o.height then .ok (o.layers k j i) else .error .ub

/-- `this->layersG[k](j, i)`. -/
def Finder.gauss (o : Finder G) (k j i : Nat) : R G :=
  if k < o.nbLayers + 3 ∧ j < o.width ∧ i < o.height then .ok (o.layersG k j i) else .error .ub

/-- What the detection produces (octavefinder.hpp 66, 70): the binary images, indexed like the
centers, and the list of the centers with pixel resolution. -/
structure Det (π : Type) where
  binary : π → Bool
  centers : List π

/-- `*b = v` with `b` pointing to the binary pixel of `p`, then `push_back(p)` if `v`. -/
def Det.mark {π : Type} [DecidableEq π] (d : Det π) (p : π) (v : Bool) : Det π :=
  { binary := fun q => if q = p then v else d.binary q
    centers := if v then d.centers ++ [p] else d.centers }

/-- `ratio > max_ratio` with `ratio = pow(h0 + h1, 2) / (4.0 * h0 * h1)` (octavefinder.cpp 406,
1114). When the divisor is zero the quotient is infinite, unless the numerator is zero as
well: not a number, not above anything. (A divisor equal to minus zero is not considered.) -/
def ratioAbove (maxRatio h0 h1 : G) : Bool :=
  if 4 * h0 * h1 = 0 then decide (h0 + h1 ≠ 0)
  else decide (maxRatio < (h0 + h1) ^ 2 / (4 * h0 * h1))

/-- The rejection of elongated objects from the Hessian (octavefinder.cpp 405-407,
1111-1117). -/
def edge (nz : G → Bool) (maxRatio h0 h1 h2 : G) : Bool :=
  let detH := h0 * h1 - h2 ^ 2
  (decide (detH < 0) && nz detH) || ratioAbove maxRatio h0 h1

/-- The eight pixels of a block in the order of `ngb` (octavefinder.cpp 354-367): layer, row,
column. -/
def offsets8 : List (Nat × Nat × Nat) :=
  [(0,0,0), (0,0,1), (0,1,0), (0,1,1), (1,0,0), (1,0,1), (1,1,0), (1,1,1)]

/-- The 27 pixels visited by the triple loop around `(mk, mj, mi)` (octavefinder.cpp 386-388). -/
def around3 (mk mj mi : Nat) : List (Nat × Nat × Nat) :=
  [mk - 1, mk, mk + 1].flatMap fun k2 =>
    [mj - 1, mj, mj + 1].flatMap fun j2 =>
      [mi - 1, mi, mi + 1].map fun i2 => (k2, j2, i2)

/-- `OctaveFinder::initialize_binary`, body of the loops for the block at `(k, j, i)`
(octavefinder.cpp 361-415). -/
def block2 (nz : G → Bool) (maxRatio : G) (o : Finder G) (d : Det (Nat × Nat × Nat))
    (b : Nat × Nat × Nat) : R (Det (Nat × Nat × Nat)) := do
  let k := b.1
  let j := b.2.1
  let i := b.2.2
  let ngb ← offsets8.mapM (fun e => o.layer (k + e.1) (j + e.2.1) (i + e.2.2))
  let (ml, v) ← minElement ngb
  if 0 ≤ v then pure d
  else do
    let mi := i + ml % 2
    let mj := j + ml / 2 % 2
    let mk := k + ml / 4 % 2
    if o.nbLayers < mk then pure d
    else do
      let s ← getR o.sizes mk
      if ¬ (s ≤ mj ∧ mj + s < o.width ∧ s ≤ mi ∧ mi + s < o.height) then pure d
      else do
        let v1 ← (around3 mk mj mi).foldlM (fun ok p =>
          if ok && (p.1 < k || p.2.1 < j || p.2.2 < i || k + 1 < p.1 || j + 1 < p.2.1 || i + 1 < p.2.2)
          then do
            let x ← o.layer p.1 p.2.1 p.2.2
            pure (decide (v ≤ x))
          else pure ok) (decide (v < 0) && nz v)
        if v1 then do
          let c ← o.layer mk mj mi
          let h0a ← o.layer mk (mj - 1) mi
          let h0b ← o.layer mk (mj + 1) mi
          let h1a ← o.layer mk mj (mi - 1)
          let h1b ← o.layer mk mj (mi + 1)
          let h2a ← o.layer mk (mj - 1) (mi - 1)
          let h2b ← o.layer mk (mj + 1) (mi + 1)
          let h2c ← o.layer mk (mj + 1) (mi - 1)
          let h2d ← o.layer mk (mj - 1) (mi + 1)
          pure (d.mark (mi, mj, mk) (! edge nz maxRatio (h0a - 2 * c + h0b) (h1a - 2 * c + h1b)
            (h2a + h2b - h2c - h2d)))
        else pure (d.mark (mi, mj, mk) false)

/-- `max(this->sizes[k]+1, 3)` (octavefinder.cpp 351, 439). -/
def margin (o : Finder G) (k : Nat) : R Nat := do
  let s ← getR o.sizes k
  pure (max (s + 1) 3)

/-- `OctaveFinder::initialize_binary` (octavefinder.cpp 340-419). The loops over the rows and
the columns are one loop over the blocks of a layer, in the same order. -/
def initializeBinary2 (nz : G → Bool) (maxRatio : G) (o : Finder G) :
    R (Det (Nat × Nat × Nat)) :=
  (steps 1 (o.nbLayers + 1)).foldlM (fun d k => do
    let si ← margin o k
    ((steps si (o.width - si)).flatMap (fun j =>
      (steps si (o.height - si)).map (fun i => (k, j, i)))).foldlM (block2 nz maxRatio o) d)
    { binary := fun _ => false, centers := [] }

/-- The four pixels of a block of the 1D finder (octavefinder.cpp 443-446): layer, column. -/
def offsets4 : List (Nat × Nat) := [(0,0), (0,1), (1,0), (1,1)]

/-- The 9 pixels visited by the double loop of the 1D finder (octavefinder.cpp 460-461). -/
def around2 (mk mi : Nat) : List (Nat × Nat) :=
  [mk - 1, mk, mk + 1].flatMap fun k2 => [mi - 1, mi, mi + 1].map fun i2 => (k2, i2)

/-- The rejection of edges in 1D: the ratio of the Laplacian to the gradient must be above one
half (octavefinder.cpp 468-469). A null gradient gives an infinite ratio, or not a number when
the Laplacian is null too. -/
def steep (a v b : G) : Bool :=
  if b - a = 0 then decide (b + a - 2 * v ≠ 0)
  else decide (1 / 2 < |(b + a - 2 * v) / (b - a)|)

/-- `OctaveFinder1D::initialize_binary`, body of the loop at column `i` of layer `k`; `q` is the
column the pointers `ngb_ptr` have reached (octavefinder.cpp 442-476). -/
def block1 (nz : G → Bool) (o : Finder G) (d : Det (Nat × Nat)) (b : Nat × Nat × Nat) :
    R (Det (Nat × Nat)) := do
  let k := b.1
  let i := b.2.1
  let q := b.2.2
  let ngb ← offsets4.mapM (fun e => o.layer (k + e.1) 0 (q + e.2))
  let (ml, v) ← minElement ngb
  if 0 ≤ v then pure d
  else do
    let mi := i + ml % 2
    let mk := k + ml / 2 % 2
    if o.nbLayers < mk then pure d
    else do
      let s ← getR o.sizes mk
      if ¬ (s ≤ mi ∧ mi + s < o.height) then pure d
      else do
        let v1 ← (around2 mk mi).foldlM (fun ok p =>
          if ok && (p.1 < k || p.2 < i || k + 1 < p.1 || i + 1 < p.2) then do
            let c ← o.layer mk 0 mi
            let x ← o.layer p.1 0 p.2
            pure (decide (c ≤ x))
          else pure ok) (decide (v < 0) && nz v)
        if v1 then do
          let c ← o.gauss mk 0 mi
          let x ← o.gauss mk 0 (mi - 1)
          let y ← o.gauss mk 0 (mi + 1)
          pure (d.mark (mi, mk) (steep x c y))
        else pure (d.mark (mi, mk) false)

/-- `OctaveFinder1D::initialize_binary` (octavefinder.cpp 426-479). The pointers start at column
`sizes[k]+1` whereas the loop starts at `max(sizes[k]+1, 3)`. -/
def initializeBinary1 (nz : G → Bool) (o : Finder G) : R (Det (Nat × Nat)) :=
  (steps 1 (o.nbLayers + 1)).foldlM (fun d k => do
    let si ← margin o k
    let s ← getR o.sizes k
    ((steps si (o.height - si)).map (fun i => (k, i, s + 1 + (i - si)))).foldlM (block1 nz o) d)
    { binary := fun _ => false, centers := [] }

end Octave
end Colloids
