import Mathlib.Algebra.Order.Floor.Ring
import Mathlib.Data.Rat.Floor
import Mathlib.Algebra.Order.Archimedean.Real.Basic
import Verif.Common
import Verif.Py.TrackFindModel

/-!
# `python/colloids/track.py`: `MultiscaleBlobFinder`

Images of any dimension: a shape and a function of the list of indices, read inside of the shape only.
`gaussian_filter` and the finder of one octave are parameters.  The options `maxedge`, `first_layer`, `maxDoG` are
part of the finder.  Deconvolution is not modelled.
-/

namespace Colloids
namespace Py
namespace Track

noncomputable section

/-- an image -/
structure Img where
  shape : List Nat
  val : List Nat → ℝ

/-- a blob: coordinates, radius, intensity in scale space -/
structure Blob where
  pos : List ℝ
  r : ℝ
  v : ℝ

/-- `np.repeat(im2, 2, a)` along all axes.  track.py:1010-1012 -/
def Img.repeat2 (im : Img) : Img := ⟨im.shape.map (2 * ·), fun ix => im.val (ix.map (· / 2))⟩

/-- `[::2]` along all axes.  track.py:1035-1036 -/
def Img.half (im : Img) : Img := ⟨im.shape.map fun n => (n + 1) / 2, fun ix => im.val (ix.map (2 * ·))⟩

/-- the shapes of the constructor; `up` is its argument `Octave0`.  track.py:987 -/
def shapesOf (shape : List Nat) (nbOctaves : Nat) (up : Bool) : List (List Nat) :=
  (List.range nbOctaves).map fun (o : Nat) =>
    shape.map fun (s : Nat) => ⌈(s : ℚ) * (2 : ℚ) ^ (((if up then 1 else 0 : Nat) : Int) - (o : Int))⌉.toNat

/-- the shapes of the octaves that are kept, with an empty one first if there is no octave -1.
`vstack` of nothing, `min` of no axis are errors.  track.py:985-995 -/
def octavesOf (shape : List Nat) (nbOctaves : Nat) (up : Bool) : R (List (List Nat)) :=
  if nbOctaves = 0 ∨ shape = [] then .error .invalidArgument
  else
    let kept := (shapesOf shape nbOctaves up).filter fun s => s.all fun n => decide (8 < n)
    .ok (if up then kept else List.replicate shape.length 0 :: kept)

/-- the finder of one octave: number of the octave, image, `k`; blobs, and the layer `layersG[-3]` it
leaves.  track.py:779-980 -/
abbrev OctaveFinder := Nat → Img → ℝ → List Blob × Img

/-- a call of an octave, that refuses an image of another shape.  track.py:804 -/
def octCall (find : OctaveFinder) (o : Nat) (shape : List Nat) (im : Img) (k : ℝ) : R (List Blob × Img) :=
  if shape = im.shape then .ok (find o im k) else .error .logicError

/-- the loop over the next octaves: number, shapes, layer left by the previous octave.
track.py:1033-1038 -/
def nextOctaves (find : OctaveFinder) (k : ℝ) : Nat → List (List Nat) → Img → R (List (List Blob))
  | _, [], _ => .ok []
  | o, s :: rest, layer => do
    let r ← octCall find o s layer.half k
    let l ← nextOctaves find k (o + 1) rest r.2
    pure (r.1 :: l)

/-- the lines of each octave.  Octave 1 is called without `k`: the default of `OctaveBlobFinder.__call__` is
1.6.  The layer an octave 1 that is not there would have left is not used.  track.py:1005-1038 -/
def octaveBlobs (find : OctaveFinder) (blur : ℝ → Img → Img) (octaves : List (List Nat)) (im : Img) (k : ℝ)
    (up : Bool) : R (List (List Blob)) := do
  let first ← (if up then do
      let r ← octCall find 0 (octaves.headD []) (blur k im.repeat2) k
      pure [r.1]
    else pure [])
  match octaves.drop 1 with
  | [] => pure first
  | s :: rest => do
    let r ← octCall find 1 s (blur k im) 1.6
    let l ← nextOctaves find k 2 rest r.2
    pure (first ++ r.1 :: l)

/-- the scaling of the lines of octave `o`.  track.py:1041 -/
def Blob.scale (c : ℝ) (b : Blob) : Blob := ⟨b.pos.map (c * ·), c * b.r, b.v⟩

/-- `np.vstack` of the scaled lines, an error if there is no octave.  track.py:1040-1043 -/
def mergeOctaves (up : Bool) (l : List (List Blob)) : R (List Blob) :=
  if l = [] then .error .invalidArgument
  else .ok (l.zipIdx.flatMap fun c =>
    c.1.map (Blob.scale ((2 : ℝ) ^ ((c.2 : Int) - ((if up then 1 else 0 : Nat) : Int)))))

open Classical in
/-- `np.sum((i[:-2]-j[:-2])**2) < (i[-2]+j[-2])**2`.  track.py:1054 -/
def overlaps (a b : Blob) : Bool :=
  decide (((a.pos.zip b.pos).map fun x => (x.1 - x.2) ^ 2).sum < (a.r + b.r) ^ 2)

/-- the loop that keeps the most intense of overlapping blobs.  track.py:1051-1057 -/
def keepIntense (sorted : List Blob) : List Blob :=
  sorted.foldl (fun out i => if out.any fun j => overlaps i j then out else out ++ [i]) []

/-- `centers[np.argsort(centers[:,-1])]` -/
abbrev Sorter := List Blob → List Blob

/-- `MultiscaleBlobFinder.__call__`; `up0` is the argument `Octave0` of the constructor, `up` that of the call.
track.py:999-1059 -/
def multiscale (find : OctaveFinder) (blur : ℝ → Img → Img) (sort : Sorter) (octaves : List (List Nat))
    (im : Img) (k : ℝ) (up0 up removeOverlap : Bool) : R (List Blob) := do
  let up := up && up0
  if octaves = [] then pure []
  else do
    let l ← octaveBlobs find blur octaves im k up
    let centers ← mergeOctaves up l
    if centers.length < 2 then pure centers
    else if !removeOverlap then pure centers
    else pure (keepIntense (sort centers))

end

end Track
end Py
end Colloids
