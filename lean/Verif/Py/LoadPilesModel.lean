import Mathlib.Algebra.Order.Field.Rat
import Verif.Common

/-! # Reading of the piles of 2D centers: `load_clusters`, python/colloids/track.py:300-332

The numbers of the files are given: the parsing of the text and the names of the files are not modelled. -/

namespace Colloids
namespace Py
namespace LoadPiles

/-- A line of a file of centers: the first two columns and the last one. -/
structure Center where
  x : ℚ
  y : ℚ
  r : ℚ
  deriving DecidableEq

/-- A point of a pile, track.py:326-328 -/
structure Point where
  x : ℚ
  y : ℚ
  z : ℚ
  r : ℚ
  intensity : ℚ
  deriving DecidableEq

/-- The files of a slice: centers and intensities. -/
structure SliceFiles where
  dat : List Center
  intensity : List ℚ

/-- `np.hstack`, track.py:315-318. `np.loadtxt` of a line is not an array of lines: a single intensity has no dimension to index (`IndexError`), and a single center, or
none, is not stacked with a column (`ValueError`). -/
def stack (f : SliceFiles) : R (List (Center × ℚ)) :=
  if f.intensity.length = 1 then .error .outOfRange
  else if f.dat.length ≤ 1 ∨ f.dat.length ≠ f.intensity.length then .error .invalidArgument
  else .ok (f.dat.zip (f.intensity.map fun i => -i))

/-- The slice `z`, track.py:315-319; a file that does not exist is an `IOError`. -/
def readSlice (disk : Nat → Option SliceFiles) (z : Nat) : R (List (Center × ℚ)) :=
  match disk z with
  | some f => stack f
  | none => .error .logicError

/-- A point, track.py:326-328, for a position that is not negative -/
def point (ratio : ℚ) (zsp : Nat × List (Center × ℚ) × Nat) : R Point :=
  match zsp.2.1[zsp.2.2]? with
  | some c => .ok ⟨c.1.x, c.1.y, zsp.1 * ratio, c.1.r, c.2⟩
  | none => .error .outOfRange

/-- A pile, track.py:325-332; `zip` stops at the shortest. -/
def pile (ratio : ℚ) (slices : List (List (Center × ℚ))) (cl : Nat × List Nat) : R (List Point) :=
  ((List.range' cl.1 cl.2.length).zip ((slices.drop cl.1).zip cl.2)).mapM (point ratio)

/-- `load_clusters`, track.py:300-332, after the parsing: `ZXratio`, `offset`, `size`, and the first slice and positions of each pile -/
def loadClusters (disk : Nat → Option SliceFiles) (ratio : ℚ) (_offset size : Nat) (clusters : List (Nat × List Nat)) : R (List (List Point)) := do
  let slices ← (List.range size).mapM (readSlice disk)
  clusters.mapM (pile ratio slices)

end LoadPiles
end Py
end Colloids
