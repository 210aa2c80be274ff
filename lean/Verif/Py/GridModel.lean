import Verif.Py.LinkerModel
import Mathlib.Analysis.SpecialFunctions.Pow.Real

/-! # Spatial indexing in python: the class `Grid`, python/colloids/particles.py:180-238

Exact real arithmetic. The divisions are natural numbers and the points have as many coordinates as there are divisions. An `IndexError` is given as
`outOfRange`, a failed assertion as `logicError`. The constructor with single numbers instead of lists is not modelled. -/

namespace Colloids
namespace Py

/-- The place of `l[i]` in python: an index that is negative is counted from the end. -/
def place? (n : Nat) (i : Int) : R Nat :=
  if 0 ≤ i then (if i.toNat < n then .ok i.toNat else .error .outOfRange)
  else if 0 ≤ i + n then .ok (i + n).toNat else .error .outOfRange

/-- The attributes of a `Grid`, python/colloids/particles.py:191-197. -/
structure Grid where
  sizes : List ℝ
  divisions : List Nat
  steps : List Nat
  data : List (List Nat)
  index2cell : List Int

namespace Grid

/-- `np.cumprod`, started from a number. -/
def cumprod (m : Nat) : List Nat → List Nat
  | [] => []
  | d :: ds => (m * d) :: cumprod (m * d) ds

/-- `Grid.__init__`, python/colloids/particles.py:182-197. -/
def new (sizes : List ℝ) (divisions : List Nat) : R Grid :=
  if sizes.length ≠ divisions.length then .error .logicError
  else match cumprod 1 divisions with
    | [] => .error .outOfRange
    | c :: cs => .ok ⟨sizes, divisions, 1 :: (c :: cs).dropLast, List.replicate divisions.prod [], []⟩

/-- `__get_cell_id`, python/colloids/particles.py:202-203. -/
def cellId (g : Grid) (coords : List Int) : Int := (List.zipWith (fun (s : Nat) (c : Int) => (s : Int) * c) g.steps coords).sum

/-- `__get_cell`, python/colloids/particles.py:205-206. -/
def cell (g : Grid) (coords : List Int) : R (List Nat) := do idx g.data (← place? g.data.length (g.cellId coords))

noncomputable section

/-- The conversion to `int`, towards zero. -/
def trunc (x : ℝ) : Int := if 0 ≤ x then ⌊x⌋ else ⌈x⌉

/-- `np.array(point*self.__divisions/self.__sizes, int)`, python/colloids/particles.py:209 and 215. -/
def coords (g : Grid) (point : List ℝ) : List Int :=
  List.zipWith (fun (x : ℝ) (y : Nat × ℝ) => trunc (x * y.1 / y.2)) point (g.divisions.zip g.sizes)

/-- `add_point`, python/colloids/particles.py:208-212. -/
def addPoint (g : Grid) (point : List ℝ) : R Grid := do
  let c := g.cellId (g.coords point)
  let k ← place? g.data.length c
  let data ← upd g.data k (· ++ [g.index2cell.length])
  pure { g with data := data, index2cell := g.index2cell ++ [c] }

/-- `range(a, b)`. -/
def intRange (a b : Int) : List Int := (List.range (b - a).toNat).map fun k : Nat => a + (k : Int)

/-- `itertools.product`. -/
def product : List (List Int) → List (List Int)
  | [] => [[]]
  | l :: ls => l.flatMap fun x => (product ls).map (x :: ·)

/-- `get_near`, python/colloids/particles.py:214-221, with `np.unique1d` (that was removed from numpy) understood as `np.unique`: the values sorted and
each one once. -/
def getNear (g : Grid) (point : List ℝ) (d : Nat) : R (List Nat) := do
  let cells ← (product (List.zipWith (fun (c : Int) (div : Nat) => intRange (max 0 (c - d)) (min (div : Int) (c + d + 1)))
    (g.coords point) g.divisions)).mapM g.cell
  pure (cells.flatten.dedup.mergeSort (· ≤ ·))

/-- `get_inside`, python/colloids/particles.py:223-229. -/
def getInside (g : Grid) (d : Nat) : R (List Nat) := do
  let cells ← (product (g.divisions.map fun div : Nat => intRange d ((div : Int) - d))).mapM g.cell
  pure cells.flatten

/-- `iter_pairs`, python/colloids/particles.py:230-238. -/
def iterPairs (g : Grid) (d : Nat) : R (List (Nat × Nat)) := do
  let l ← (product (g.divisions.map fun div : Nat => intRange d ((div : Int) - d))).mapM fun cp => do
    let l ← (product (cp.map fun c => intRange (c - d) (c + d + 1))).mapM fun cq => do
      let ps ← g.cell cp
      let qs ← g.cell cq
      pure ((ps ×ˢ qs).filter fun x => x.1 ≠ x.2)
    pure l.flatten
  pure l.flatten

end

end Grid
end Py
end Colloids
