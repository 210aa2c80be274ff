import Verif.RStar.Spec
import Verif.Index.Model
import Verif.Py.BondsModel
import Mathlib.Analysis.SpecialFunctions.Log.Basic
import Mathlib.Analysis.SpecialFunctions.Trigonometric.Basic

/-! # Links, distributions and two body entropy of python/colloids/particles.py:430-800

The code in C++ that these functions give to `weave` (which is not imported: lines 24-25 are commented out), with the R* tree of
multiscale/RStarTree, that is the one of lib/RStarTree. Exact real arithmetic. `blitz` arrays are not checked. The loops over the particles are
parallel: the order of the links, but not what is counted, depends on the threads; here it is the order of the particles. -/

namespace Colloids
namespace Py
namespace Pairs

noncomputable section
open Bonds (sqd)
variable {d : Nat}

/-- A box around a position, for example python/colloids/particles.py:733-739. -/
def boxOf (x : Fin d → ℝ) (r : ℝ) : Box d ℝ := ⟨fun a => x a - r, fun a => x a + r⟩

/-- `tree.Insert(p, bb)` for each particle, for example python/colloids/particles.py:729-741. -/
def treeOf (P : RParams ℝ) (H : Heur d ℝ) (boxes : List (Box d ℝ)) : R (RTree d ℝ Nat) :=
  RTree.ofList P H (boxes.zipIdx.map fun x => ⟨x.1, x.2⟩)

/-- `overlapping`, sorted and without repetitions, for example python/colloids/particles.py:754-756. -/
def overlapping (t : RTree d ℝ Nat) (b : Box d ℝ) : List Nat := sortUnique ((t.queryOverlapping b).map (·.val))

/-- The boxes of half side `maxdist` times the radius, python/colloids/particles.py:731-739, 436-443. -/
def ballBoxes (pos : List (Fin d → ℝ)) (radii : List ℝ) (maxdist : ℝ) : R (List (Box d ℝ)) :=
  pos.zipIdx.mapM fun x => do
    let r ← getR radii x.2
    .ok (boxOf x.1 (maxdist * r))

/-! ## Links -/

/-- A particle `q` of the list `overlapping`, python/colloids/particles.py:759-769. -/
def linkTest (pos0 : List (Fin d → ℝ)) (radii0 : List ℝ) (maxdist : ℝ) (x1 : Fin d → ℝ) (r1 : ℝ) (p q : Nat) : R (Option ((Nat × Nat) × ℝ)) := do
  let x0 ← getR pos0 q
  let r0 ← getR radii0 q
  .ok (if sqd x1 x0 < (maxdist * (r1 + r0)) ^ 2 then some ((q, p), Real.sqrt (sqd x1 x0)) else none)

/-- The links of a particle `p`, python/colloids/particles.py:746-770. -/
def linksOf (t : RTree d ℝ Nat) (pos0 : List (Fin d → ℝ)) (radii0 radii1 : List ℝ) (maxdist : ℝ) (x : (Fin d → ℝ) × Nat) :
    R (List ((Nat × Nat) × ℝ)) := do
  let r1 ← getR radii1 x.2
  let l ← (overlapping t (boxOf x.1 (maxdist * r1))).mapM (linkTest pos0 radii0 maxdist x.1 r1 x.2)
  .ok (l.filterMap id)

/-- `get_links`, python/colloids/particles.py:721-782: the pairs and their distances. `len(pairs)/2` (782), that is not an integer in python 3, is
understood as the integer quotient. -/
def getLinks (P : RParams ℝ) (H : Heur d ℝ) (pos0 : List (Fin d → ℝ)) (radii0 : List ℝ) (pos1 : List (Fin d → ℝ)) (radii1 : List ℝ)
    (maxdist : ℝ) : R (List (Nat × Nat) × List ℝ) := do
  let boxes ← ballBoxes pos0 radii0 maxdist
  let t ← treeOf P H boxes
  let ls ← pos1.zipIdx.mapM (linksOf t pos0 radii0 radii1 maxdist)
  .ok (ls.flatten.map (·.1), ls.flatten.map (·.2))

/-- The distance of `get_links_size`, python/colloids/particles.py:790-791. -/
def sizeDist (radii0 radii1 : List ℝ) (x : (Nat × Nat) × ℝ) : R ℝ := do
  let r ← getR radii0 x.1.1
  let s ← getR radii1 x.1.2
  .ok (x.2 + (r - s) ^ 2)

/-- `get_links_size`, python/colloids/particles.py:784-800. -/
def getLinksSize (P : RParams ℝ) (H : Heur d ℝ) (pos0 : List (Fin d → ℝ)) (radii0 : List ℝ) (pos1 : List (Fin d → ℝ)) (radii1 : List ℝ)
    (maxdist : ℝ) : R (List (Nat × Nat) × List ℝ) := do
  let r ← getLinks P H pos0 radii0 pos1 radii1 maxdist
  let ds ← (r.1.zip r.2).mapM (sizeDist radii0 radii1)
  .ok (r.1, ds)

/-! ## Distributions -/

/-- A squared distance is counted, for example python/colloids/particles.py:468-472. -/
def binOne (N : Nat) (maxdist : ℝ) (g : List Nat) (x : ℝ) : R (List Nat) :=
  if 1 ≤ x * (1 / maxdist ^ 2) then .ok g else modifyR g ⌊Real.sqrt (x * (1 / maxdist ^ 2)) * N⌋₊ (· + 1)

/-- Nothing is counted for a pair that is left out. -/
def binOpt (N : Nat) (maxdist : ℝ) (g : List Nat) : Option ℝ → R (List Nat)
  | none => .ok g
  | some x => binOne N maxdist g x

/-- A particle `j` of the list `overlapping`, for example python/colloids/particles.py:462-473. `sel` gives the squared distance, or nothing if the pair
is left out. -/
def countStep (N : Nat) (maxdist : ℝ) (sel : Nat → Nat → R (Option ℝ)) (i : Nat) (g : List Nat) (j : Nat) : R (List Nat) :=
  if i = j then .ok g
  else do
    let o ← sel i j
    binOpt N maxdist g o

/-- The loop over the particles, for example python/colloids/particles.py:448-474: `boxes` are those of the tree, `queries` those of the queries. -/
def treeRdf (P : RParams ℝ) (H : Heur d ℝ) (boxes queries : List (Box d ℝ)) (inside : List Bool) (N : Nat) (maxdist : ℝ)
    (sel : Nat → Nat → R (Option ℝ)) : R (List Nat) := do
  let t ← treeOf P H boxes
  queries.zipIdx.foldlM (fun g x => do
    let b ← getR inside x.2
    if b then (overlapping t x.1).foldlM (countStep N maxdist sel x.2) g else .ok g) (List.replicate N 0)

/-- python/colloids/particles.py:467 -/
def srdfSel (pos : List (Fin d → ℝ)) (radii : List ℝ) (i j : Nat) : R (Option ℝ) := do
  let xi ← getR pos i
  let xj ← getR pos j
  let ri ← getR radii i
  let rj ← getR radii j
  .ok (some (sqd xj xi / (ri + rj) ^ 2))

/-- `get_srdf`, python/colloids/particles.py:430-485. -/
def getSrdf (P : RParams ℝ) (H : Heur d ℝ) (pos : List (Fin d → ℝ)) (radii : List ℝ) (inside : List Bool) (N : Nat) (maxdist : ℝ) :
    R (List Nat) := do
  let boxes ← ballBoxes pos radii maxdist
  treeRdf P H boxes boxes inside N maxdist (srdfSel pos radii)

/-- python/colloids/particles.py:527-531. The test of the distance (528) is done after. -/
def planarSel (pos : List (Fin 3 → ℝ)) (maxsin : ℝ) (i j : Nat) : R (Option ℝ) := do
  let xi ← getR pos i
  let xj ← getR pos j
  .ok (if maxsin * sqd xj xi < (xj 2 - xi 2) ^ 2 then none else some (sqd xj xi))

/-- `get_planar_rdf`, python/colloids/particles.py:488-547, in three dimensions. -/
def getPlanarRdf (P : RParams ℝ) (H : Heur 3 ℝ) (pos : List (Fin 3 → ℝ)) (inside : List Bool) (N : Nat) (maxdist maxangle : ℝ) : R (List Nat) :=
  treeRdf P H (pos.map (boxOf · maxdist)) (pos.map (boxOf · maxdist)) inside N maxdist (planarSel pos (Real.sin maxangle ^ 2))

/-- The box of the query of `get_slice_rdf`, python/colloids/particles.py:574-581. -/
def sliceBox (maxdist width : ℝ) (x : Fin 3 → ℝ) : Box 3 ℝ :=
  ⟨fun a => if a.val < 2 then x a - maxdist else x a - 1 / 2 * width, fun a => if a.val < 2 then x a + maxdist else x a + 1 / 2 * width⟩

/-- python/colloids/particles.py:590-592; `abs` is understood as that of real numbers. -/
def sliceSel (pos : List (Fin 3 → ℝ)) (width : ℝ) (i j : Nat) : R (Option ℝ) := do
  let xi ← getR pos i
  let xj ← getR pos j
  .ok (if 1 / 2 * width < |xj 2 - xi 2| then none else some ((xj 0 - xi 0) ^ 2 + (xj 1 - xi 1) ^ 2))

/-- `get_slice_rdf`, python/colloids/particles.py:549-610. -/
def getSliceRdf (P : RParams ℝ) (H : Heur 3 ℝ) (pos : List (Fin 3 → ℝ)) (inside : List Bool) (N : Nat) (maxdist width : ℝ) : R (List Nat) :=
  treeRdf P H (pos.map (boxOf · maxdist)) (pos.map (sliceBox maxdist width)) inside N maxdist (sliceSel pos width)

/-- A pair of `spatial_correlation`, python/colloids/particles.py:697-709; the arrays `h` and `g` are kept together. -/
def correlStep (pos : List (Fin d → ℝ)) (values : List ℝ) (N : Nat) (maxsq : ℝ) (i : Nat) (hg : List (ℝ × Nat)) (j : Nat) : R (List (ℝ × Nat)) :=
  if i = j then .ok hg
  else do
    let xi ← getR pos i
    let xj ← getR pos j
    let vi ← getR values i
    let vj ← getR values j
    if maxsq ≤ sqd xi xj then .ok hg else modifyR hg ⌊Real.sqrt (sqd xi xj / maxsq) * N⌋₊ fun x => (x.1 + vi * vj, x.2 + 1)

/-- `spatial_correlation`, python/colloids/particles.py:680-719. -/
def spatialCorrelation (pos : List (Fin d → ℝ)) (isCenter : List Bool) (values : List ℝ) (N : Nat) (maxdist : ℝ) : R (List (ℝ × Nat)) :=
  if pos.length ≠ values.length ∨ isCenter.length ≠ pos.length then .error .logicError
  else isCenter.zipIdx.foldlM (fun hg x =>
    if x.1 then (List.range pos.length).foldlM (correlStep pos values N (maxdist ^ 2) x.2) hg else .ok hg) (List.replicate N (0, 0))

/-! ## Two body entropy -/

/-- `factors`, python/colloids/particles.py:652-654. -/
def s2Factor (nd av binlength : ℝ) (j : Nat) : ℝ :=
  1 / (av * nd * (4 * Real.pi / 3 * (((j + 1 : Nat) : ℝ) * binlength) ^ 3 - 4 * Real.pi / 3 * ((j : ℝ) * binlength) ^ 3))

/-- The term of a bin, python/colloids/particles.py:661-667. -/
def s2Term (nd av binlength : ℝ) (j n : Nat) : ℝ :=
  if n < 1 then 1
  else (n : ℝ) * s2Factor nd av binlength j * Real.log ((n : ℝ) * s2Factor nd av binlength j) - (n : ℝ) * s2Factor nd av binlength j + 1

/-- `get_s2`, python/colloids/particles.py:649-678; `nd` is a floating point number. -/
def getS2 (rdfbin : List (List Nat)) (nd av binlength : ℝ) : List ℝ :=
  rdfbin.map fun row => (row.zipIdx.map fun x => s2Term nd av binlength x.2 x.1).sum * (-nd / 2)

end

end Pairs
end Py
end Colloids
