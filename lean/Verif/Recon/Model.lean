import Verif.Centers.Model
import Verif.MTraj.Model

/-!
# Model of `multiscale/src/reconstructor.cpp`: from 2D centers to 3D clusters

Exact arithmetic. `std::sort` (used by the removal of the overlaps) and the 1D finder (used by
`get_blobs`) are parameters.
-/

namespace Colloids

/-- `Reconstructor` multiscale/src/reconstructor.hpp:20-55. -/
structure Recon (G : Type) where
  trajectories : Option MIndex
  clusters : List (List (Center 3 G))
  lastFrame : List (Center 2 G)

namespace Recon
variable {G : Type} [Field G] [LinearOrder G]

/-- Constructor, and `clear` reconstructor.cpp:27-32. -/
def new : Recon G := ⟨none, [], []⟩

/-- `empty` reconstructor.hpp:32. -/
def empty (s : Recon G) : Bool := s.trajectories.isNone

/-- `size` reconstructor.hpp:33. -/
def size (s : Recon G) : Nat :=
  match s.trajectories with
  | none => 0
  | some ti => ti.pos2tr.length

/-- Squared distance in the plane, reconstructor.cpp:219, 260. -/
def sqDist2 {d : Nat} (a b : Center (d + 2) G) : G :=
  (a.coords 0 - b.coords 0) ^ 2 + (a.coords 1 - b.coords 1) ^ 2

/-- `links_by_RStarTree` reconstructor.cpp:233-270. The three vectors that are filled together are
one list of triples. -/
def linksByRStarTree (last fr : List (Center 2 G)) (tree : RTree 2 G Nat) (maxDist : G) :
    R (List (G × Nat × Nat)) :=
  (List.range last.length).foldlM (fun acc p => do
    let x ← getR last p
    let ngb := (tree.queryOverlapping (x.getBBMargin maxDist)).map (·.val)
    ngb.foldlM (fun acc q => do
      let y ← getR fr q
      pure (if sqDist2 x y < maxDist * maxDist then acc ++ [(sqDist2 x y, p, q)] else acc)) acc) []

/-- `links_by_brute_force` reconstructor.cpp:208-227. -/
def linksByBruteForce (last fr : List (Center 2 G)) (tolerance : G) : List (G × Nat × Nat) :=
  last.zipIdx.flatMap fun xf => fr.zipIdx.filterMap fun yt =>
    if sqDist2 xf.1 yt.1 < ((xf.1.r + yt.1.r) * tolerance) ^ 2 then
      some (sqDist2 xf.1 yt.1, xf.2, yt.2) else none

/-- One turn of the loop updating the clusters, reconstructor.cpp:61-70. -/
def growStep (ti : MIndex) (t oldTraj : Nat) (fr : List (Center 2 G))
    (cls : List (List (Center 3 G))) (p : Nat) : R (List (List (Center 3 G))) := do
  let tr ← ti.getTraj t p
  let c ← getR fr p
  if tr < oldTraj then modifyR cls tr (· ++ [c.raise (t : G)])
  else pure (cls ++ [[c.raise (t : G)]])

/-- Continue with the index if the method did not raise a fault. -/
def afterIndex (r : Except Fault Unit × MIndex) : R MIndex :=
  match r.1 with
  | .ok _ => .ok r.2
  | .error e => .error e

/-- `push_back` reconstructor.cpp:36-74. The overlaps are removed with the default tolerance 1/2. -/
def pushBack (P : RParams G) (H : Heur 2 G) (sort : List (Center 2 G) → List (Center 2 G))
    (s : Recon G) (frame : List (Center 2 G)) (maxDist : G) : R (Recon G) := do
  let ft ← Center.removeOverlapping P H sort frame (1 / 2)
  let fr := ft.1
  match s.trajectories with
  | none =>
    pure ⟨some (MIndex.init fr.length), s.clusters ++ fr.map (fun c => [c.raise 0]), fr⟩
  | some ti => do
    let links ← linksByRStarTree s.lastFrame fr ft.2 maxDist
    let ti' ← afterIndex (MIndex.addFrameLinks fr.length (links.map (·.1)) (links.map (·.2.1))
      (links.map (·.2.2)) ti)
    let cls ← (List.range fr.length).foldlM
      (growStep ti' ti.pos2tr.length ti.tr2pos.length fr) s.clusters
    pure ⟨some ti', cls, fr⟩

/-- The gradient computed by `split_clusters`, reconstructor.cpp:83-87. The iterators `p` and `q` are
not moved by the loop. -/
def gradient (cl : List (Center 3 G)) : R (List G) :=
  (List.range (cl.length - 2)).mapM fun _ => do
    let p ← getR cl 0
    let q ← getR cl 2
    pure (sqDist2 p q)

/-- Local maxima of the gradient, reconstructor.cpp:89-92. -/
def maxima (grad : List G) : R (List Nat) :=
  (List.range (grad.length - 2)).foldlM (fun acc i => do
    let a ← getR grad i
    let b ← getR grad (i + 1)
    let c ← getR grad (i + 2)
    pure (if a ≤ b ∧ c ≤ b ∧ 1 < b then acc ++ [i + 2] else acc)) []

/-- Move the end of cluster `cl`, from position `it` on, to a new cluster, reconstructor.cpp:96-99.
Advancing past the end is undefined behaviour. -/
def cutAt (cl : Nat) (cls : List (List (Center 3 G))) (it : Nat) : R (List (List (Center 3 G))) := do
  let c ← getR cls cl
  if it ≤ c.length then pure (cls.set cl (c.take it) ++ [c.drop it]) else .error .ub

/-- Splitting of one cluster, reconstructor.cpp:80-100. -/
def splitOne (cls : List (List (Center 3 G))) (cl : Nat) : R (List (List (Center 3 G))) := do
  let c ← getR cls cl
  if c.length < 3 then pure cls else do
    let grad ← gradient c
    let blobs ← maxima grad
    blobs.reverse.foldlM (cutAt cl) cls

/-- `split_clusters` reconstructor.cpp:76-101. -/
def splitClusters (cls : List (List (Center 3 G))) : R (List (List (Center 3 G))) :=
  (List.range cls.length).foldlM splitOne cls

/-- A center between `a` and the next one, reconstructor.cpp:189-198. -/
def between (a b : Center 3 G) (frac : G) : Center 3 G where
  coords i := if i = 2 then a.coords 2 + (frac * (b.coords 2 - a.coords 2) - 1 / 2)
    else a.coords i + frac * (b.coords i - a.coords i)
  r := a.r + frac * (b.r - a.r)
  intensity := a.intensity + frac * (b.intensity - a.intensity)

/-- What `get_blobs` makes of one blob found at `pos + frac` in the padded signal of a cluster,
reconstructor.cpp:177-199. `pos = size + margin` passes the test and dereferences `end()`. -/
def blobCenter (cl : List (Center 3 G)) (b : Nat × G) : R (Option (Center 3 G)) :=
  if b.1 < cl.length ∨ cl.length + cl.length < b.1 then pure none else do
    let a ← getR cl (b.1 - cl.length)
    match cl[b.1 - cl.length + 1]? with
    | none => pure (some a)
    | some n => pure (some (between a n b.2))

/-- The padded signal given to the 1D finder, reconstructor.cpp:162-171: the radii, with on each side
as many values as there are radii, 0.9 times the first and the last one. -/
def paddedSignal (cl : List (Center 3 G)) : List G :=
  match cl.head?, cl.getLast? with
  | some f, some l => List.replicate cl.length (9 / 10 * f.r) ++ cl.map (·.r) ++
      List.replicate cl.length (9 / 10 * l.r)
  | _, _ => []

/-- One turn of the loop on the blobs of a cluster, reconstructor.cpp:177-199. -/
def addBlob (cl : List (Center 3 G)) (acc : List (Center 3 G)) (b : Nat × G) :
    R (List (Center 3 G)) := do
  match ← blobCenter cl b with
  | none => pure acc
  | some c => pure (acc ++ [c])

/-- `get_blobs` reconstructor.cpp:142-206. `finder` stands for the 1D multiscale finder followed by
`removeOverlapping_brute_force`; it returns the integer and fractional parts of the positions. -/
def getBlobs (finder : List G → List (Nat × G)) (cls : List (List (Center 3 G))) :
    R (List (Center 3 G)) :=
  cls.foldlM (fun acc cl =>
    if cl.length * 3 < 6 then pure acc
    else (finder (paddedSignal cl)).foldlM (addBlob cl) acc) []

end Recon

end Colloids
