import Mathlib.Data.List.Dedup
import Verif.Py.LinkerModel

/-!
# Clusters of trajectories and lengths of trajectories of python/colloids/experiment.py

`Txp.get_clusters`, `get_time_clusters`, `Experiment.traj_crea_dest`, `vtk_tracking`.  The connected components of networkx are a parameter.  Not modelled: the text of the files, that
are given as lists of numbers.
-/

namespace Colloids
namespace Py
namespace Follow

/-! ### Clusters -/

/-- the largest index of the bonds -/
def maxBond (bonds : List (Nat × Nat)) : Nat := (bonds.map fun x => max x.1 x.2).foldl max 0

/-- `pos2traj` of `Txp.get_clusters`: `none` is -1.  `nodes` are the trajectories declared as nodes and `tr i` the position of trajectory `i`.
experiment.py:1129-1130 -/
def pos2traj (size : Nat) (tr : Nat → Nat) (nodes : List Nat) : R (List (Option Nat)) :=
  nodes.foldlM (fun l i => upd l (tr i) fun _ => some i) (List.replicate size none)

/-- the bonds that have a trajectory at both ends -/
def bothEnds (l : List (Option Nat)) (x : Nat × Nat) : R (Option (Nat × Nat)) := do
  let a ← idx l x.1
  let b ← idx l x.2
  match a, b with
  | some a, some b => .ok (some (a, b))
  | _, _ => .ok none

/-- the bonds between trajectories in `Txp.get_clusters`.  The maximum of no bond is an error; the only bond of a file is read as an array of one dimension, of which `min(axis=1)` is an error.
experiment.py:1127-1132 -/
def trajBonds (bonds : List (Nat × Nat)) (tr : Nat → Nat) (isNode : List Bool) : R (List (Nat × Nat)) := do
  let nodes := (List.range isNode.length).filter fun i => isNode.getD i false
  if bonds.length = 0 then .error .invalidArgument
  else
    let l ← pos2traj (maxBond bonds + 1) tr nodes
    if bonds.length = 1 then .error .outOfRange
    else
      let out ← bonds.mapM (bothEnds l)
      .ok (out.filterMap id)

/-- `Txp.get_clusters`; `components` are the connected components of networkx from the nodes and the edges.  experiment.py:1116-1136 -/
def getClusters (components : List Nat → List (Nat × Nat) → List (List Nat)) (bonds : List (Nat × Nat)) (tr : Nat → Nat) (isNode : List Bool) :
    R (List (List Nat)) := do
  let e ← trajBonds bonds tr isNode
  .ok (components (e.flatMap fun x => [x.1, x.2]).dedup e)

/-- `get_time_clusters`: the clusters of a time are asked for their `values`, as if they were a dictionary.  experiment.py:1138-1151 -/
def getTimeClusters (clusters : List (R (List (List Nat)))) : R Unit := do
  let c ← clusters.mapM id
  match c with
  | [] => .ok ()
  | _ :: _ => .error .logicError

/-! ### Lengths of trajectories -/

/-- `traj_crea_dest`: trajectories are given by their first time and their positions.  experiment.py:480-492 -/
def creaDest (trajs : List (Nat × List Nat)) : List (Nat × Nat) := trajs.map fun x => (x.1, x.1 + x.2.length)

/-- `framesizes` of `vtk_tracking`: the number of trajectories at each time.  experiment.py:507-509 -/
def framesizes (size : Nat) (trajs : List (Nat × List Nat)) : List Nat :=
  trajs.foldl (fun l x => (List.range l.length).map fun t => if x.1 ≤ t ∧ t < x.1 + x.2.length then l.getD t 0 + 1 else l.getD t 0) (List.replicate size 0)

/-- `pos2traj[t][p] = tr`; `none` is not initialised -/
def write (a : List (List (Option Nat))) (w : Nat × Nat × Nat) : R (List (List (Option Nat))) := do
  let row ← idx a w.1
  let row ← upd row w.2.1 fun _ => some w.2.2
  upd a w.1 fun _ => row

/-- `pos2traj` of `vtk_tracking`.  experiment.py:510-513 -/
def fillPos (size : Nat) (trajs : List (Nat × List Nat)) : R (List (List (Option Nat))) :=
  trajs.zipIdx.foldlM (fun a x => x.1.2.zipIdx.foldlM (fun a y => write a (x.1.1 + y.2, y.1, x.2)) a)
    ((framesizes size trajs).map fun s => List.replicate s none)

/-- the field `traj_length` that `vtk_tracking` writes at time `t`; reading a value that is not initialised is undefined.
experiment.py:515-522 -/
def trajLength (size : Nat) (trajs : List (Nat × List Nat)) (t : Nat) : R (List Nat) := do
  let a ← fillPos size trajs
  let row ← idx a t
  row.mapM fun o => match o with
    | none => .error .ub
    | some tr => do
      let x ← idx trajs tr
      .ok x.2.length

end Follow
end Py
end Colloids
