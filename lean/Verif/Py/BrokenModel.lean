import Verif.Py.ExperimentModel
import Verif.Py.BondsModel

/-! # Broken bonds in python: python/colloids/experiment.py:524-546, 575-697, 757-765, 1308-1336

Bonds are pairs of positions, read from files that are not modelled. `p2tr` gives the trajectory of each position of a time. `ValueError` is
given as `invalidArgument`, `IndexError` as `outOfRange`, `UnboundLocalError` as `logicError`. Indices are not negative unless said. -/

namespace Colloids
namespace Py
namespace Broken

/-- One time: the bonds between positions and the trajectory of each position. -/
structure Frame where
  bonds : List (Nat × Nat)
  p2tr : List Nat
  deriving DecidableEq, Repr

/-- `np.sort` of a pair. -/
def sortPair (x : Nat × Nat) : Nat × Nat := (min x.1 x.2, max x.1 x.2)

/-- `p2tr[bonds]` -/
def translate (f : Frame) : R (List (Nat × Nat)) := f.bonds.mapM fun x => do
  let a ← idx f.p2tr x.1
  let b ← idx f.p2tr x.2
  pure (a, b)

/-- `existin[p2tr] = True` on an array of `n` times `False`, python/colloids/experiment.py:530-533. -/
def existing (n : Nat) (p2tr : List Nat) : R (List Bool) := p2tr.foldlM (fun e v => upd e v fun _ => true) (List.replicate n false)

/-- `np.sort(gb[existinboth[gb].min(-1)], 1)`, python/colloids/experiment.py:542. The file of a time without bonds is read as an array of one
dimension, that has no minimum. -/
def restrict (e0 e1 : List Bool) (gb : List (Nat × Nat)) : R (List (Nat × Nat)) :=
  if gb = [] then .error .invalidArgument
  else do
    let l ← gb.mapM fun x => do
      let a0 ← idx e0 x.1
      let a1 ← idx e1 x.1
      let b0 ← idx e0 x.2
      let b1 ← idx e1 x.2
      pure ((a0 && a1) && (b0 && b1), x)
    pure ((l.filter (·.1)).map fun y => sortPair y.2)

/-- `Experiment.broken_bonds`, python/colloids/experiment.py:524-546. The set that is returned is given as a list. -/
def brokenBonds (f0 f1 : Frame) : R (List (Nat × Nat)) :=
  if f0.p2tr = [] ∨ f1.p2tr = [] then .error .invalidArgument
  else do
    let n := max (f0.p2tr.foldl max 0) (f1.p2tr.foldl max 0) + 1
    let e0 ← existing n f0.p2tr
    let e1 ← existing n f1.p2tr
    let gb0 ← translate f0
    let gb1 ← translate f1
    let r0 ← restrict e0 e1 gb0
    let r1 ← restrict e0 e1 gb1
    pure (r0.filter (· ∉ r1)).dedup

/-! ## Bonds that never form again -/

/-- A dictionary of pairs. -/
abbrev Dict := List ((Nat × Nat) × Nat)

/-- `d[k] = v` -/
def Dict.put (d : Dict) (k : Nat × Nat) (v : Nat) : Dict := (k, v) :: d.filter (·.1 ≠ k)

/-- `d.pop(k, -1)` -/
def Dict.pop (d : Dict) (k : Nat × Nat) : Dict := d.filter (·.1 ≠ k)

/-- `(a,b) for a,b in np.sort(p2tr[bonds], 1)`: when there are no bonds the array has one row of no element, that is not a pair. -/
def pairsOf (f : Frame) : R (List (Nat × Nat)) :=
  if f.bonds = [] then .error .invalidArgument
  else do
    let l ← translate f
    pure (l.map sortPair)

/-- One element of `shortest_path`, python/colloids/experiment.py:1308-1319: the number of nodes of the shortest path, if there is one. `len f a b` is
what networkx finds for the graph of the bonds of the frame. -/
def shortest (len : Frame → Nat → Nat → Option Nat) (f : Frame) (x : Nat × Nat) : Option Nat :=
  if x.1 ∈ f.p2tr ∧ x.2 ∈ f.p2tr then len f x.1 x.2 else none

/-- `broken_bonds_path`, python/colloids/experiment.py:1321-1336: the ends of each path, which are already sorted, and its number of nodes. -/
def brokenPaths (len : Frame → Nat → Nat → Option Nat) (f0 f1 : Frame) : R (List ((Nat × Nat) × Nat)) := do
  let e0 ← pairsOf f0
  let e1 ← pairsOf f1
  pure ((e0.filter (· ∉ e1)).dedup.filterMap fun x => (shortest len f1 x).map fun n => (x, n))

/-- The condition on the lengths of the trajectories, python/colloids/experiment.py:600, 649. -/
def longEnough (lens : List Nat) (minLength : Option Nat) (x : Nat × Nat) : R Bool :=
  match minLength with
  | none => .ok true
  | some m => do
    let u ← idx lens x.1
    let v ← idx lens x.2
    pure (decide (m < min u v))

/-- The paths are recorded, python/colloids/experiment.py:596-602, 645-651. -/
def record (len : Frame → Nat → Nat → Option Nat) (lens : List Nat) (L : Nat) (minLength : Option Nat) (t : Nat) (f0 f1 : Frame) (d : Dict) : R Dict := do
  let paths ← brokenPaths len f0 f1
  paths.foldlM (fun (d : Dict) x =>
    if x.2 ≤ L then .ok d
    else do
      let keep ← longEnough lens minLength x.1
      pure (if keep then d.put x.1 t else d)) d

/-- One step of `neverreform`, python/colloids/experiment.py:596-605. -/
def stepReform (len : Frame → Nat → Nat → Option Nat) (lens : List Nat) (L : Nat) (minLength : Option Nat) (t : Nat) (f0 f1 : Frame) (d : Dict) : R Dict := do
  let d ← record len lens L minLength t f0 f1 d
  let e1 ← pairsOf f1
  pure (e1.foldl Dict.pop d)

/-- One step of `never_closer`, python/colloids/experiment.py:645-661. -/
def stepCloser (len : Frame → Nat → Nat → Option Nat) (lens : List Nat) (L : Nat) (minLength : Option Nat) (t : Nat) (f0 f1 : Frame) (d : Dict) : R Dict := do
  let d ← record len lens L minLength t f0 f1 d
  pure ((d.map (·.1)).foldl (fun d x =>
    match shortest len f1 x with
    | some n => if n ≤ L then Dict.pop d x else d
    | none => d) d)

/-- The loop on the times, python/colloids/experiment.py:589-609, 638-665. -/
def run (step : Nat → Frame → Frame → Dict → R Dict) : Nat → Option Frame → List Frame → Dict → R Dict
  | _, _, [], d => .ok d
  | t, previous, f :: fs, d =>
    if 0 < t then
      match previous with
      | none => .error .logicError
      | some f0 => do
        let d ← step t f0 f d
        run step (t + 1) (some f) fs d
    else run step (t + 1) (some f) fs d

/-- The translation into an array of bonds per time, python/colloids/experiment.py:611-618, 667-674, in python 2: the dictionaries of python 3 have no
`iteritems`. The order of the bonds in an array is that of the dictionary, which is arbitrary. -/
def perTime (size : Nat) (d : Dict) : List (List (Nat × Nat)) := (List.range size).map fun t => (d.filter (·.2 = t)).map (·.1)

/-- `Experiment.neverreform`, python/colloids/experiment.py:575-622, where `lens` are the lengths of the trajectories. The files that are loaded at the
beginning (577-585) are not used, and those that are saved (619-621) are not modelled. -/
def neverReform (len : Frame → Nat → Nat → Option Nat) (lens : List Nat) (L : Nat) (minLength : Option Nat) (offset : Nat) (frames : List Frame) :
    R (List (List (Nat × Nat))) := do
  let d ← run (stepReform len lens L minLength) offset none frames []
  pure (perTime frames.length d)

/-- `Experiment.never_closer`, python/colloids/experiment.py:624-678, with the same simplifications. -/
def neverCloser (len : Frame → Nat → Nat → Option Nat) (lens : List Nat) (L : Nat) (minLength : Option Nat) (offset : Nat) (frames : List Frame) :
    R (List (List (Nat × Nat))) := do
  let d ← run (stepCloser len lens L minLength) offset none frames []
  pure (perTime frames.length d)

/-! ## Bonds around bonds -/

/-- `Experiment.neighbouring_bonds`, python/colloids/experiment.py:680-696. The index of the position in the trajectory may be negative, and then counts
from the end. The file is supposed to have at least two bonds. -/
def neighbouringBonds (trajs : List (Nat × List Nat)) (t : Nat) (f : Frame) (interest : List (Nat × Nat)) : R (List (Nat × Nat)) := do
  let ngb ← Bonds.bonds2ngbsList f.bonds f.p2tr.length
  interest.foldlM (fun res x =>
    [x.1, x.2].foldlM (fun res tr => do
      let T ← idx trajs tr
      let k ← Exp.pyIndex T.2.length ((t : Int) - T.1)
      let a ← idx T.2 k
      let js ← idx ngb a
      js.foldlM (fun res j => do
        let other ← idx f.p2tr j
        pure (if other = x.1 ∨ other = x.2 then res else res ++ [sortPair (tr, other)])) res) res) []

/-! ## Bonds between the trajectories of a window -/

/-- The order of `np.lexsort((b[:,1], b[:,0]))`. -/
def lexLe (x y : Nat × Nat) : Bool := decide (x.1 < y.1 ∨ (x.1 = y.1 ∧ x.2 ≤ y.2))

/-- `pos2traj[self.trajs[:,t]] = range(...)` on an array of `n` times -1 (here `none`), python/colloids/experiment.py:759-760. -/
def fillTrajs (n : Nat) (trajs : List (List Nat)) (t : Nat) : R (List (Option Nat)) :=
  trajs.zipIdx.foldlM (fun m x => do
    let p ← idx x.1 t
    upd m p fun _ => some x.2) (List.replicate n none)

/-- `Txp.load_bonds`, python/colloids/experiment.py:757-765, `trajs` being the positions of the trajectories in the window and `bonds` the content of the
file of the time `t`. Without bonds there is no maximum, and a single bond is read as an array of one dimension. -/
def loadBonds (trajs : List (List Nat)) (bonds : List (Nat × Nat)) (t : Nat) : R (List (Nat × Nat)) :=
  if bonds = [] then .error .invalidArgument
  else do
    let m ← fillTrajs ((bonds.flatMap fun x => [x.1, x.2]).foldl max 0 + 1) trajs t
    let l ← bonds.mapM fun x => do
      let a ← idx m x.1
      let b ← idx m x.2
      pure (a, b)
    if bonds.length = 1 then .error .invalidArgument
    else pure ((l.filterMap fun x => match x with
      | (some a, some b) => some (sortPair (a, b))
      | _ => none).mergeSort lexLe)

end Broken
end Py
end Colloids
