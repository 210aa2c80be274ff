import Verif.Py.ExperimentModel
import Verif.Py.PeriodicModel
import Verif.Py.StatModel

/-! # Trajectories that span a window of time in python: the class `Txp`, python/colloids/experiment.py:699-999

A failed assertion is given as `logicError`, `ValueError` as `invalidArgument`, `IndexError` as `outOfRange`. Exact real arithmetic. -/

namespace Colloids
namespace Py
namespace Txp
open Exp (V cumsum)

/-- The window of time kept by the constructor, python/colloids/experiment.py:710-717: first time and number of times. -/
def clip (offset xpsize : Nat) (start size : Option Int) : Int × Int :=
  let s := match start with
    | none => (offset : Int)
    | some s => if s < offset then (offset : Int) else s
  let n := match size with
    | none => (xpsize : Int) + offset - s
    | some n => if s + n > offset + xpsize then (xpsize : Int) + offset - s else n
  (s, n)

/-- `Txp.read_trajs`, python/colloids/experiment.py:730-745, after the trajectories are loaded. -/
def readTrajs (start size : Int) (trajs : List (Nat × List Nat)) : List (List Nat) :=
  trajs.filterMap fun T =>
    let b := start - T.1
    let s := T.2.length - b
    if 0 ≤ b ∧ size ≤ s then some (Stat.slice T.2 b.toNat (b + size)) else none

noncomputable section

/-- `Txp.read_pos`, python/colloids/experiment.py:747-755, for a window inside the experiment. `frames` are the positions in the files, the
first one being that of the time `offset`. -/
def readPos (offset start size : Nat) (frames : List (List V)) (trajs : List (List Nat)) : R (List (List V)) :=
  (List.range size).mapM fun k => do
    let raw ← idx frames (start + k - offset)
    trajs.mapM fun tr => do
      let p ← idx tr k
      idx raw p

/-- `mean(axis=1)` of one time: the mean over the particles. -/
def mean (row : List V) : V := (1 / (row.length : ℝ)) • row.sum

/-- `np.diff(positions, axis=0)` -/
def diff (pos : List (List V)) : List (List V) := List.zipWith (List.zipWith fun b a => b - a) (pos.drop 1) pos.dropLast

/-- `Txp.remove_drift`, python/colloids/experiment.py:790-794. -/
def removeDrift (pos : List (List V)) : List (List V) :=
  pos.take 1 ++ List.zipWith (fun row d => row.map fun v => v - d) (pos.drop 1) (cumsum ((diff pos).map mean))

/-- The constructor with an experiment, python/colloids/experiment.py:708-721: the trajectories and the positions. A window that has no time is
given as a failed assertion; what numpy makes of its size is not modelled. -/
def make (offset : Nat) (frames : List (List V)) (trajs : List (Nat × List Nat)) (start size : Option Int) : R (List (List Nat) × List (List V)) :=
  let w := clip offset frames.length start size
  let tr := readTrajs w.1 w.2 trajs
  if tr = [] ∨ w.2 ≤ 0 then .error .logicError
  else do
    let pos ← readPos offset w.1.toNat w.2.toNat frames tr
    pure (tr, removeDrift pos)

end

/-! ## Mean square displacement -/

/-- The loops of `Txp.msd` and of `Txp.nonGaussian`, python/colloids/experiment.py:894-900, 906-908, 975-984, 988-992: the sums for each lag of a
quantity `sq` that depends on the positions at two times. -/
def lagSums {F G : Type} [Field G] (sq : F → F → R G) (positions : List F) (start stop av : Nat) : R (List G) :=
  let A := Stat.slice positions start ((stop + av : Nat) : Int)
  if stop < start then .error .invalidArgument
  else if av = 0 then
    (List.range A.length).foldlM (fun m t0 => (List.range (A.drop (t0 + 1)).length).foldlM (Periodic.addTerm sq A t0) m) (List.replicate (stop - start) 0)
  else
    (List.range (A.take av).length).foldlM (fun m t0 =>
      (List.range (Stat.slice A (t0 + 1) ((t0 : Int) - av)).length).foldlM (Periodic.addTerm sq A t0) m) (List.replicate (stop - start) 0)

/-- `Txp.msd`, python/colloids/experiment.py:876-910, for `N` trajectories of particles of radius `radius`; `sq` is the sum of the square
displacements between two times. -/
def msd {F G : Type} [Field G] (sq : F → F → R G) (N : Nat) (radius : G) (positions : List F) (start stop av : Nat) : R (List G) := do
  let A := Stat.slice positions start ((stop + av : Nat) : Int)
  let m ← lagSums sq positions start stop av
  if av = 0 then
    (List.range A.length).foldlM (fun m dt => upd m dt (· / ((A.length - dt : Nat) : G))) (m.map fun x => x / ((N : G) * (radius * 2) ^ 2))
  else pure (m.map fun x => x / ((av : G) * (N : G) * (radius * 2) ^ 2))

/-- `np.column_stack` of the times and of the values, as in `export_msd` and `export_self_isf`, python/colloids/experiment.py:915-918, 950-953. -/
def columns {G : Type} [Field G] (dt : G) (n : Nat) (values : List G) : R (List (G × G)) :=
  if n ≠ values.length then .error .invalidArgument
  else pure (List.zip ((List.range n).map fun i => (i : G) * dt) values)

/-- `Txp.export_msd`, python/colloids/experiment.py:912-921: the columns of the file. -/
def exportMsd {F G : Type} [Field G] (sq : F → F → R G) (N : Nat) (radius dt : G) (positions : List F) (start stop av : Nat) : R (List (G × G)) := do
  let m ← msd sq N radius positions start stop av
  columns dt (stop - start + 1) m

/-- `Txp.self_isf`, python/colloids/experiment.py:923-945, `tc` being the correlation of one window averaged over the dimensions. -/
def selfIsf {F G : Type} [Field G] (tc : List F → R (List G)) (waves : List F) (start stop av : Nat) : R (List G) :=
  Stat.timeCorrelation tc (Stat.slice waves start ((stop : Int) + av - 1)) av

/-- `Txp.export_self_isf`, python/colloids/experiment.py:947-956: the columns of the file. -/
def exportSelfIsf {F G : Type} [Field G] (tc : List F → R (List G)) (dt : G) (waves : List F) (start stop av : Nat) : R (List (G × G)) := do
  let m ← selfIsf tc waves start stop av
  columns dt (stop - start + 1) m

/-- `Txp.nonGaussian`, python/colloids/experiment.py:957-995: `sq` is the sum over the particles of the square displacements and `qu` that of
their squares. The two arrays are filled by the same loops. Division by zero is not considered. -/
def nonGaussian {F G : Type} [Field G] (sq qu : F → F → R G) (N : Nat) (positions : List F) (start stop av : Nat) : R (List G) := do
  let m ← lagSums sq positions start stop av
  let q ← lagSums qu positions start stop av
  let q' := if av = 0 then q.zipIdx.map fun x => x.1 * (((q.length - x.2) * N : Nat) : G) else q.map fun x => x * ((av * N : Nat) : G)
  pure ((List.zip q' m).zipIdx.map fun x => (if x.2 = 0 then x.1.1 else x.1.1 / (5 * x.1.2 ^ 2 / 3)) - 1)

end Txp
end Py
end Colloids
