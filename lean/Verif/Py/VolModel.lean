import Mathlib.Analysis.SpecialFunctions.Trigonometric.Basic
import Verif.Py.ExperimentModel

/-! # Volumes, densities and the relaxation time of an experiment in python: python/colloids/experiment.py

Real numbers for doubles. The attributes that keep results (`__mean_V`, `__tau`) are not modelled: `hasattr` is asked for a name that is never the one of
the attribute, so that everything is computed at each call. -/

namespace Colloids
namespace Py
namespace Vol

open Exp

noncomputable section

/-- `len(coords)` and `np.ptp(coords, axis=0).prod()` for what `np.loadtxt` gives for a frame, python/colloids/experiment.py:267-276, 296-306: for a single
particle the array has one dimension, the three coordinates. -/
def frameVolume (frame : List V) : R (Nat × ℝ) :=
  match frame with
  | [] => .error .invalidArgument
  | [x] => do
    let lo ← amin [x 0, x 1, x 2]
    let hi ← amax [x 0, x 1, x 2]
    pure (3, hi - lo)
  | l => nbDensity l

/-- `mean_V`, python/colloids/experiment.py:267-276. -/
def meanV (frames : List (List V)) : R ℝ := do
  let vs ← frames.mapM frameVolume
  if frames.length = 0 then .error .logicError
  else pure ((vs.map (·.2)).sum / frames.length)

/-- `get_VF`, python/colloids/experiment.py:278-280, with `mean_Nb`, 263-265. `nbs` are the numbers of particles that `get_nb` gives. Nothing stands for a
division by zero. -/
def getVF (nbs : List Nat) (radius : ℝ) (frames : List (List V)) : R (Option ℝ) := do
  let v ← meanV frames
  let d := 3 * v
  if nbs.length = 0 ∨ d = 0 then pure none
  else pure (some (4 * Real.pi * ((nbs.sum : ℝ) / nbs.length) * radius ^ 3 / d))

open Classical in
/-- `Txp.get_Nb_density`, python/colloids/experiment.py:833-841: `pos` are the positions in the file, two or more, `sel` is `self.trajs[:,t]`. Nothing stands
for a division by zero. -/
def txpDensity (pos : List V) (sel : List Nat) : R (Option ℝ) := do
  let inself ← sel.mapM (idx pos)
  let lo ← (List.finRange 3).mapM fun k => amin (inself.map (· k))
  let hi ← (List.finRange 3).mapM fun k => amax (inself.map (· k))
  let inside := pos.filter fun p => decide (∀ k : Fin 3, lo.getD k 0 ≤ p k) && decide (∀ k : Fin 3, p k ≤ hi.getD k 0)
  let v ← boxVolume inside
  if v = 0 then pure none else pure (some (inside.length / v))

open Classical in
/-- The body of `get_tau` once the two columns are read, python/colloids/experiment.py:334-339. -/
def tauOf (t isf : List ℝ) (thr : ℝ) : R ℝ :=
  let below := (List.range isf.length).filter fun i => decide (isf.getD i 0 < thr)
  match below with
  | i :: rest => idx t (rest.foldl min i)
  | [] => last t

/-- `get_tau`, python/colloids/experiment.py:324-340, from the rows of the file `.isf` and the threshold. With a single row, `np.loadtxt` gives two arrays
without dimension: `below.min()` has nothing to take the minimum of, and `t[-1]` is an invalid index. Without rows there are no two columns. -/
def getTau (rows : List (List ℝ)) (thr : ℝ) : R ℝ :=
  match rows with
  | [] => .error .invalidArgument
  | [r] => do
    let isf ← idx r 4
    .error (if isf < thr then .invalidArgument else .outOfRange)
  | rows => do
    let t ← rows.mapM fun r => idx r 0
    let isf ← rows.mapM fun r => idx r 4
    tauOf t isf thr

end

end Vol
end Py
end Colloids
