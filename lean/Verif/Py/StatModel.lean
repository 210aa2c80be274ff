import Mathlib.Analysis.Complex.Norm
import Verif.Py.LinkerModel

/-! # Time correlations in python: python/colloids/statistics.py -/

namespace Colloids
namespace Py
namespace Stat

/-- `l[a:b]` in python, with `a` not negative. -/
def slice (l : List α) (a : Nat) (b : Int) : List α :=
  let stop := if b < 0 then (l.length + b).toNat else b.toNat
  (l.take stop).drop a

/-- `timecorrel` of complex numbers, python/colloids/statistics.py:79-89: the mean is not subtracted. -/
noncomputable def timecorrel (data : List (List ℂ)) : R (List ℂ) := do
  let k0 ← idx data 0
  let n : ℂ := (data.map fun row => (row.map fun z => ((‖z‖ ^ 2 : ℝ) : ℂ)).sum).sum / ((data.length * k0.length : Nat) : ℂ)
  pure (data.map fun row => (List.zipWith (fun z z0 => z * (starRingEnd ℂ) z0) row k0).sum / (k0.length : ℂ) / n)

/-- `c[:len(w)] += w`, python/colloids/statistics.py:96. The lengths have to agree. -/
def addFront {G : Type} [Add G] (c w : List G) (size : Nat) : R (List G) :=
  if w.length ≠ (c.take size).length then .error .invalidArgument
  else .ok (List.zipWith (· + ·) (c.take size) w ++ c.drop size)

/-- `time_correlation`, python/colloids/statistics.py:91-101, with the correlation `tc` of one window. -/
def timeCorrelation {D G : Type} [Field G] (tc : List D → R (List G)) (data : List D) (av : Nat) : R (List G) :=
  if av = 0 then do
    let c ← (List.range (data.length - 1)).foldlM (fun c t0 => do
      let w ← tc (data.drop t0)
      addFront c w (data.length - t0)) (List.replicate data.length 0)
    (List.range c.length).foldlM (fun c dt => upd c dt (· / ((data.length - dt : Nat) : G))) c
  else do
    let ws ← (List.range av).mapM fun t0 => tc (slice data t0 (data.length + t0 - av))
    let w0 ← idx ws 0
    if ws.any fun w => w.length ≠ w0.length then .error .invalidArgument
    else pure ((List.range w0.length).map fun k => (ws.map fun w => w.getD k 0).sum / (av : G))

end Stat
end Py
end Colloids
