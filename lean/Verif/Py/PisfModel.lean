import Mathlib.Analysis.SpecialFunctions.Trigonometric.Basic
import Verif.Py.StatModel

/-! # The self intermediate scattering function in a periodic box in python: python/colloids/periodic.py:129-134 -/

namespace Colloids
namespace Py
namespace Pisf

noncomputable section

/-- Component `d` of `timecorrel` of an array of complex numbers with three dimensions, python/colloids/statistics.py:79-89: the product is averaged over the
particles, the norm over everything. -/
def timecorrel3 (d : Fin 3) (data : List (List (Fin 3 → ℂ))) : R (List ℂ) := do
  let k0 ← idx data 0
  let n : ℂ := (data.map fun row => (row.map fun z => ∑ e : Fin 3, ((‖z e‖ ^ 2 : ℝ) : ℂ)).sum).sum / ((data.length * k0.length * 3 : Nat) : ℂ)
  pure (data.map fun row => (List.zipWith (fun z z0 => z d * (starRingEnd ℂ) (z0 d)) row k0).sum / (k0.length : ℂ) / n)

/-- The wave number, python/colloids/periodic.py:132. -/
def waveNumber (radius L : ℝ) : ℝ := Real.pi * ⌊L / radius⌋ / L

/-- `self_isf`, python/colloids/periodic.py:129-134. The three components are correlated one after the other, which changes nothing as all the operations are
made component by component. -/
def selfIsf (positions : List (List (Fin 3 → ℝ))) (radius : ℝ) (av : Nat) (L : ℝ) : R (List ℝ) := do
  let A := positions.map fun row => row.map fun (x : Fin 3 → ℝ) (d : Fin 3) => Complex.exp (((waveNumber radius L * x d : ℝ) : ℂ) * Complex.I)
  let cs ← (List.finRange 3).mapM fun d => Stat.timeCorrelation (timecorrel3 d) A av
  let c0 ← idx cs 0
  pure ((List.range c0.length).map fun k => ((cs.map fun c => c.getD k 0).sum / 3).re)

end

end Pisf
end Py
end Colloids
