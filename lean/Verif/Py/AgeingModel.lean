import Verif.Common
import Verif.Files.Model

/-! # Intervals of ageing: `Experiment.get_intervals`, `auto_ageing` and `get_interval_file`, python/colloids/experiment.py:354-374 -/

namespace Colloids
namespace Py
namespace Ageing

/-- `self.get_range()[:-50:step]`, experiment.py:224-225 and 364, for a `step` that is not negative; zero is a `ValueError`. -/
def starts (offset size step : Nat) : R (List Nat) :=
  if step = 0 then .error .invalidArgument
  else .ok (((List.range (size - 50)).filter fun k => decide (k % step = 0)).map (offset + ·))

/-- `get_intervals`, experiment.py:361-364 -/
def getIntervals (offset size step average : Nat) : R (List (Int × Int × Int)) := do
  let l ← starts offset size step
  pure (l.map fun t : Nat => ((t : Int), (offset : Int) + size - average, (average : Int)))

/-- The arguments after the name of the file that `ageing` gives to the program, experiment.py:354-360 -/
def arguments (inter : List (Int × Int × Int)) : List Int := inter.flatMap fun i => [i.1, i.2.1, i.2.2]

/-- The arguments given by `auto_ageing`, experiment.py:366-368 -/
def autoAgeing (offset size _step _average : Nat) : R (List Int) := do
  let l ← getIntervals offset size 10 10
  pure (arguments l)

/-- `get_interval_file`, experiment.py:370-374, for numbers that are not negative; `base` is the path joined to the head. -/
def intervalFile (base : List Char) (inter : Nat × Nat × Nat) (ext : List Char) : List Char :=
  base ++ (['_'] ++ Files.dec inter.1 ++ "from_".toList ++ Files.dec inter.2.1 ++ "to_".toList ++ Files.dec inter.2.2 ++ "av.".toList) ++ ext

end Ageing
end Py
end Colloids
