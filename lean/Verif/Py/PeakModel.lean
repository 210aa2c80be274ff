import Verif.Py.LinkerModel
import Mathlib.Order.Defs.LinearOrder

/-! # Peaks and minima in python: `find_peak_mins`, python/colloids/experiment.py:1289-1298

Values are elements of a linear order: not-a-number is not considered. -/

namespace Colloids
namespace Py
namespace Peak

variable {α : Type} [LinearOrder α]

/-- `a.argmax()`: the first index of the largest value; `ValueError` when the array is empty. -/
def argmax (a : List α) : R Nat :=
  match a.findIdx? fun x => a.all fun y => decide (y ≤ x) with
  | some i => .ok i
  | none => .error .invalidArgument

/-- `a.argmin()`: the first index of the smallest value. -/
def argmin (a : List α) : R Nat :=
  match a.findIdx? fun x => a.all fun y => decide (x ≤ y) with
  | some i => .ok i
  | none => .error .invalidArgument

/-- The loop of `find_peak_mins`, python/colloids/experiment.py:1293-1297, where `p` is the last of the peaks. Whether it ends is not known in advance: `fuel`
bounds the number of iterations. -/
def loop (a : List α) : Nat → Nat → List Nat → List Nat → R (List Nat × List Nat)
  | 0, _, _, _ => .error .diverge
  | fuel + 1, p, peaks, mins =>
    if p + 1 < a.length then do
      let i ← argmin (a.drop p)
      if p + i + 1 = a.length then .ok (peaks, mins ++ [p + i])
      else do
        let j ← argmax (a.drop (p + i))
        loop a fuel (p + i + j) (peaks ++ [p + i + j]) (mins ++ [p + i])
    else .ok (peaks, mins)

/-- `find_peak_mins`, python/colloids/experiment.py:1289-1298. -/
def findPeakMins (fuel : Nat) (a : List α) : R (List Nat × List Nat) := do
  let p ← argmax a
  loop a fuel p [p] []

end Peak
end Py
end Colloids
