import Mathlib.Algebra.Order.Field.Basic
import Verif.Common

/-! # Envelope of the mean correlation: `Experiment.g6_envelope`, python/colloids/experiment.py:446-465

`s` is the smoothed function (`gaussian_filter1d` is not modelled) and `tol` is `-log 0.9999`: `exp(x) > 0.9999` is `-x < tol`. -/

namespace Colloids
namespace Py
namespace EnvTotal

variable {F : Type} [Field F] [LinearOrder F]

/-- `grey_dilation(s, size=[3])`, experiment.py:453, at one of the `n` places: beyond the ends, the values are reflected. -/
def dilation (n : Nat) (s : Nat → F) (i : Nat) : F := max (max (s (i - 1)) (s i)) (s (min (i + 1) (n - 1)))

/-- `maxima`, experiment.py:451-455 -/
def maxima (n : Nat) (tol : F) (s : Nat → F) : List Nat := (List.range n).filter fun i => decide (dilation n s i - s i < tol)

/-- `g6.argmax()`: the first place of the largest value; a `ValueError` without values. -/
def argmax (n : Nat) (g : Nat → F) : R Nat :=
  match (List.range n).find? fun i => (List.range n).all fun j => decide (g j ≤ g i) with
  | some i => .ok i
  | none => .error .invalidArgument

/-- The places kept in the envelope, experiment.py:457. The slice counts maxima, and `argmax` counts places. -/
def envelope (n : Nat) (tol : F) (s g : Nat → F) : R (List Nat) := do
  let k ← argmax n g
  pure (((maxima n tol s).drop k).filter fun m => decide (0 < g m))

end EnvTotal
end Py
end Colloids
