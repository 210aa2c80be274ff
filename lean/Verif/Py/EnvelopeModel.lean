import Mathlib.Algebra.Order.Field.Basic
import Verif.Common

/-! # Peaks of a correlation function: `envelope`, python/colloids/experiment.py:1239-1252 -/

namespace Colloids
namespace Py
namespace Envelope

variable {F : Type} [Field F] [LinearOrder F]

/-- An element of `np.gradient`: central differences, and differences at the ends -/
def gradAt (s : List F) (i : Nat) : F :=
  if i = 0 then s.getD 1 0 - s.getD 0 0
  else if i = s.length - 1 then s.getD i 0 - s.getD (i - 1) 0
  else (s.getD (i + 1) 0 - s.getD (i - 1) 0) / 2

/-- `np.gradient`, experiment.py:1243; less than two values are a `ValueError`. -/
def gradient (s : List F) : R (List F) :=
  if s.length < 2 then .error .invalidArgument else .ok ((List.range s.length).map (gradAt s))

/-- `np.where(np.bitwise_and(dg6[:-1]>0, dg6[1:]<0))[0]`, experiment.py:1244 -/
def signChange (dg : List F) : List Nat :=
  (List.range (dg.length - 1)).filter fun i => decide (0 < dg.getD i 0) && decide (dg.getD (i + 1) 0 < 0)

/-- `envelope`, experiment.py:1239-1252. `g6` are the lines, distance and value; `smooth` is `gaussian_filter1d`, that gives as many values. -/
def envelope (smooth : List F → List F) (g6 : List (F × F)) : R (List Nat) := do
  let dg ← gradient (smooth (g6.map Prod.snd))
  let env := signChange dg
  let env := env.filter fun i => decide (3 / 2 < (g6.getD i (0, 0)).1)
  pure (env.filter fun i => decide (0 < (g6.getD i (0, 0)).2))

end Envelope
end Py
end Colloids
