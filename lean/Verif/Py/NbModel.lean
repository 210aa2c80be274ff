import Mathlib.Algebra.Order.Field.Rat
import Verif.Py.ExperimentModel

/-! # Numbers of particles: `Experiment.get_nb` and `mean_Nb`, python/colloids/experiment.py:240-252 and 263-265 -/

namespace Colloids
namespace Py
namespace Nb

open Colloids.Py.Exp

/-- An array of numpy with no dimension or one -/
inductive Arr
  | number (n : Nat)
  | array (l : List Nat)
  deriving DecidableEq

/-- The file `.nb`, if it exists, and the first line of the file of each frame -/
structure Disk where
  nb : Option (List Nat)
  frames : List (List Char)
  deriving DecidableEq

/-- `int(open(name,'r').readline().split()[1])`, experiment.py:246; without a second word it is an `IndexError`. -/
def count (line : List Char) : R Nat :=
  match (words line)[1]? with
  | some w => pyInt w
  | none => .error .outOfRange

/-- `np.loadtxt` of numbers, one by line, experiment.py:251: a single number has no dimension. -/
def load : List Nat → Arr
  | [n] => .number n
  | l => .array l

/-- `get_nb`, experiment.py:240-252. The attribute is never found: in `hasattr` the name is not the one of a private attribute, that begins with the one of the class. -/
def getNb (d : Disk) : R (Arr × Disk) :=
  match d.nb with
  | some l => .ok (load l, d)
  | none => do
    let l ← d.frames.mapM count
    pure (.array l, ⟨some l, d.frames⟩)

/-- `for n in self.get_nb()`, experiment.py:151; an array without dimension is a `TypeError`. -/
def items : Arr → R (List Nat)
  | .array l => .ok l
  | .number _ => .error .invalidArgument

/-- `np.mean`, experiment.py:265 -/
def mean : Arr → ℚ
  | .array l => (l.map fun n : Nat => (n : ℚ)).sum / l.length
  | .number n => n

end Nb
end Py
end Colloids
