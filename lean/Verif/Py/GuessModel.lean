import Mathlib.Algebra.Order.Field.Rat
import Verif.Common
import Verif.Files.Model

/-! # What `Experiment` guesses when there is no file of trajectories: python/colloids/experiment.py:75-99

Names are lists of characters without ends of lines and heads have no special character of regular expressions. -/

namespace Colloids
namespace Py
namespace Guess

/-- The first digits followed by the word `w`: what is before, the digits and what is after the word. This is `re.search('([0-9]+)' + w, s)`, experiment.py:93 and 96, and for the
lazy `(.*?)([0-9]+)\.dat`, experiment.py:79, what follows the head. -/
def search (w : List Char) : List Char → Option (List Char × List Char × List Char)
  | [] => none
  | c :: s =>
    if (c :: s).takeWhile Files.isDig ≠ [] ∧ w.isPrefixOf ((c :: s).dropWhile Files.isDig) = true then
      some ([], (c :: s).takeWhile Files.isDig, ((c :: s).dropWhile Files.isDig).drop w.length)
    else (search w s).map fun x => (c :: x.1, x.2)

/-- `60*int(m.group(1))`, experiment.py:93-95 -/
def minutes (head : List Char) : ℚ :=
  match search "min".toList head with
  | some (_, d, _) => 60 * (Files.value d : ℚ)
  | none => 0

/-- `float(m.group(1)+'.'+m.group(2))`, experiment.py:96-98 -/
def seconds (head : List Char) : ℚ :=
  match search "s".toList head with
  | some (_, d, r) => (Files.value d : ℚ) + (Files.value (r.takeWhile Files.isDig) : ℚ) / 10 ^ (r.takeWhile Files.isDig).length
  | none => 0

/-- `dt`, experiment.py:92-98 -/
def dt (head : List Char) : ℚ := minutes head + seconds head

/-- `mask.match(name)`, experiment.py:79-80: the token and the digits -/
def maskMatch (head name : List Char) : Option (List Char × List Char) :=
  if head.isPrefixOf name = true then (search ".dat".toList (name.drop head.length)).map fun x => (x.1, x.2.1) else none

/-- The loop on the files, experiment.py:83-86: the token, if any, and the number of digits -/
def longest (l : List (List Char × List Char)) : Option (List Char) × Nat :=
  l.foldl (fun acc m => if acc.2 < m.2.length then (some m.1, m.2.length) else acc) (none, 0)

/-- The size, the token and the number of digits, experiment.py:76-90. `files` are the names in the folder and `particles` the number of particles in the first line of
a file; without any file there is no token: `AttributeError`. -/
def guess (files : List (List Char)) (particles : List Char → R Nat) (head : List Char) : R (Nat × List Char × Nat) :=
  match longest (files.filterMap (maskMatch head)) with
  | (some token, digits) => do
    let size := (files.filterMap (maskMatch head)).length
    let n ← particles (head ++ token ++ Files.pad digits (size - 1) ++ ".dat".toList)
    pure (if n = 0 then size - 1 else size, token, digits)
  | (none, _) => .error .logicError

end Guess
end Py
end Colloids
