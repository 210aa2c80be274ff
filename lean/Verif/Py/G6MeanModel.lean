import Mathlib.Algebra.Field.Basic
import Mathlib.Data.Fin.VecNotation
import Verif.Common

/-! # Mean bond order correlation: `Experiment.g6`, python/colloids/experiment.py:418-444

A line of a file is three values, `none` for a value that is not a number. Infinite values are not modelled. -/

namespace Colloids
namespace Py
namespace G6Mean

variable {F : Type} [Field F]

/-- A line of a file `.g6` -/
abbrev Line (F : Type) := Fin 3 → Option F

/-- `np.nan_to_num` of a line, experiment.py:434 -/
def nanToNum (r : Line F) : Fin 3 → F := fun c => (r c).getD 0

/-- `tot += ...`, experiment.py:434-436: a file of a single line is added to all lines, any other number of lines that is not the one of `tot` is a `ValueError`. -/
def addFile (tot : List (Fin 3 → F)) (file : List (Line F)) : R (List (Fin 3 → F)) :=
  if file.length = tot.length then .ok (List.zipWith (fun a b c => a c + b c) tot (file.map nanToNum))
  else match file with
    | [r] => .ok (tot.map fun a c => a c + nanToNum r c)
    | _ => .error .invalidArgument

/-- The files after the loops of experiment.py:423-431: if one of them does not exist, or if it is asked for, the program computes all of them. -/
def files (frames : List Nat) (disk : Nat → Option (List (Line F))) (compute : Nat → List (Line F)) (force : Bool) : List (List (Line F)) :=
  if force || frames.any fun t => (disk t).isNone then frames.map compute else frames.map fun t => (disk t).getD []

/-- `g6`, experiment.py:418-444; `disk` are the files before the call and `compute` what the program writes for `nbins` lines. -/
def g6 (frames : List Nat) (disk : Nat → Option (List (Line F))) (compute : Nat → List (Line F)) (nbins : Nat) (force : Bool) : R (List (Fin 3 → F)) := do
  let tot ← (files frames disk compute force).foldlM addFile (List.replicate nbins fun _ => 0)
  pure (tot.map fun a c => a c / (frames.length : F))

/-- What mains/g6.cpp:152-157 writes: the distance, the sum of the products `gl` and the number of pairs `nb`, that it does not divide -/
def program (nbins : Nat) (r : Nat → F) (gl : Nat → F) (nb : Nat → Nat) : List (Line F) :=
  (List.range nbins).map fun i c => some (![r i, gl i, (nb i : F)] c)

end G6Mean
end Py
end Colloids
