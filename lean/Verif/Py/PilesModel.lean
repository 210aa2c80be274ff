import Mathlib.Data.Rat.Defs
import Mathlib.Algebra.Order.Field.Rat
import Verif.Common

/-! # From piles of 2D centers to particles: `clusters2particles`, python/colloids/track.py:334-423 -/

namespace Colloids
namespace Py
namespace Piles

/-- `np.array_split(cl, idx)` -/
def arraySplit {S : Type} : Nat → List S → List Nat → List (List S)
  | _, cl, [] => [cl]
  | start, cl, i :: idx => cl.take (i - start) :: arraySplit (max start i) (cl.drop (i - start)) idx

/-- The loop on the clusters with the pieces put at the end of the list during the iteration, track.py:339-342, 345 and 358-372: the clusters that are treated,
in order. `split` gives the sorted positions of the strong changes of position, for five slices and more. `fuel` bounds the number of turns. -/
def pieces {S : Type} (split : List S → List Nat) : Nat → List (List S) → R (List (List S))
  | _, [] => .ok []
  | 0, _ => .error .diverge
  | fuel + 1, cl :: rest =>
    if cl.length < 3 then pieces split fuel rest
    else if cl.length < 5 ∨ split cl = [] then do
      let l ← pieces split fuel rest
      pure (cl :: l)
    else pieces split fuel (rest ++ arraySplit 0 cl (split cl))

/-- A blob: position and size along the pile. -/
structure Blob where
  z : ℚ
  s : ℚ

/-- Whether a blob is added, track.py:402-406 -/
def free (out : List Blob) (i : Blob) : Bool := out.all fun j => !decide ((i.z - j.z) ^ 2 < (i.s + j.s) ^ 2)

/-- `noDuplicate`, track.py:397-407; the blobs are sorted beforehand. -/
def noDuplicate (blobs : List Blob) : List Blob :=
  blobs.foldl (fun out i => if free out i then out ++ [i] else out) []

/-- The slice, track.py:413-417; `rnd` is `np.rint`. -/
def slice (rnd : ℚ → Int) (n : Nat) (z : ℚ) : Int :=
  let zi := if rnd z = n then (n : Int) - 1 else rnd z
  if zi < 0 then 0 else zi

/-- A coordinate of the particle of a blob, track.py:413-419. The index is a float in the code, which needs an old numpy; a slice after the end is an
`IndexError`. -/
def particle (rnd : ℚ → Int) (cl grad : List ℚ) (z : ℚ) : R ℚ :=
  let zi := slice rnd cl.length z
  match cl[zi.toNat]?, grad[zi.toNat]? with
  | some c, some g => .ok (c + g * (z - zi))
  | _, _ => .error .outOfRange

end Piles
end Py
end Colloids
