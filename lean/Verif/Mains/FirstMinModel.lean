import Verif.Common
import Mathlib.Algebra.Order.Field.Basic

/-! # The bond length from the radial distribution: mains/linkboo.cpp, all_bonds.cpp, bonds.cpp, totalRdf.cpp

The radial distributions themselves are in `Verif.Rdf`; here they are given. Exact arithmetic. -/

namespace Colloids
namespace Mains

variable {G : Type} [Field G] [LinearOrder G]

/-- The scan of `std::max_element` after `i` elements, the largest being `m` at `best`. -/
def maxElementFrom (best : Nat) (m : G) (i : Nat) : List G → Nat
  | [] => best
  | x :: l => if m < x then maxElementFrom i x (i + 1) l else maxElementFrom best m (i + 1) l

/-- Rank of `std::max_element` (0, which is `end()`, for an empty range). -/
def maxElement : List G → Nat
  | [] => 0
  | x :: l => maxElementFrom 0 x 1 l

/-- The scan of `std::min_element` after `i` elements, the smallest being `m` at `best`. -/
def minElementFrom (best : Nat) (m : G) (i : Nat) : List G → Nat
  | [] => best
  | x :: l => if x < m then minElementFrom i x (i + 1) l else minElementFrom best m (i + 1) l

/-- Rank of `std::min_element` (0, which is `end()`, for an empty range). -/
def minElement : List G → Nat
  | [] => 0
  | x :: l => minElementFrom 0 x 1 l

/-- The loop mains/linkboo.cpp:136-142, mains/all_bonds.cpp:115-121, mains/bonds.cpp:48-53: `first_min`.
The body changes nothing it depends on. `fuel` bounds the number of turns. -/
def firstMin (g : List G) : (fuel : Nat) → R Nat
  | 0 => .error .diverge
  | fuel + 1 => do
    let peak := maxElement g
    let m := peak + minElement (g.drop peak)
    let v ← getR g m
    if v = 0 then firstMin g fuel else pure m

/-- `total_g` when there is no `.rdf` file, mains/linkboo.cpp:118-124, mains/all_bonds.cpp:97-103: the sum of
the distributions of each frame, added bin by bin in a table of `n` bins (`n` is 200, and `getRdf(200, 15.0)`
gives 200 bins). -/
def totalG (n : Nat) (frames : List (List G)) : List G :=
  frames.foldl (fun total g => List.zipWith (· + ·) total g) (List.replicate n 0)

/-- What is written in the `.rdf` file (second column), mains/linkboo.cpp:125-129, mains/all_bonds.cpp:104-108,
hence `total_g` when there is such a file (mains/linkboo.cpp:109-110). -/
def writtenG (n : Nat) (frames : List (List G)) : List G :=
  (totalG n frames).map (· / (frames.length : G))

/-- `bondLength` mains/linkboo.cpp:143, mains/all_bonds.cpp:122. -/
def bondLengthOf (g : List G) (fuel : Nat) : R G := do
  let m ← firstMin g fuel
  pure ((m : G) / 200 * 15)

/-- `maxBondLength` given to `makeNgbList`, mains/bonds.cpp:35-55: `arg` is the second argument, if any. -/
def bondsMaxLength (arg : Option G) (g : List G) (fuel : Nat) : R G :=
  match arg with
  | some x => pure x
  | none => do
    let _ ← firstMin g fuel
    pure 0

/-- The loop mains/totalRdf.cpp:50-60, from the time step `t`: `gTot` and the final value of `t`. `file t`
is the distribution of the frame `t`, or the exception thrown by reading it or computing it;
`invalid_argument` ends the loop, other exceptions are passed on. -/
def totalRdfLoop (file : Nat → R (List G)) : (fuel : Nat) → (t : Nat) → (gTot : List G) → R (List G × Nat)
  | 0, _, _ => .error .diverge
  | fuel + 1, t, gTot =>
    match file t with
    | .ok g => totalRdfLoop file fuel (t + 1) (List.zipWith (· + ·) g gTot)
    | .error .invalidArgument => .ok (gTot, t + 1)
    | .error e => .error e

/-- The second column of the `.rdf` file of mains/totalRdf.cpp:46-64. -/
def totalRdf (file : Nat → R (List G)) (n fuel : Nat) : R (List G) := do
  let (gTot, t) ← totalRdfLoop file fuel 0 (List.replicate n 0)
  pure (gTot.map (· / (t : G)))

end Mains
end Colloids
