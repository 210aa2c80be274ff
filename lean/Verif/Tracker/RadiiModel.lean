import Verif.Tracker.StoreModel
import Mathlib.Analysis.SpecialFunctions.Pow.Real
import Mathlib.Analysis.Real.Sqrt
import Mathlib.Algebra.Order.Floor.Semiring

/-! # The radii of the particles: graphic/radiiTracker.cpp:32-144, graphic/radiiTracker.hpp:40-92 -/

namespace Colloids
namespace Tracker

noncomputable section

/-- `(size_t)` of a `double`: undefined if it is not above -1. -/
def sizeOf? (x : ℝ) : R Nat := if -1 < x then .ok ⌊x⌋₊ else .error .ub

/-- The bounds of the neighbourhood in one dimension and the new coordinate of the center,
graphic/radiiTracker.cpp:41-43, for an image of `dim` pixels and a neighbourhood of `s`. The two views must
be in their arrays (graphic/radiiTracker.cpp:45-53) and not have their end before their beginning. -/
def window (dim s : Nat) (p : ℝ) : R (Nat × Nat × ℝ) := do
  let low ← sizeOf? (max 0 (p - ((s / 2 : Nat) : ℝ)))
  let high ← sizeOf? (min (dim : ℝ) (p + ((s / 2 : Nat) : ℝ) + 1))
  if low ≤ high ∧ high ≤ dim ∧ high - low ≤ s then pure (low, high, p - low) else throw Fault.ub

/-- `RadiiTracker::getNeighbourhood`, graphic/radiiTracker.cpp:33-55: the neighbourhood, that is 0 where
nothing is copied, and the coordinates of the center in it. -/
def getNeighbourhood (D S : Dims) (data : Nat → Nat → Nat → ℝ) (p : ℝ × ℝ × ℝ) :
    R ((Nat → Nat → Nat → ℝ) × (ℝ × ℝ × ℝ)) := do
  let (l0, h0, c0) ← window D.n0 S.n0 p.1
  let (l1, h1, c1) ← window D.n1 S.n1 p.2.1
  let (l2, h2, c2) ← window D.n2 S.n2 p.2.2
  pure (fun i j k => if i < h0 - l0 ∧ j < h1 - l1 ∧ k < h2 - l2 then data (l0 + i) (l1 + j) (l2 + k) else 0,
    (c0, c1, c2))

/-- The pixels of the neighbourhood with the square of their distance to the center, in the order of the
loops, graphic/radiiTracker.cpp:66-93. -/
def shells (S : Dims) (ngb : Nat → Nat → Nat → ℝ) (c : ℝ × ℝ × ℝ) (ZX : ℝ) (fortran : Bool) : List (ℝ × ℝ) :=
  (List.range S.n0).flatMap fun (i : Nat) => (List.range S.n1).flatMap fun (j : Nat) =>
    (List.range S.n2).map fun (k : Nat) =>
    (if fortran then (((i : ℝ) - c.1) * ZX) ^ 2 + ((j : ℝ) - c.2.1) ^ 2 + ((k : ℝ) - c.2.2) ^ 2
      else ((i : ℝ) - c.1) ^ 2 + ((j : ℝ) - c.2.1) ^ 2 + (((k : ℝ) - c.2.2) * ZX) ^ 2, ngb i j k)

open Classical in
/-- The body of the loops, graphic/radiiTracker.cpp:71-77. -/
def addPixel (rmax precision : ℝ) (s : List ℝ × List Nat) (px : ℝ × ℝ) : R (List ℝ × List Nat) :=
  if px.1 < rmax ^ 2 then do
    let val ← modifyR s.1 ⌊Real.sqrt px.1 / precision⌋₊ (· + px.2)
    let nbs ← modifyR s.2 ⌊Real.sqrt px.1 / precision⌋₊ (· + 1)
    pure (val, nbs)
  else pure s

/-- `partial_sum`. -/
def partialSum {α : Type} [Add α] : List α → List α
  | [] => []
  | x :: xs => x :: (go x xs)
where
  /-- The rest, after the sum `acc`. -/
  go (acc : α) : List α → List α
    | [] => []
    | y :: ys => (acc + y) :: go (acc + y) ys

/-- `adjacent_difference`: the first element is copied. -/
def adjacentDifference : List ℝ → List ℝ
  | [] => []
  | x :: xs => x :: List.zipWith (fun b a => b - a) xs (x :: xs)

open Classical in
/-- `min_element`: the rest of the loop from `i`, with the best up to there. -/
def leastFrom (h : List ℝ) : Nat → Nat → Nat → Nat
  | 0, _, best => best
  | c + 1, i, best => leastFrom h c (i + 1) (if h.getD i 0 < h.getD best 0 then i else best)

/-- The mean intensity inside each radius, graphic/radiiTracker.cpp:60-106, for `n` classes. -/
def profile (n : Nat) (rmax precision : ℝ) (px : List (ℝ × ℝ)) : R (List ℝ) := do
  let (val, nbs) ← px.foldlM (addPixel rmax precision) (List.replicate n 0, List.replicate n 0)
  let nbs ← setR nbs 0 1
  pure (List.zipWith (fun (v : ℝ) (m : Nat) => v / (m : ℝ)) (partialSum val) (partialSum nbs))

/-- `RadiiTracker::getRadius`, graphic/radiiTracker.cpp:58-125, from the pixels. `smooth` is the convolution
by a gaussian (graphic/radiiTracker.cpp:108-116), which is not modelled. `min_element` of a range that ends
before its beginning is undefined. -/
def getRadius (n : Nat) (rmax rmin precision : ℝ) (smooth : List ℝ → List ℝ) (px : List (ℝ × ℝ)) : R ℝ := do
  let val ← profile n rmax precision px
  let d := adjacentDifference (smooth val)
  let margin := ⌊rmin / precision⌋₊
  if n < 2 * margin then throw Fault.ub
  pure (precision * ((if margin < n - margin then leastFrom d (n - margin - margin - 1) (margin + 1) margin
    else margin : Nat) : ℝ))

/-- The number of classes, graphic/radiiTracker.cpp:171. -/
def classes (rmax precision : ℝ) : Nat := ⌊rmax / precision⌋₊

/-- The size of the neighbourhood in a dimension of `dim` pixels, graphic/radiiTracker.cpp:133-134. -/
def ngbSize (dim : Nat) (rmax : ℝ) : Nat := by
  classical exact if (dim : ℝ) > 2 * rmax then ⌊2 * rmax + 1⌋₊ else 1

end

end Tracker
end Colloids
