import Verif.Tracker.CentroidModel

/-! # The automatic threshold: graphic/tracker.cpp:771-809 -/

namespace Colloids
namespace Tracker

variable {G : Type} [Field G] [LinearOrder G] [FloorSemiring G]

/-- `std::max_element`: the rest of the loop from `i`, with the best up to there. -/
def maxFrom (h : List Nat) : Nat → Nat → Nat → Nat
  | 0, _, best => best
  | c + 1, i, best => maxFrom h c (i + 1) (if h.getD best 0 < h.getD i 0 then i else best)

/-- `std::min_element`: the rest of the loop from `i`, with the best up to there. -/
def minFrom (h : List Nat) : Nat → Nat → Nat → Nat
  | 0, _, best => best
  | c + 1, i, best => minFrom h c (i + 1) (if h.getD i 0 < h.getD best 0 then i else best)

/-- `min_element` on the range `[a, b)`: `b` if it is empty. -/
def minElement (h : List Nat) (a b : Nat) : Nat := if a < b then minFrom h (b - a - 1) (a + 1) a else b

/-- `std::lower_bound(first, first + len, 1)`, which supposes that the range is sorted. The length gets
smaller at each step, so `fuel = len` is enough. -/
def lowerBound (h : List Nat) : Nat → Nat → Nat → Nat
  | 0, first, _ => first
  | fuel + 1, first, len =>
    if len = 0 then first
    else if h.getD (first + len / 2) 0 < 1 then lowerBound h fuel (first + len / 2 + 1) (len - len / 2 - 1)
    else lowerBound h fuel first (len / 2)

/-- `while((*lowest)==0)`, graphic/tracker.cpp:796-801. -/
def valley (h : List Nat) (peak : Nat) : Nat → Nat → R Nat
  | 0, _ => .error .diverge
  | fuel + 1, lowest =>
    if h.getD lowest 0 = 0 then valley h peak fuel (minElement h lowest peak) else .ok lowest

/-- The class of an intensity, graphic/tracker.cpp:780. -/
def classOf (mn scale x : G) : Nat := ⌊(x - mn) * scale⌋₊

/-- The histogram, graphic/tracker.cpp:777-783. -/
def histogram (mn scale : G) (xs : List G) : List Nat :=
  xs.foldl (fun h x => if classOf mn scale x < h.length then h.modify (classOf mn scale x) (· + 1) else h)
    (List.replicate 100 0)

/-- The automatic threshold, graphic/tracker.cpp:771-809, from the intensities of the centers in increasing
order: what stays. (The list of the code is that of the places of these pixels.) There must be a first
element; and if all are equal, `scale` is infinite and the class is not a number, whose conversion is
undefined. -/
def autoThreshold (fuel : Nat) (xs : List G) : R (List G) :=
  match xs.head?, xs.getLast? with
  | some mn, some mx =>
    if mx = mn then .error .ub else do
      let scale := 100 / (mx - mn)
      let hist := histogram mn scale xs
      let peak := maxFrom hist 99 1 0
      let nonz := lowerBound hist peak 0 peak
      let lowest ← valley hist peak fuel (minElement hist nonz peak)
      pure (xs.drop (hist.take lowest).sum)
  | _, _ => .error .ub

end Tracker
end Colloids
