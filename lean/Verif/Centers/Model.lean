import Verif.RStar.Model
import Mathlib.Algebra.Order.Field.Basic
import Mathlib.Algebra.BigOperators.Group.Finset.Basic
import Mathlib.Data.Fintype.Basic

/-!
# Model of `multiscale/src/center.hpp`: centers and removal of the overlaps

Coordinates, radii and intensities are elements of a linearly ordered field: exact arithmetic.
`std::sort` is not stable, so the sort is a parameter: any function that permutes the centers and
orders them by intensity. The R* tree of `multiscale/RStarTree` is that of `lib/RStarTree` up to the
way the root is owned.
-/

namespace Colloids

/-- `Center<D>` multiscale/src/center.hpp:17-48. -/
structure Center (d : Nat) (G : Type) where
  coords : Fin d → G
  r : G
  intensity : G

namespace Center
variable {d : Nat} {G : Type} [Field G] [LinearOrder G]

/-- `operator-` center.hpp:43-49: the squared distance. The loop accumulates from 0; in exact
arithmetic the order does not matter. -/
def sqDiff (a b : Center d G) : G := ∑ i, (a.coords i - b.coords i) ^ 2

/-- Constructor of a center from one of a lower dimension, center.hpp:36-40. -/
def raise (c : Center d G) (z : G) : Center (d + 1) G :=
  ⟨fun i => if h : i.val < d then c.coords ⟨i.val, h⟩ else z, c.r, c.intensity⟩

/-- `get_bb` center.hpp:71-81. -/
def getBB (c : Center d G) (tolerance : G) : Box d G :=
  ⟨fun i => c.coords i - c.r * tolerance, fun i => c.coords i + c.r * tolerance⟩

/-- `get_bb_margin` center.hpp:82-92. -/
def getBBMargin (c : Center d G) (margin : G) : Box d G :=
  ⟨fun i => c.coords i - margin, fun i => c.coords i + margin⟩

/-- Norm 2 test of `removeOverlapping`, center.hpp:129. -/
def tolTest (tolerance : G) (c x : Center d G) : Bool :=
  decide (tolerance * tolerance * sqDiff c x < (c.r + x.r) ^ 2)

/-- Test of `removeOverlapping_brute_force`, center.hpp:156. -/
def bruteTest (c x : Center d G) : Bool := decide (sqDiff c x < (c.r + x.r) ^ 2)

/-- Norm 2 test of `removeHalfOverlapping`, center.hpp:187-188. -/
def halfTest (c x : Center d G) : Bool := decide (sqDiff c x < max c.r x.r ^ 2)

/-- The loop over the candidates given by the tree, center.hpp:128-133 and 184-192: stops at the first
overlapping one. -/
def anyClose (test : Center d G → Center d G → Bool) (filtered : List (Center d G)) (c : Center d G) :
    List Nat → R Bool
  | [] => .ok false
  | q :: qs => do
    let x ← getR filtered q
    if test c x then pure true else anyClose test filtered c qs

/-- One turn of the loop over the centers, center.hpp:120-139 and 176-198 (`filtered` and the tree). -/
def sieveStep (P : RParams G) (H : Heur d G) (tolerance : G)
    (test : Center d G → Center d G → Bool) (s : List (Center d G) × RTree d G Nat)
    (c : Center d G) : R (List (Center d G) × RTree d G Nat) := do
  let bb := c.getBB tolerance
  let overlapping := (s.2.queryOverlapping bb).map (·.val)
  let o ← anyClose test s.1 c overlapping
  if o then pure s else do
    let t ← s.2.insert P H s.1.length bb
    pure (s.1 ++ [c], t)

/-- `removeOverlapping` center.hpp:108-142: the kept centers and the tree that is returned. -/
def removeOverlapping (P : RParams G) (H : Heur d G) (sort : List (Center d G) → List (Center d G))
    (centers : List (Center d G)) (tolerance : G) : R (List (Center d G) × RTree d G Nat) :=
  (sort centers).foldlM (sieveStep P H tolerance (tolTest tolerance)) ([], RTree.empty)

/-- `removeHalfOverlapping` center.hpp:166-201. -/
def removeHalfOverlapping (P : RParams G) (H : Heur d G)
    (sort : List (Center d G) → List (Center d G)) (centers : List (Center d G)) :
    R (List (Center d G) × RTree d G Nat) :=
  (sort centers).foldlM (sieveStep P H 1 halfTest) ([], RTree.empty)

/-- `removeOverlapping_brute_force` center.hpp:143-165. -/
def removeOverlappingBruteForce (sort : List (Center d G) → List (Center d G))
    (centers : List (Center d G)) : List (Center d G) :=
  (sort centers).foldl (fun filtered c => if filtered.any (bruteTest c) then filtered
    else filtered ++ [c]) []

end Center

end Colloids
