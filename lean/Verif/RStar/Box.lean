import Mathlib.Algebra.Order.Field.Basic
import Mathlib.Data.Fintype.Basic
import Mathlib.Data.Fin.Basic
import Mathlib.Data.List.FinRange

/-!
# Model of `lib/RStarTree/RStarBoundingBox.h`

(`multiscale/RStarTree/RStarBoundingBox.h` is identical.) The type of the edges (`grain`, `double` in
every use) is any linearly ordered field: exact arithmetic, no NaN, no infinity.
-/

namespace Colloids

/-- `RStarBoundingBox<dimensions, grain>` lib/RStarTree/RStarBoundingBox.h:35-40: `lo a` is
`edges[a].first` and `hi a` is `edges[a].second`. -/
structure Box (d : Nat) (G : Type) where
  lo : Fin d → G
  hi : Fin d → G

namespace Box
variable {d : Nat} {G : Type}

/-- `reset` lib/RStarTree/RStarBoundingBox.h:43-50. `mx` is `numeric_limits<grain>::max()` and `mn` is
`numeric_limits<grain>::min()`, which for floating point types is the smallest POSITIVE number. -/
def reset (d : Nat) (mx mn : G) : Box d G := ⟨fun _ => mx, fun _ => mn⟩

/-- `stretch` lib/RStarTree/RStarBoundingBox.h:62-83 (the returned flag is never used). -/
def stretch [LT G] [DecidableLT G] (b c : Box d G) : Box d G :=
  ⟨fun a => if b.lo a > c.lo a then c.lo a else b.lo a,
   fun a => if b.hi a < c.hi a then c.hi a else b.hi a⟩

/-- `encloses` lib/RStarTree/RStarBoundingBox.h:106-114: `b.encloses(c)`. -/
def encloses [LT G] [DecidableLT G] (b c : Box d G) : Bool :=
  (List.finRange d).all fun a => !(decide (c.lo a < b.lo a) || decide (b.hi a < c.hi a))

/-- `overlaps` lib/RStarTree/RStarBoundingBox.h:117-128. -/
def overlaps [LT G] [DecidableLT G] (b c : Box d G) : Bool :=
  (List.finRange d).all fun a => !(!decide (b.lo a < c.hi a) || !decide (c.lo a < b.hi a))

/-- `operator+=` lib/RStarTree/RStarBoundingBox.h:236-244. -/
def translate [Add G] (b : Box d G) (v : Fin d → G) : Box d G :=
  ⟨fun a => b.lo a + v a, fun a => b.hi a + v a⟩

/-- `edgeDeltas` lib/RStarTree/RStarBoundingBox.h:86-93. -/
def edgeDeltas [Zero G] [Add G] [Sub G] (b : Box d G) : G :=
  (List.finRange d).foldl (fun s a => s + (b.hi a - b.lo a)) 0

/-- `area` lib/RStarTree/RStarBoundingBox.h:96-103. -/
def area [One G] [Mul G] [Sub G] (b : Box d G) : G :=
  (List.finRange d).foldl (fun s a => s * (b.hi a - b.lo a)) 1

/-- One axis of `overlap` lib/RStarTree/RStarBoundingBox.h:136-170: the length of the intersection of
`[x1,x2]` and `[y1,y2]`, or `none` when the function returns 0.0 at once. -/
def overlap1 [LT G] [DecidableLT G] [Sub G] (x1 x2 y1 y2 : G) : Option G :=
  if x1 < y1 then
    if y1 < x2 then
      if y2 < x2 then some (y2 - y1) else some (x2 - y1)
    else none
  else if x1 < y2 then
    if x2 < y2 then some (x2 - x1) else some (y2 - x1)
  else none

/-- `overlap` lib/RStarTree/RStarBoundingBox.h:131-174 (`area &&` only leaves the loop early once the
product is zero). -/
def overlap [LT G] [DecidableLT G] [Sub G] [Mul G] [Zero G] [One G] (b c : Box d G) : G :=
  ((List.finRange d).foldl (fun s a =>
    match s, overlap1 (b.lo a) (b.hi a) (c.lo a) (c.hi a) with
    | some s, some x => some (s * x)
    | _, _ => none) (some 1)).getD 0

/-- `distanceFromCenter` lib/RStarTree/RStarBoundingBox.h:177-189 (with the sum of the four edges where
a difference of centres was presumably meant; only used to order reinsertions). -/
def distanceFromCenter [Field G] (b c : Box d G) : G :=
  (List.finRange d).foldl (fun s a => s + ((b.lo a + b.hi a + c.lo a + c.hi a) / 2) *
    ((b.lo a + b.hi a + c.lo a + c.hi a) / 2)) 0

/-- `for_each(items, StretchBoundingBox(&bound))` lib/RStarTree/RStarBoundingBox.h:260-272 after
`bound.reset()`. -/
def hull [LT G] [DecidableLT G] (mx mn : G) {β : Type} (f : β → Box d G) (l : List β) : Box d G :=
  l.foldl (fun b x => b.stretch (f x)) (reset d mx mn)

end Box
end Colloids
