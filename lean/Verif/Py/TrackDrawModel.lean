import Mathlib.Algebra.Order.Floor.Ring
import Mathlib.Algebra.Order.Field.Basic
import Verif.Common

/-!
# `python/colloids/track.py`: drawing of balls and rods, groups of centers

Coordinates and radii are in a linearly ordered field (rounding is not modelled).  A three dimensional
image of booleans is a function of the three indices `z, y, x`, read inside of its shape only.
-/

namespace Colloids
namespace Py
namespace Track

variable {F : Type} [Field F] [LinearOrder F] [IsStrictOrderedRing F] [FloorRing F]

/-- `astype(int)` of a number: towards zero -/
def trunc (x : F) : Int := if 0 ≤ x then ⌊x⌋ else ⌈x⌉

/-- an image of booleans -/
abbrev Mask := Nat → Nat → Nat → Bool

/-- `m` and `M` of one axis.  track.py:459-460,478-479 -/
def bounds (n : Nat) (p r : F) : Int × Int := (trunc (max 0 (p - r)), trunc (min (n : F) (p + r + 1)))

/-- whether an index is in the slice `m:M`, neither being negative: radii are not -/
def inSlice (b : Int × Int) (i : Nat) : Bool := decide (b.1 ≤ i) && decide ((i : Int) < b.2)

/-- the assertion of `draw_spheres` and `draw_rods` over positions: `max` of no position is an error.
track.py:456,475 -/
def checkPos (shape : Nat × Nat × Nat) (pos : List (F × F × F)) : R Unit :=
  if pos = [] then .error .invalidArgument
  else if pos.all (fun p => decide (0 ≤ p.1 ∧ 0 ≤ p.2.1 ∧ 0 ≤ p.2.2 ∧
      p.1 < (shape.2.2 : F) ∧ p.2.1 < (shape.2.1 : F) ∧ p.2.2 < (shape.1 : F))) then .ok ()
  else .error .logicError

/-- `im[m[0]:M[0], m[1]:M[1], m[2]:M[2]] |= test`.  track.py:462-466,481-484 -/
def orBox (shape : Nat × Nat × Nat) (p : F × F × F) (r : F) (test : Nat → Nat → Nat → Bool) (im : Mask) :
    Mask := fun z y x =>
  im z y x || (inSlice (bounds shape.1 p.2.2 r) z && inSlice (bounds shape.2.1 p.2.1 r) y
    && inSlice (bounds shape.2.2 p.1 r) x && test z y x)

/-- `draw_spheres`, the radii being an array (a single radius is repeated, line 454); positions are
`(x, y, z)`, shapes `(z, y, x)`.  track.py:451-467 -/
def drawSpheres (shape : Nat × Nat × Nat) (pos : List (F × F × F)) (radii : List F) : R Mask := do
  if pos.length ≠ radii.length then .error .logicError
  else do
    checkPos shape pos
    pure <| (pos.zip radii).foldl (fun im q =>
      orBox shape q.1 q.2 (fun z y x =>
        decide ((q.1.2.2 - (z : F)) ^ 2 + (q.1.2.1 - (y : F)) ^ 2 + (q.1.1 - (x : F)) ^ 2 ≤ q.2 ^ 2)) im)
      fun _ _ _ => false

/-- `draw_rods`, in a new image or over the given one.  track.py:469-485 -/
def drawRods (shape : Nat × Nat × Nat) (im0 : Option Mask) (pos : List (F × F × F)) (radii : List F) :
    R Mask := do
  if pos.length ≠ radii.length then .error .logicError
  else do
    checkPos shape pos
    pure <| (pos.zip radii).foldl (fun im q =>
      orBox shape q.1 q.2 (fun _ y x =>
        decide ((q.1.2.1 - (y : F)) ^ 2 + (q.1.1 - (x : F)) ^ 2 ≤ q.2 ^ 2)) im)
      (im0.getD fun _ _ _ => false)

/-! ### Groups of centers -/

/-- `measurements.label` with a full neighbourhood: labels of the voxels, number of labels -/
abbrev Labeller := (Nat × Nat × Nat → Bool) → (Nat × Nat × Nat → Nat) × Nat

/-- `label_clusters`.  Coordinates are not negative.  `max` of no center is an error.
track.py:426-435 -/
def labelClusters (label : Labeller) (centers : List (Nat × Nat × Nat)) : R (List (List Nat)) :=
  if centers = [] then .error .invalidArgument
  else
    let l := label fun v => decide (v ∈ centers)
    .ok <| centers.zipIdx.foldl (fun cl c => cl.modify (l.1 c.1) (· ++ [c.2])) (List.replicate (l.2 + 1) [])

/-- `centers[k]` as coordinates and radius: `IndexError` out of range -/
def takeAll {α : Type} (centers : List α) (k : List Nat) : R (List (Nat × α)) :=
  k.mapM fun p => match centers[p]? with
    | some c => .ok (p, c)
    | none => .error .outOfRange

/-- `cl[:,-1].argmax()`: the first of the largest -/
def argmaxBy {α : Type} (r : α → F) : α → List α → α
  | a, [] => a
  | a, b :: l => if r a < r b then argmaxBy r b l else argmaxBy r a l

/-- square of a distance -/
def sqdist (a b : F × F × F) : F := (a.1 - b.1) ^ 2 + (a.2.1 - b.2.1) ^ 2 + (a.2.2 - b.2.2) ^ 2

/-- one iteration of the loop of `split_clusters` over cluster `k`: what replaces it, what is appended.
track.py:439-448 -/
def splitOne (centers : List ((F × F × F) × F)) (k : List Nat) : R (List Nat × Option (List Nat)) := do
  let cl ← takeAll centers k
  match cl with
  | [] => pure (k, none)
  | c :: rest =>
    let M := (argmaxBy (fun x => x.2.2) c rest).2
    let core := fun (x : Nat × (F × F × F) × F) => decide (sqdist x.2.1 M.1 < (x.2.2 + M.2) ^ 2)
    if cl.all core then pure (k, none)
    else pure ((cl.filter core).map Prod.fst, some ((cl.filter fun x => !core x).map Prod.fst))

/-- the loop of `split_clusters`: the clusters that are appended are visited too.
track.py:437-449 -/
def splitLoop (centers : List ((F × F × F) × F)) : Nat → List (List Nat) → R (List (List Nat))
  | _, [] => .ok []
  | 0, _ :: _ => .error .diverge
  | fuel + 1, k :: todo => do
    let r ← splitOne centers k
    let rest ← splitLoop centers fuel (todo ++ r.2.toList)
    pure (r.1 :: rest)

end Track
end Py
end Colloids
