import Verif.Tracker.StoreModel
import Mathlib.Algebra.Order.Field.Basic

/-! # The pixels that are centers: graphic/tracker.cpp:541-644 -/

namespace Colloids
namespace Tracker

variable {G : Type} [Field G] [LinearOrder G]

/-- `const size_t margin = 6`, graphic/tracker.cpp:549. -/
def margin : Nat := 6

/-- The strides of the dimensions with at least `2 * margin + 1` pixels, graphic/tracker.cpp:570-572,
578-583, 590-592. -/
def steps (D : Dims) : List Nat :=
  (if D.n0 ≥ 2 * margin + 1 then [D.n1 * D.n2] else []) ++
  (if D.n1 ≥ 2 * margin + 1 then [D.n2] else []) ++
  (if D.n2 ≥ 2 * margin + 1 then [1] else [])

/-- The first useful pixel, graphic/tracker.cpp:569-572. -/
def offset (D : Dims) : Nat := ((steps D).map (margin * ·)).sum

/-- The element `s` places before `p`. -/
def readBack {α : Type} (l : List α) (p s : Nat) : R α := if s ≤ p then getR l (p - s) else .error .ub

/-- The first `find_if`: no neighbour is greater than the pixel `x`, graphic/tracker.cpp:604-608. -/
def noGreater (img : List G) (x : G) (p : Nat) : List Nat → R Bool
  | [] => .ok true
  | s :: ss => do
    let a ← readBack img p s
    if x < a then pure false else do
      let b ← getR img (p + s)
      if x < b then pure false else noGreater img x p ss

/-- The second `find_if`: no preceding neighbour is a center, graphic/tracker.cpp:609-614. -/
def noFlag (map : List Bool) (p : Nat) : List Nat → R Bool
  | [] => .ok true
  | s :: ss => do
    let b ← readBack map p s
    if b then pure false else noFlag map p ss

/-- The condition on a pixel, graphic/tracker.cpp:601-615. -/
def isCenter (D : Dims) (thr : G) (img : List G) (map : List Bool) (p : Nat) : R Bool := do
  let x ← getR img p
  if thr ≤ x then do
    if ← noGreater img x p (steps D) then noFlag map p (steps D) else pure false
  else pure false

/-- The loop on the pixels, graphic/tracker.cpp:595-622. -/
def scan (D : Dims) (thr : G) (img : List G) : Nat → Nat → List Bool → R (List Bool)
  | 0, _, map => .ok map
  | c + 1, p, map => do
    let b ← isCenter D thr img map p
    let map ← setR map p b
    scan D thr img c (p + 1) map

/-- `fill_n(origin + d, k, false)`. -/
def clear : Nat → Nat → List Bool → R (List Bool)
  | 0, _, map => .ok map
  | k + 1, d, map => do
    let map ← setR map d false
    clear k (d + 1) map

/-- What is cleared, place and number, in the second dimension (graphic/tracker.cpp:630-635) and in the third
(graphic/tracker.cpp:636-642; `fill_n` on `rbegin` is done from first to last). -/
def margins (D : Dims) : List (Nat × Nat) :=
  (if D.n1 ≥ 2 * margin + 1 then (List.range D.n0).flatMap fun i =>
    [(i * (D.n1 * D.n2), D.n2 * margin), (i * (D.n1 * D.n2) + (D.n1 - margin) * D.n2, D.n2 * margin)] else []) ++
  (if D.n2 ≥ 2 * margin + 1 then (List.range D.n0).flatMap fun i => (List.range D.n1).flatMap fun j =>
    [(i * (D.n1 * D.n2) + j * D.n2, margin), (i * (D.n1 * D.n2) + j * D.n2 + (D.n2 - margin), margin)] else [])

/-- `Tracker::findPixelCenters` of an image without padding, graphic/tracker.cpp:546-644. If the end of the
loop is before its beginning the pointers leave the image. -/
def findPixelCenters (D : Dims) (threshold : G) (img : List G) (map : List Bool) : R (List Bool) := do
  let thr := threshold * (D.size : G)
  if 2 * offset D > D.size then throw Fault.ub
  let map ← scan D thr img (D.size - 2 * offset D) (offset D) map
  (margins D).foldlM (fun map f => clear f.2 f.1 map) map

/-- The place of a pixel. -/
def Dims.idx (D : Dims) (i j k : Nat) : Nat := i * (D.n1 * D.n2) + j * D.n2 + k

end Tracker
end Colloids
