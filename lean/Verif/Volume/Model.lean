import Verif.Common
import Mathlib.Algebra.Order.Floor.Ring
import Mathlib.Algebra.Order.Field.Basic

/-!
# Synthetic volumes

Model of `drawsphere` and `volume_shrink` (multiscale/src/octavefinder.hpp 201-238), used to
make images of known spheres. A volume is the list of its pixels, the last coordinate being
the fastest. Double precision is replaced by a linear ordered field.
-/

namespace Colloids.Volume

variable {G : Type} [Field G] [LinearOrder G] [FloorRing G]

/-- Address of a pixel (`cv::Mat_::operator()(k,j,i)`, without the checks of debug builds). -/
def addr (ny nx k j i : Nat) : Nat := (k * ny + j) * nx + i

/-- The values of the index of a loop of `drawsphere` (octavefinder.hpp 206, 209 or 212): from
`max(0, c-r)`, truncated, while less than `min(size, c+r+1)`. A bound outside of the range
of `int` is not modelled. -/
def span (size : Nat) (c r : G) : List Nat :=
  let first := ⌊max 0 (c - r)⌋₊
  List.range' first (⌈min (size : G) (c + r + 1)⌉₊ - first)

/-- `drawsphere` (octavefinder.hpp 201-221). -/
def drawsphere {T : Type} (nz ny nx : Nat) (input : List T) (z y x r : G) (value : T) :
    R (List T) :=
  let rsq := r * r
  (span nz z r).foldlM (fun d (k : Nat) =>
    let dz := ((k : G) - z) ^ 2
    (span ny y r).foldlM (fun d (j : Nat) =>
      let dy := ((j : G) - y) ^ 2
      (span nx x r).foldlM (fun d (i : Nat) =>
        let distsq := ((i : G) - x) ^ 2 + dy + dz
        if distsq < rsq then setR d (addr ny nx k j i) value else .ok d) d) d) input

/-- Conversion of a floating point number to an integer: towards zero. -/
def trunc (v : G) : Int := if v < 0 then ⌈v⌉ else ⌊v⌋

/-- `std::accumulate(a, a+factor, 0)` (octavefinder.hpp 234): the accumulator is an `int`, the
sum is converted at each step. Overflow is not modelled. -/
def accumulate (a : List G) : Int := a.foldl (fun acc v => trunc ((acc : G) + v)) 0

/-- `volume_shrink` (octavefinder.hpp 222-238). `conv` is the conversion of a `double` to the type of
the pixels: truncation for integers, nothing for floating point numbers. `snz`, `sny` and `snx`
are the sizes of the small volume, `lny` and `lnx` sizes of the large one. -/
def shrink (conv : G → G) (snz sny snx lny lnx : Nat) (large : List G) (factor : Nat) :
    R (List G) :=
  (List.range snz).foldlM (fun d k =>
    (List.range sny).foldlM (fun d j =>
      (List.range snx).foldlM (fun d i => do
        let v ← (List.range factor).foldlM (fun (v : G) mk =>
          (List.range factor).foldlM (fun (v : G) mj => do
            let a ← (List.range factor).mapM (fun mi =>
              getR large (addr lny lnx (factor * k + mk) (factor * j + mj) (factor * i) + mi))
            pure (v + (accumulate a : Int))) v) 0
        setR d (addr sny snx k j i) (conv (v / ((factor * factor * factor : Nat) : G) + 1 / 2)))
        d) d) (List.replicate (snz * sny * snx) 0)

end Colloids.Volume
