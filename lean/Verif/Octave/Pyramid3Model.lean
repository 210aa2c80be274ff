import Verif.Octave.PyramidModel

/-! # Downscaling of volumes, upscaling of lines

`multiscale/src/multiscalefinder.cpp`. The blurs are not modelled: their result is an input. -/

namespace Colloids
namespace Octave

variable {G : Type} [Field G] [LinearOrder G]

/-- A volume. -/
structure Vol (G : Type) where
  planes : Nat
  rows : Nat
  cols : Nat
  px : Nat → Nat → Nat → G

/-- `a(k, j, i)`. -/
def Vol.get (a : Vol G) (k j i : Nat) : R G :=
  if k < a.planes ∧ j < a.rows ∧ i < a.cols then .ok (a.px k j i) else .error .ub

/-- A pixel of the downscaled volume, multiscalefinder.cpp 170-175. -/
def octant (a : Vol G) (k j i : Nat) : R G := do
  let p0 ← a.get (2 * k) (2 * j) (2 * i)
  let p1 ← a.get (2 * k) (2 * j) (2 * i + 1)
  let p2 ← a.get (2 * k) (2 * j + 1) (2 * i)
  let p3 ← a.get (2 * k) (2 * j + 1) (2 * i + 1)
  let p4 ← a.get (2 * k + 1) (2 * j) (2 * i)
  let p5 ← a.get (2 * k + 1) (2 * j) (2 * i + 1)
  let p6 ← a.get (2 * k + 1) (2 * j + 1) (2 * i)
  let p7 ← a.get (2 * k + 1) (2 * j + 1) (2 * i + 1)
  pure (1 / 8 * (p0 + p1 + p2 + p3 + p4 + p5 + p6 + p7))

/-- `MultiscaleFinder3D::downscale` (multiscalefinder.cpp 158-177): `a` is the layer of the previous octave; `planes`,
`rows`, `cols` are the sizes of this octave. The new volume is filled with 0 first. -/
def downscale3 (a : Vol G) (planes rows cols : Nat) : R (Nat → Nat → Nat → G) :=
  ((List.range planes).takeWhile (fun k => decide (2 * k + 1 < a.planes))).foldlM (fun roi k =>
    ((List.range rows).takeWhile (fun j => decide (2 * j + 1 < a.rows))).foldlM (fun roi j =>
      ((List.range cols).takeWhile (fun i => decide (2 * i + 1 < a.cols))).foldlM (fun roi i => do
        let v ← octant a k j i
        pure (fun k' j' i' => if k' = k ∧ j' = j ∧ i' = i then v else roi k' j' i')) roi) roi) (fun _ _ _ => 0)

/-- `MultiscaleFinder1D::upscale` (multiscalefinder.cpp 220-244) of the line `row` of `n` pixels, which is the input after
the blur of line 226. -/
def upscale1 (row : Nat → G) (n : Nat) : R (Mem G) := do
  let m ← copyEven row n 0 { size := 2 * n, val := fun _ => 0 }
  interpolateOdd (n - 1) 1 m

end Octave
end Colloids
