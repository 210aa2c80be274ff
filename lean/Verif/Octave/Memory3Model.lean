import Verif.Common
import Mathlib.Algebra.Field.Defs
import Mathlib.Algebra.Order.Field.Basic

/-! # Memory, preblur and checks of the 3D finders

octavefinder.cpp:52-99 (constructor of `OctaveFinder3D`), 251-263 (deconvolution kernel), 280-305 (preblur),
multiscalefinder.cpp:68-124 -/

namespace Colloids
namespace Octave

/-- 2^31. -/
def intLimit : Nat := 2147483648

/-- `nplanes * nrows * ncols`, a product of `int`, octavefinder.cpp:55. An overflow is undefined behaviour. -/
def nbPixels3 (nplanes nrows ncols : Nat) : R Nat :=
  if nplanes * nrows < intLimit ∧ nplanes * nrows * ncols < intLimit then .ok (nplanes * nrows * ncols)
  else .error .ub

/-- The memory of `OctaveFinder3D`: the number of bytes allocated or mapped (octavefinder.cpp:58, 74), and the address
and the number of bytes of the images `layersG` (81-85), `layers` (86-90) and `layersG2D` (93-97). `sizeof(PixelType)`
is 4. -/
structure Memory3 where
  bytes : Nat
  layersG : List (Nat × Nat)
  layers : List (Nat × Nat)
  layersG2D : List (Nat × Nat)

/-- Constructor of `OctaveFinder3D`, octavefinder.cpp:52-99: what concerns the memory. -/
def memory3 (nplanes nrows ncols nbLayers : Nat) : R Memory3 := do
  let nb ← nbPixels3 nplanes nrows ncols
  pure
    { bytes := nb * 4 * (nbLayers + 3)
      layersG := (List.range (nbLayers + 3)).map fun i => (i * nb * 4, nb * 4)
      layers := (List.range (nbLayers + 2)).map fun i => ((i + (nbLayers + 3)) * nb * 4, nb * 4)
      layersG2D := (List.range (nbLayers + 3)).map fun i => (i * nb * 4, nb * 4) }

/-- The settings of the preblur (octavefinder.hpp: `ZXratio`, `halfZpreblur`, `deconv`, `deconvKernel`). -/
structure Preblur3 (G : Type) where
  radius : G
  zxRatio : G
  halfZ : Bool
  deconv : Bool
  kernelSize : Nat

variable {G : Type} [Field G]

/-- The radius of the blur along Z, in planes, and along X and Y, in pixels: `OctaveFinder3D::preblur`,
octavefinder.cpp:280-305, and `inplace_blur3D`, 212-249. -/
def Preblur3.radii (p : Preblur3 G) : G × G :=
  if p.deconv then (p.radius / 1, p.radius)
  else if p.halfZ then (p.radius / (1 / 2), p.radius)
  else (p.radius / p.zxRatio, p.radius)

/-- Operations on the settings. -/
inductive Setting (G : Type)
  | zxRatio (r : G)
  | halfZ (b : Bool)
  | loadKernel (size : Nat)
  | deconv (b : Bool)

/-- `set_ZXratio`, `set_halfZpreblur` (octavefinder.hpp), `load_deconv_kernel` and `set_deconv`
(octavefinder.cpp:251-263) of an octave of `depth` planes. -/
def Preblur3.set (depth : Nat) (p : Preblur3 G) : Setting G → R (Preblur3 G)
  | .zxRatio r => .ok { p with zxRatio := r }
  | .halfZ b => .ok { p with halfZ := b }
  | .loadKernel n => if n ≠ depth / 2 + 1 then .error .invalidArgument else .ok { p with kernelSize := n }
  | .deconv b =>
    if b = true ∧ p.kernelSize ≠ depth / 2 + 1 then .error .invalidArgument else .ok { p with deconv := b }

/-- A program that sets and catches the exceptions. -/
def Preblur3.setAll (depth : Nat) (p : Preblur3 G) (l : List (Setting G)) : Preblur3 G :=
  l.foldl (fun p s => match p.set depth s with | .ok p' => p' | .error _ => p) p

/-- The checks of `OctaveFinder::fill` and `preblur_and_fill`, octavefinder.cpp:132-151, 319-333. -/
def octaveCheck (dims input : List Nat) : R Unit :=
  if input = dims then .ok () else .error .invalidArgument

/-- `MultiscaleFinder::fill`, multiscalefinder.cpp:96-124: the checks and the accesses to the planes. `dims` is the size
of the finder (depth, width, height in three dimensions; width, height in two), `octave0` if octave 0 is used, `nb` the
number of octaves. `upscale` makes an image of twice the size of the finder (three dimensions) or of the input (two
dimensions); in three dimensions it writes the planes `2*k`, for all the planes `k` of the input
(multiscalefinder.cpp:247-278), and reads `input.size[2]`. In two dimensions the input has two dimensions as well. -/
def fillChecks (dims input : List Nat) (octave0 : Bool) (nb : Nat) : R Unit := do
  if input.length < 2 then throw Fault.ub
  if input[input.length - 2]? ≠ dims[dims.length - 2]? then throw Fault.invalidArgument
  if input[input.length - 1]? ≠ dims[dims.length - 1]? then throw Fault.invalidArgument
  if octave0 then
    if dims.length = 3 then
      if input.length ≠ 3 ∨ dims.head?.getD 0 < input.head?.getD 0 then throw Fault.ub
  if 1 < nb then octaveCheck dims input else pure ()

end Octave
end Colloids
