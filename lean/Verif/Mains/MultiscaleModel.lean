import Verif.Lif.Model
import Verif.Centers.Model
import Verif.Files.Model
import Mathlib.Logic.Function.Basic

/-! # The program `multiscale`: multiscale/main.cpp

The finder of centers of three dimensional images is a parameter: a function of its configuration and of the bytes of the image
(the container of the centers is cleared by `subpix`, multiscalefinder.hpp:96). The computation of a deconvolution kernel is another
one (see C79). The disk gives the contents of the text files by their names: rows of numbers. All the files can be written. -/

namespace Colloids

namespace Lif

/-- `LifSerieHeader::getVoxelSize`, multiscale/src/lifFile.cpp:66-76. The settings of the scanner give the number written in the setting
of a name; a text that is not a number is read as 0. -/
def voxelSize {G : Type} [Zero G] (settings : String → Option G) (axis : String) : G :=
  match settings ("dblVoxel" ++ axis) with
  | none => 0
  | some v => v

/-- `LifSerieHeader::getZXratio`, multiscale/src/lifFile.cpp:118-125. `inf` is the infinite number a division by zero gives. -/
def zxRatio {G : Type} [Field G] [DecidableEq G] (inf : G) (settings : String → Option G) : G :=
  let x := voxelSize settings "X"
  let z := voxelSize settings "Z"
  if z = 0 then 1 else if x = 0 then inf else z / x

end Lif

namespace Mains

open Lif (Byte Serie)

variable {G : Type} [Field G] [LinearOrder G]

/-- The contents of the text files, by name. -/
abbrev Sheets (G : Type) := List Char → Option (List (List G))

/-- The options of the command line, multiscale/main.cpp:21-42. The kernel file may be absent. The options `verbose` and `incore`
do not change the results, `preblur-width` is a parameter of the finder, and the series is already chosen. -/
structure MsOptions where
  output : List Char
  start : Int
  octave0 : Bool
  deconv : Int
  kernelFile : Option (List Char)

/-- The settings of the finder: multiscale/main.cpp:89-90, `set_halfZpreblur`, `load_deconv_kernel` with `set_deconv`. -/
structure MsConfig (G : Type) where
  octave0 : Bool
  halfZ : Bool
  kernel : Option (List G)

/-- The image of a time step, multiscale/main.cpp:121-123 and 181: the part of the memory mapped file from the offset of the time step.
Reading after the end of the file is undefined. -/
def msImage (s : Serie) (n t : Nat) : R (List Byte) := do
  let o ← s.getOffset t
  if s.file.bytes.length < o + n then .error .ub else pure ((s.file.bytes.drop o).take n)

/-- `MultiscaleFinder3D::load_deconv_kernel` and `set_deconv`, multiscale/src/multiscalefinder.cpp:80-91 and octavefinder.cpp:251-263.
The octave 1 exists when no dimension is less than 10 (multiscalefinder.cpp:50). -/
def msLoadKernel (X Y Z : Nat) (k : List G) (c : MsConfig G) : R (MsConfig G) :=
  if 10 ≤ Z ∧ 10 ≤ Y ∧ 10 ≤ X then
    if k.length ≠ Z / 2 + 1 then .error .invalidArgument else .ok { c with kernel := some k }
  else .ok c

/-- The choice of the deconvolution, multiscale/main.cpp:89-165. Messages with `EXIT_FAILURE` are given as `invalidArgument`.
`halfZpreblur` too is a setting of the octave 1. `round` is what printing does to a number. Reading the kernel gives
all the numbers of the file. -/
def msSetup (round : G → G) (kernelOf : List Byte → R (List G)) (o : MsOptions) (s : Serie) (X Y Z : Nat) (disk : Sheets G) :
    Sheets G × R (MsConfig G) :=
  let c : MsConfig G := ⟨o.octave0, false, none⟩
  if o.deconv = 0 then (disk, .ok { c with halfZ := decide (10 ≤ Z ∧ 10 ≤ Y ∧ 10 ≤ X) })
  else if o.deconv = 1 then
    match o.kernelFile with
    | none => (disk, .error .invalidArgument)
    | some f =>
      match (do
        let im ← msImage s (X * Y * Z) 0
        kernelOf im : R (List G)) with
      | .error e => (Function.update disk f (some []), .error e)
      | .ok k => (Function.update disk f (some [k.map round]), msLoadKernel X Y Z k c)
  else if o.deconv = 2 then
    match o.kernelFile with
    | none => (disk, .error .invalidArgument)
    | some f =>
      match disk f with
      | none => (disk, .error .invalidArgument)
      | some rows => (disk, msLoadKernel X Y Z rows.flatten c)
  else (disk, .ok c)

/-- `centers[c][2] *= ZXratio`, multiscale/main.cpp:214-215. -/
def stretchZ (ratio : G) (c : Center 3 G) : Center 3 G :=
  { c with coords := fun i => if i = 2 then c.coords i * ratio else c.coords i }

/-- One row of the output, multiscale/main.cpp:230-232. -/
def msRow (round : G → G) (c : Center 3 G) : List G :=
  [round (c.coords 0), round (c.coords 1), round (c.coords 2), round c.r, round c.intensity]

/-- One time step, multiscale/main.cpp:181-233: the contents of the file, if one is written. -/
def msFrame (P : RParams G) (H : Heur 3 G) (sort : List (Center 3 G) → List (Center 3 G)) (round : G → G)
    (find : List Byte → R (List (Center 3 G))) (ratio : G) (s : Serie) (n t : Nat) : R (Option (List (List G))) := do
  let im ← msImage s n t
  let centers ← find im
  if centers.isEmpty then pure none
  else do
    let r ← Center.removeHalfOverlapping P H sort (centers.map (stretchZ ratio))
    pure (some (r.1.map (msRow round)))

/-- The name of the output, multiscale/main.cpp:223-224. -/
def msName (output : List Char) (t : Nat) : List Char := output ++ ['_', 't'] ++ Files.pad 3 t

/-- The loop on the time steps, multiscale/main.cpp:178-237: the disk at the end, and the exception if there is one. -/
def msLoop (frame : Nat → R (Option (List (List G)))) (output : List Char) : List Nat → Sheets G → Sheets G × R Unit
  | [], disk => (disk, .ok ())
  | t :: ts, disk =>
    match frame t with
    | .error e => (disk, .error e)
    | .ok none => msLoop frame output ts disk
    | .ok (some rows) => msLoop frame output ts (Function.update disk (msName output t) (some rows))

/-- `main`, multiscale/main.cpp:13-252, on a series. The first time step is an `int` converted to `size_t`. -/
def multiscale (P : RParams G) (H : Heur 3 G) (sort : List (Center 3 G) → List (Center 3 G)) (round : G → G) (inf : G)
    (find : MsConfig G → List Byte → R (List (Center 3 G))) (kernelOf : List Byte → R (List G)) (settings : String → Option G)
    (o : MsOptions) (s : Serie) (disk : Sheets G) : Sheets G × R Unit :=
  match s.spatialDimensions with
  | [X, Y, Z] =>
    match msSetup round kernelOf o s X Y Z disk with
    | (disk, .error e) => (disk, .error e)
    | (disk, .ok c) =>
      msLoop (msFrame P H sort round (find c) (Lif.zxRatio inf settings) s (X * Y * Z)) o.output
        (List.range' (Lif.toU64 o.start) (s.nbTimeSteps - Lif.toU64 o.start)) disk
  | _ => (disk, .error .invalidArgument)

end Mains
end Colloids
