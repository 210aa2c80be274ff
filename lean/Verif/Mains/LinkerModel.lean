import Verif.Dyn.FileModel
import Verif.Mains.CutterModel

/-! # The program `linker`: mains/linker.cpp -/

namespace Colloids
namespace Mains

open Dyn

variable {G : Type} [Field G] [LinearOrder G]

/-- A disk: the files of numbers (positions and displacements) and the files of trajectories, by name. -/
structure FilmDisk (G : Type) where
  nums : Disk G
  text : List Char → Option (List Char)

/-- The disk as the constructor from a file of trajectories reads it: `Particles(filename, radius)` is lib/particles.cpp:35-60. `junk` is the
previous contents of the box. -/
def FilmDisk.fs (junk : Coord G) (d : FilmDisk G) : FS G := ⟨d.text, fun name r => Dat.ofDat junk (d.nums name) r⟩

/-- `main`, mains/linker.cpp:25-59, from the test on `argc`, which is at least 5: `span` is `argv[5]`, `none` if there are 4 arguments only; then `atoi` is
called with a null pointer. The `radius` and the time step are the values of `argv[3]` and `argv[4]`. The constructor is
lib/dynamicParticles.cpp:60-66. `shw` prints a number. The file of trajectories can be written. -/
def linker (P : RParams G) (H : Heur 3 G) (shw : G → List Char) (junk : Coord G) (filename token : List Char) (radius dt : G) (span : Option Nat)
    (offset : Nat) (disk : FilmDisk G) : R (FilmDisk G) :=
  match span with
  | none => .error .ub
  | some span => do
    let files ← Files.make filename token span offset
    let frames ← fillFrames (disk.fs junk) files radius
    let head ← files.head
    let D := removeDriftFile ⟨frames, ⟨[], []⟩, radius, none, []⟩ (disk.nums (head ++ ['.', 'd', 'i', 's', 'p', 'l'])) files.offset
    let D ← link P H D
    let names := linkerNames filename token
    let text ← TrajFile.text shw ⟨D.radius, dt, names.2, token, offset, span, D.trajectories.trajs⟩
    pure { disk with text := Function.update disk.text names.1 (some text) }

end Mains
end Colloids
