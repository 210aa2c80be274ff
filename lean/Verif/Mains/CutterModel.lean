import Verif.Particles.Model
import Verif.Dat.Model
import Verif.Files.Model
import Mathlib.Logic.Function.Basic

/-! # The program `cutter`: mains/cutter.cpp

The disk gives the contents of the files by their names. All the files can be written. -/

namespace Colloids
namespace Mains

variable {G : Type} [Field G] [LinearOrder G]

/-- The contents of the files, by name. -/
abbrev Disk (G : Type) := List Char → Option (List (Dat.Num G))

/-- One file: mains/cutter.cpp:76-78 and 92-94 with `both`, 84 and 97 without. The radius is the default one. -/
def cutFile (P : RParams G) (H : Heur 3 G) (round : G → G) (junk : Coord G) (both : Bool) (sep : G)
    (file : Option (List (Dat.Num G))) : R (List (Dat.Num G)) := do
  let ps ← Dat.ofDat junk file 1
  if both then do
    let ps ← Particles.makeRTreeIndex P H ps
    let out ← Particles.removeShortRange P H Particles.geometry ps sep
    pure (Dat.exportToFile round out)
  else do
    let out ← Particles.cut P H ps sep
    pure (Dat.exportToFile round out)

/-- The loops on the time steps, mains/cutter.cpp:73-87: the disk at the end, and the exception if there is one. -/
def cutLoop (work : Option (List (Dat.Num G)) → R (List (Dat.Num G))) (inName outName : Nat → R (List Char)) :
    List Nat → Disk G → Disk G × R Unit
  | [], disk => (disk, .ok ())
  | t :: ts, disk =>
    match (do
      let a ← inName t
      let out ← work (disk a)
      let b ← outName t
      pure (b, out) : R (List Char × List (Dat.Num G))) with
    | .error e => (disk, .error e)
    | .ok (b, out) => cutLoop work inName outName ts (Function.update disk b (some out))

/-- The options of the command line, mains/cutter.cpp:33-56. `span` is absent for a single file. -/
structure CutOptions (G : Type) where
  filename : List Char
  minSep : Option G
  token : List Char
  span : Option Nat
  offset : Nat
  both : Bool
  post : List Char

/-- `main`, mains/cutter.cpp:28-107, when `input` is given and `help` is not: then `minSep` is not required by the test of line 60.
`junkSep` is the contents of the variable `minSep`, that is not initialised. -/
def cutter (P : RParams G) (H : Heur 3 G) (round : G → G) (junk : Coord G) (junkSep : G) (o : CutOptions G) (disk : Disk G) :
    Disk G × R Unit :=
  let work := cutFile P H round junk o.both (o.minSep.getD junkSep)
  match o.span with
  | some span =>
    match (do
      let f ← Files.make o.filename o.token span o.offset
      let g ← f.addPostfixExt o.post ['.', 'd', 'a', 't']
      pure (f, g) : R (Files.FileSerie × Files.FileSerie)) with
    | .error e => (disk, .error e)
    | .ok (f, g) => cutLoop work f.name g.name (List.range span) disk
  | none =>
    cutLoop work (fun _ => .ok o.filename) (fun _ => .ok (Files.replaceExt o.filename (o.post ++ ['.', 'd', 'a', 't']))) [0] disk

end Mains
end Colloids
