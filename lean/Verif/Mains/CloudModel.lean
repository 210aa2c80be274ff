import Verif.Dat.Model

/-! # The files `.cloud` of the programs `boo` and `boo_flip`: mains/boo.cpp and mains/boo_flip.cpp

`inv t l` gives the two invariants of the tensor `t` of a particle (`BooData::getInvarients`). Digits of numbers are not modelled. -/

namespace Colloids
namespace Mains
namespace Cloud

/-- A line of a file: names of columns or numbers. -/
inductive Line (G : Type)
  | head : List String → Line G
  | row : List G → Line G

/-- An `ofstream` and what its file contains. -/
structure OFile (G : Type) where
  lines : List (Line G)
  isOpen : Bool

variable {G V : Type}

/-- A file that was just open and truncated. -/
def OFile.new : OFile G := ⟨[], true⟩

/-- Writing lines. Nothing is written once the file is closed: only `badbit` is set. -/
def OFile.write (f : OFile G) (l : List (Line G)) : OFile G := if f.isOpen then { f with lines := f.lines ++ l } else f

/-- `close`. -/
def OFile.close (f : OFile G) : OFile G := { f with isOpen := false }

/-- `cloud_exporter`, lib/boo_data.hpp:123-136. -/
def cloudExporter (inv : V → Nat → G × G) (t : V) : Line G :=
  .row [(inv t 4).1, (inv t 6).1, (inv t 8).1, (inv t 10).1, (inv t 4).2, (inv t 6).2, (inv t 8).2, (inv t 10).2]

/-- mains/boo.cpp:109, mains/boo_flip.cpp:332. -/
def head8 : Line G := .head ["q4", "q6", "q8", "q10", "w4", "w6", "w8", "w10"]

/-- mains/boo.cpp:118, mains/boo_flip.cpp:341. -/
def headCg8 : Line G := .head ["Q4", "Q6", "Q8", "Q10", "W4", "W6", "W8", "W10"]

/-- mains/boo.cpp:127, mains/boo_flip.cpp:350 and 359. -/
def head4 : Line G := .head ["Q4", "Q6", "W4", "W6"]

/-- The files `.cloud`, `_space.cloud` and `_surf.cloud` of `calculateBoo`, mains/boo.cpp:107-133. -/
def booFiles (inv : V → Nat → G × G) (qlm cg sf : List V) : OFile G × OFile G × OFile G :=
  let cloudFile := ((OFile.new.write [head8]).write (qlm.map (cloudExporter inv))).close
  let cloudCgFile := ((OFile.new.write [headCg8]).write (cg.map (cloudExporter inv))).close
  let cloudSfFile := OFile.new
  let cloudCgFile := cloudCgFile.write [head4]
  let cloudSfFile := (cloudSfFile.write (sf.map (cloudExporter inv))).close
  (cloudFile, cloudCgFile, cloudSfFile)

/-- The files `.cloud`, `_space.cloud`, `_flip.cloud` and `_flip2.cloud` of `boo_flip`, mains/boo_flip.cpp:330-365. -/
def flipFiles (inv : V → Nat → G × G) (qlm cg first second : List V) : List (OFile G) :=
  [((OFile.new.write [head8]).write (qlm.map (cloudExporter inv))).close,
   ((OFile.new.write [headCg8]).write (cg.map (cloudExporter inv))).close,
   ((OFile.new.write [head4]).write (first.map (cloudExporter inv))).close,
   ((OFile.new.write [head4]).write (second.map (cloudExporter inv))).close]

/-- The numbers of a line. -/
def Line.numbers : Line G → List (Dat.Num G)
  | .head _ => []
  | .row l => l.map .dbl

/-- `Particles::loadBoo`, lib/particles.cpp:969-987, with the line that is skipped. -/
def loadCloud [NatCast G] [Zero G] (n : Nat) (f : OFile G) : R (List G) := Dat.loadBoo n (some (f.lines.tail.flatMap Line.numbers))

end Cloud
end Mains
end Colloids
