import Verif.Particles.Model
import Mathlib.Data.Fin.VecNotation

/-! # Files of coordinates: lib/particles.cpp:35-80, 833-854, 965-986

A text file is the list of the numbers it contains, separated by white space. `round` is the change that
a `double` suffers when it is printed with the default precision. Reading an unsigned integer where the
text has another number is modelled as a failure of the stream. -/

namespace Colloids
namespace Dat

/-- A number in a text file. -/
inductive Num (G : Type)
  | nat (n : Nat)
  | dbl (x : G)

/-- An `ifstream`: the rest of the file and the failure bit. -/
structure In (G : Type) where
  rest : List (Num G)
  fail : Bool

/-- `file >> v` for an unsigned integer `v`: a stream that has failed reads nothing. -/
def In.readNat (s : In G) (v : Nat) : Nat × In G :=
  if s.fail then (v, s) else
  match s.rest with
  | .nat n :: rest => (n, ⟨rest, false⟩)
  | rest => (v, ⟨rest, true⟩)

/-- `file >> v` for a `double`. At the end of the file `v` keeps its value. -/
def In.readDbl [NatCast G] (s : In G) (v : G) : G × In G :=
  if s.fail then (v, s) else
  match s.rest with
  | .nat n :: rest => ((n : G), ⟨rest, false⟩)
  | .dbl x :: rest => (x, ⟨rest, false⟩)
  | [] => (v, ⟨[], true⟩)

/-- `file >> p[0] >> p[1] >> p[2]`. -/
def In.readCoord [NatCast G] (s : In G) (p : Coord G) : Coord G × In G :=
  let x := s.readDbl (p 0)
  let y := x.2.readDbl (p 1)
  let z := y.2.readDbl (p 2)
  (![x.1, y.1, z.1], z.2)

/-- The loop on the particles, lib/particles.cpp:53-55; all coordinates start at zero (line 44). -/
def readAll [NatCast G] [Zero G] : Nat → In G → List (Coord G)
  | 0, _ => []
  | n + 1, s => (s.readCoord (fun _ => 0)).1 :: readAll n (s.readCoord (fun _ => 0)).2

/-- Constructor from a DAT file, lib/particles.cpp:35-60. `junk` is the previous contents of the upper
edges of the box, that are not initialised. -/
def ofDat [NatCast G] [Zero G] (junk : Coord G) (file : Option (List (Num G))) (r : G) :
    R (Particles G) :=
  match file with
  | none => .error .invalidArgument
  | some l =>
    let h1 := (In.mk l false).readNat 0
    let h2 := h1.2.readNat 0
    let h3 := h2.2.readNat h1.1
    let e := h3.2.readCoord junk
    .ok ⟨readAll h2.1 e.2, ⟨fun _ => 0, e.1⟩, r, none⟩

/-- Constructor from a GRV file, lib/particles.cpp:63-80. -/
def ofGrv [NatCast G] [Zero G] (n : Nat) (b : Box 3 G) (file : Option (List (Num G))) (r : G) :
    R (Particles G) :=
  match file with
  | none => .error .invalidArgument
  | some l => .ok ⟨readAll n ⟨l, false⟩, b, r, none⟩

/-- The numbers of the coordinates of a particle, lib/particles.cpp:846-848. -/
def printCoord (round : G → G) (p : Coord G) : List (Num G) :=
  [.dbl (round (p 0)), .dbl (round (p 1)), .dbl (round (p 2))]

/-- `Particles::exportToFile`, lib/particles.cpp:833-854, when the file can be opened. -/
def exportToFile (round : G → G) (ps : Particles G) : List (Num G) :=
  [.nat 1, .nat ps.pos.length, .nat 1] ++ printCoord round ps.bb.hi
    ++ ps.pos.flatMap (printCoord round)

/-- The `std::copy` of `Particles::loadBoo`, lib/particles.cpp:979-982, from position `i` on. -/
def copyFrom [NatCast G] : List (Num G) → Nat → List G → R (List G)
  | [], _, qw => .ok qw
  | .nat n :: l, i, qw => do
    let qw ← setR qw i (n : G)
    copyFrom l (i + 1) qw
  | .dbl x :: l, i, qw => do
    let qw ← setR qw i x
    copyFrom l (i + 1) qw

/-- `Particles::loadBoo`, lib/particles.cpp:966-985, on the numbers that follow the first line. The
array is resized to 8 values per particle; it is new here. -/
def loadBoo [NatCast G] [Zero G] (n : Nat) (file : Option (List (Num G))) : R (List G) :=
  match file with
  | none => .error .invalidArgument
  | some l => copyFrom l 0 (List.replicate (8 * n) 0)

end Dat
end Colloids
