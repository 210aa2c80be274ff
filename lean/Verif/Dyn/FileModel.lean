import Verif.Dyn.Model
import Verif.Files.Model

/-! # Trajectory files: `DynamicParticles::save`, the constructor from a file, and the program `linker`

lib/dynamicParticles.cpp:67-98, 274-297; mains/linker.cpp. Strings are lists of characters. Printing and parsing
of doubles are parameters. -/

namespace Colloids
namespace Dyn

/-- Characters that may belong to a number for `is >> double` (without hexadecimal, infinities and `nan`). -/
def isNumChar (c : Char) : Bool := c.isDigit || c == '+' || c == '-' || c == '.' || c == 'e' || c == 'E'

/-- `is >> x` for a double: white space is skipped, then the characters of a number are read and converted by `parse`
(`none`: not a number, `failbit` and 0). Model of the standard library. -/
def readDouble {G : Type} [Zero G] (parse : List Char → Option G) (s : IStream) (old : G) : IStream × G :=
  if !s.good then ({ s with fail := true }, old)
  else
    let r := s.rest.dropWhile isSpace
    if r.isEmpty then ({ rest := [], eof := true, fail := true }, old)
    else
      let ds := r.takeWhile isNumChar
      let r' := r.dropWhile isNumChar
      match parse ds with
      | some x => ({ rest := r', eof := r'.isEmpty, fail := false }, x)
      | none => ({ rest := r', eof := r'.isEmpty, fail := true }, 0)

/-- What a trajectory file holds. -/
structure TrajFile (G : Type) where
  radius : G
  dt : G
  base : List Char
  token : List Char
  offset : Nat
  size : Nat
  trajs : List Traj

/-- The text that `save` writes, lib/dynamicParticles.cpp:281-292. -/
def TrajFile.text {G : Type} (shw : G → List Char) (f : TrajFile G) : R (List Char) := do
  let t ← TrajIndex.write f.trajs
  pure (shw f.radius ++ '\t' :: (shw f.dt ++ '\n' :: (f.base ++ '\n' :: (f.token ++ '\n' ::
    (showNat f.offset ++ '\t' :: (showNat f.size ++ '\n' :: t))))))

/-- `input >> trajectories`, lib/traj.cpp:207-224, on a stream that was already used. -/
def readTrajs (s : IStream) : R (List Traj) :=
  let (s', start) := s.readNat 0
  TrajIndex.readLoop (s.rest.length + 1) s' start []

/-- What the constructor reads in a file, lib/dynamicParticles.cpp:78-96. Variables that are not initialised are 0. -/
def TrajFile.parse {G : Type} [Zero G] (parse : List Char → Option G) (text : List Char) : R (TrajFile G) :=
  let (s, radius) := readDouble parse { rest := text } 0
  let (s, dt) := readDouble parse s 0
  let s := s.get
  let (s, base) := s.getline
  let (s, token) := s.getline
  let (s, offset) := s.readNat 0
  let (s, size) := s.readNat 0
  do
    let trajs ← readTrajs s
    pure { radius := radius, dt := dt, base := base, token := token, offset := offset, size := size, trajs := trajs }

/-- `find_last_of("/\\")`: is the character one of them? -/
def isSlash (c : Char) : Bool := c == '/' || c == '\\'

/-- `name.substr(0, name.find_last_of("/\\")+1)`, lib/dynamicParticles.cpp:70-71; empty without slash (`npos+1` is 0). -/
def folder (name : List Char) : List Char := (name.reverse.dropWhile fun c => !isSlash c).reverse

/-- `name.substr(name.find_last_of("/\\")+1)`, mains/linker.cpp:47. -/
def noFolder (name : List Char) : List Char := (name.reverse.takeWhile fun c => !isSlash c).reverse

/-- A file system, as far as trajectories are concerned: the text of trajectory files and the particles that
`Particles(filename, radius)` reads in position files (or the exception it throws). -/
structure FS (G : Type) where
  text : List Char → Option (List Char)
  parts : List Char → G → R (Particles G)

/-- `fill`, lib/dynamicParticles.cpp:1469-1474. -/
def fillFrames {G : Type} (fs : FS G) (f : Files.FileSerie) (radius : G) : R (List (Particles G)) :=
  (List.range f.length).mapM fun t => do
    let name ← f.name t
    fs.parts name radius

/-- Constructor from a trajectory file, lib/dynamicParticles.cpp:67-98. A file that does not exist is refused. -/
def openTraj {G : Type} [Zero G] (fs : FS G) (parse : List Char → Option G) (filename : List Char) :
    R (DynParts G × G) :=
  match fs.text filename with
  | none => .error .invalidArgument
  | some text => do
    let f ← TrajFile.parse parse text
    let files ← Files.make (folder filename ++ f.base) f.token f.size f.offset
    let positions ← fillFrames fs files f.radius
    let inverse ← TrajIndex.makeInverse f.trajs (positions.map fun ps => ps.pos.length)
    pure ({ positions := positions, trajectories := ⟨f.trajs, inverse⟩, radius := f.radius, index := none, ngbs := [] },
      f.dt)

/-- Names used by `linker`, mains/linker.cpp:46-48: the trajectory file, and the name of the positions kept in it.
`substr(0, npos)` is the whole name. -/
def linkerNames (filename token : List Char) : List Char × List Char :=
  let head := match Files.rfind filename token with
    | some i => filename.take i
    | none => filename
  (head ++ ['.', 't', 'r', 'a', 'j'], noFolder filename)

end Dyn
end Colloids
