import Verif.Mains.LinkerModel
import Verif.Mains.FirstMinModel
import Verif.Rdf.Model
import Verif.Bonds.Model

/-! # The programs `all_bonds` and `bonds`: mains/all_bonds.cpp, mains/bonds.cpp

The numbers of the radial distributions are exact, also in the files. All the files can be written. -/

namespace Colloids
namespace Mains

open Dyn Particles

/-- A disk: the files of positions, the text files (trajectories, bonds) and the two columns of the files of distributions, by name. -/
structure BondDisk where
  nums : Disk ℝ
  text : List Char → Option (List Char)
  rdf : List Char → Option (List (ℝ × ℝ))

/-- The beginning of a file of trajectories, mains/all_bonds.cpp:44-50: pattern, token, offset and span. Variables that are not
initialised are 0. -/
noncomputable def readTrajHeader (parse : List Char → Option ℝ) (text : List Char) : List Char × List Char × Nat × Nat :=
  let (s, radius) := readDouble parse { rest := text } 0
  let (s, _) := readDouble parse s radius
  let s := s.get
  let (s, base) := s.getline
  let (s, token) := s.getline
  let (s, offset) := s.readNat 0
  let (_, span) := s.readNat 0
  (base, token, offset, span)

/-- The names of the files of bonds, the head of the names, and the frames with their index, mains/all_bonds.cpp:51-78. The particles have a
radius of 1. `positions.back()` is undefined without frames. Not modelled: the indices are made by several threads. -/
noncomputable def loadFilm (P : RParams ℝ) (H : Heur 3 ℝ) (junk : Coord ℝ) (nums : Disk ℝ) (pattern token : List Char) (offset span : Nat) :
    R (Files.FileSerie × List Char × List (Particles ℝ)) := do
  let dat ← Files.make pattern token span offset
  let bond ← dat.changeExt ['.', 'b', 'o', 'n', 'd', 's']
  let frames ← (List.range span).mapM (fun t => do
    let name ← dat.name t
    Dat.ofDat junk (nums name) 1)
  match frames.getLast? with
  | none => throw .ub
  | some last =>
    if last.pos.isEmpty then throw .invalidArgument
    else do
      let frames ← frames.mapM (makeRTreeIndex P H)
      let head ← dat.head
      pure (bond, head, frames)

/-- `total_g` and the file of the distribution, mains/all_bonds.cpp:80-110: the second column of the file, if it exists, 0 where there is no
row; otherwise the sum of the distributions of the frames, whose mean is written. -/
noncomputable def filmRdf (name : List Char) (frames : List (Particles ℝ)) (disk : BondDisk) : R (BondDisk × List ℝ) :=
  match disk.rdf name with
  | some rows => .ok (disk, (List.range 200).map (fun r => (rows[r]?.map Prod.snd).getD 0))
  | none => do
    let gs ← frames.mapM (fun ps => Rdf.getRdfAll ps 200 15)
    let total := totalG 200 gs
    let rows := total.mapIdx (fun r v => ((r : ℝ) / 200 * 15, v / (frames.length : ℝ)))
    pure ({ disk with rdf := Function.update disk.rdf name (some rows) }, total)

/-- The loop on the time steps, mains/all_bonds.cpp:128-147, one after the other: the threads write different files. -/
noncomputable def bondsLoop (length : ℝ) (name : Nat → R (List Char)) : List (Particles ℝ × Nat) → BondDisk → BondDisk × R Unit
  | [], disk => (disk, .ok ())
  | (ps, t) :: l, disk =>
    match (do
      let ngbs ← makeNgbList Particles.geometry ps length
      let n ← name t
      pure (n, writeBonds (ngb2bonds ngbs)) : R (List Char × List Char)) with
    | .error e => (disk, .error e)
    | .ok (n, out) => bondsLoop length name l { disk with text := Function.update disk.text n (some out) }

/-- `main`, mains/all_bonds.cpp:26-158: the disk at the end, and the exception if there is one. `fuel` bounds the turns of the loop that looks for the
minimum. The assertion on the extension is not modelled; `substr(npos)` throws when there is no dot. -/
noncomputable def allBonds (P : RParams ℝ) (H : Heur 3 ℝ) (parse : List Char → Option ℝ) (junk : Coord ℝ) (filename : List Char) (fuel : Nat)
    (disk : BondDisk) : BondDisk × R Unit :=
  if '.' ∉ filename then (disk, .error .outOfRange)
  else
    match disk.text filename with
    | none => (disk, .error .invalidArgument)
    | some text =>
      let (base, token, offset, span) := readTrajHeader parse text
      match loadFilm P H junk disk.nums (folder filename ++ base) token offset span with
      | .error e => (disk, .error e)
      | .ok (bond, head, frames) =>
        match filmRdf (head ++ ['.', 'r', 'd', 'f']) frames disk with
        | .error e => (disk, .error e)
        | .ok (disk, g) =>
          match bondLengthOf g fuel with
          | .error e => (disk, .error e)
          | .ok length => bondsLoop length bond.name frames.zipIdx disk

/-- `main` of `bonds`, mains/bonds.cpp:26-67: `arg` is the value of the second argument, if any. -/
noncomputable def bondsMain (P : RParams ℝ) (H : Heur 3 ℝ) (junk : Coord ℝ) (filename : List Char) (arg : Option ℝ) (fuel : Nat) (disk : BondDisk) :
    R BondDisk := do
  let ps ← Dat.ofDat junk (disk.nums filename) 1
  let ps ← makeRTreeIndex P H ps
  let g ← match arg with
    | some _ => pure []
    | none => Rdf.getRdfAll ps 200 15
  let length ← bondsMaxLength arg g fuel
  let ngbs ← makeNgbList Particles.geometry ps length
  let name := Files.replaceExt filename ['.', 'b', 'o', 'n', 'd', 's']
  pure { disk with text := Function.update disk.text name (some (writeBonds (ngb2bonds ngbs))) }

end Mains
end Colloids
