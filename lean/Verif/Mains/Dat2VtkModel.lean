import Verif.Vtk.Model
import Verif.Mains.CutterModel

/-! # The program `dat2vtk`: mains/dat2vtk.cpp

The disks give the contents of the files by their names: `disk` those of numbers (without the first line for the `.cloud` files), `texts` those of
bonds. -/

namespace Colloids
namespace Mains

variable {G : Type} [NatCast G] [Zero G] [One G]

/-- `ScalarField(qw.begin(), qw.end(), "", i)`, mains/dat2vtk.cpp:48 and lib/fields.hpp:107-113: one column of a table of 8 columns. The index is
within the table. -/
def columnOf (qw : List G) (n i : Nat) : List G := (List.range n).map (fun p => qw.getD (8 * p + i) 0)

/-- The name of the field `i`, mains/dat2vtk.cpp:52. -/
def fieldName (i : Nat) : List Char :=
  (if i / 4 ≠ 0 then ['c', 'g'] else []) ++ (if i / 2 % 2 ≠ 0 then ['W'] else ['Q']) ++ (if i % 2 ≠ 0 then ['6'] else ['4'])

/-- `main`, mains/dat2vtk.cpp:26-63: the name and the content of the file that is written. `args` are the arguments of the command
line after the name of the program. `junk` is the previous contents of the box. -/
def dat2vtk (print : G → List Char) (junk : Coord G) (args : List (List Char)) (disk : Disk G)
    (texts : List Char → Option (List Char)) : R (List Char × List Char) :=
  match args with
  | filename :: _ :: _ => do
    let inputPath := Files.replaceExt filename []
    let tokenPos := Files.rfind inputPath ['_', 't']
    let parts ← Dat.ofDat junk (disk filename) 1
    let bonds ← loadBonds (texts (inputPath ++ ['.', 'b', 'o', 'n', 'd', 's']))
    let qw ← Dat.loadBoo parts.pos.length (disk (inputPath ++ ['.', 'c', 'l', 'o', 'u', 'd']))
    let space ← match tokenPos with
      | none => .error .outOfRange
      | some k => .ok (inputPath.take k ++ ['_', 's', 'p', 'a', 'c', 'e'] ++ inputPath.drop k ++ ['.', 'c', 'l', 'o', 'u', 'd'])
    let Sqw ← Dat.loadBoo parts.pos.length (disk space)
    let columns := (List.range 4).map (columnOf qw parts.pos.length) ++ (List.range 4).map (columnOf Sqw parts.pos.length)
    let scalars : List (Vtk.Scalars G) := columns.zipIdx.map (fun c => ⟨fieldName c.2, c.1⟩)
    pure (inputPath ++ ['.', 'v', 't', 'k'],
      Vtk.exportToVTK print parts.pos bonds scalars [] ['p', 'a', 'r', 't', 'i', 'c', 'l', 'e', 's'])
  | _ => .error .invalidArgument

end Mains
end Colloids
