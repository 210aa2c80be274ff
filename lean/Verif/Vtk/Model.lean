import Verif.Bonds.Model
import Verif.Particles.Model

/-! # Export to the VTK format: lib/particles.cpp:856-908, lib/fields.cpp:33-56

The texts are lists of characters; `print` is what `<<` writes for a `double` (with the default precision). The file
can be opened. Keywords are written out as characters. -/

namespace Colloids
namespace Vtk

variable {G : Type}

/-- A `ScalarField`: its name and its values. -/
structure Scalars (G : Type) where
  name : List Char
  values : List G

/-- A `VectorField`. -/
structure Vectors (G : Type) where
  name : List Char
  values : List (Coord G)

def version : List Char := "# vtk DataFile Version 3.0".toList
def kwAscii : List Char := ['A', 'S', 'C', 'I', 'I']
def kwDataset : List Char := ['D', 'A', 'T', 'A', 'S', 'E', 'T']
def kwPolydata : List Char := ['P', 'O', 'L', 'Y', 'D', 'A', 'T', 'A']
def kwPoints : List Char := ['P', 'O', 'I', 'N', 'T', 'S']
def kwDouble : List Char := ['d', 'o', 'u', 'b', 'l', 'e']
def kwLines : List Char := ['L', 'I', 'N', 'E', 'S']
def kwPointData : List Char := ['P', 'O', 'I', 'N', 'T', '_', 'D', 'A', 'T', 'A']
def kwScalars : List Char := ['S', 'C', 'A', 'L', 'A', 'R', 'S']
def kwLookup : List Char := ['L', 'O', 'O', 'K', 'U', 'P', '_', 'T', 'A', 'B', 'L', 'E']
def kwDefault : List Char := ['d', 'e', 'f', 'a', 'u', 'l', 't']
def kwVectors : List Char := ['V', 'E', 'C', 'T', 'O', 'R', 'S']

/-- The three coordinates followed by a space each, and a newline: lib/particles.cpp:866-868, lib/fields.cpp:51-53. -/
def coordText (print : G → List Char) (v : Coord G) : List Char :=
  print (v 0) ++ [' '] ++ (print (v 1) ++ [' ']) ++ (print (v 2) ++ [' ']) ++ ['\n']

/-- `Particles::toVTKstream`, lib/particles.cpp:857-871. -/
def pointsText (print : G → List Char) (pos : List (Coord G)) (dataName : List Char) : List Char :=
  version ++ ['\n'] ++ dataName ++ ['\n'] ++ kwAscii ++ ['\n'] ++ kwDataset ++ [' '] ++ kwPolydata ++ ['\n'] ++
    kwPoints ++ [' '] ++ showNat pos.length ++ [' '] ++ kwDouble ++ ['\n'] ++ (pos.map (coordText print)).flatten

/-- `operator<<(ostream&, const ScalarField&)`, lib/fields.cpp:33-42. -/
def scalarsText (print : G → List Char) (s : Scalars G) : List Char :=
  kwScalars ++ [' '] ++ s.name ++ [' '] ++ kwDouble ++ ['\n'] ++ kwLookup ++ [' '] ++ kwDefault ++ ['\n'] ++
    (s.values.map fun x => print x ++ ['\n']).flatten

/-- `operator<<(ostream&, const VectorField&)`, lib/fields.cpp:45-56. -/
def vectorsText (print : G → List Char) (v : Vectors G) : List Char :=
  kwVectors ++ [' '] ++ v.name ++ [' '] ++ kwDouble ++ ['\n'] ++ (v.values.map (coordText print)).flatten

/-- `Particles::exportToVTK`, lib/particles.cpp:882-908. -/
def exportToVTK (print : G → List Char) (pos : List (Coord G)) (bonds : List Bond) (scalars : List (Scalars G))
    (vectors : List (Vectors G)) (dataName : List Char) : List Char :=
  pointsText print pos dataName ++ bondsToVTK bonds ++ (kwPointData ++ [' '] ++ showNat pos.length ++ ['\n']) ++
    (scalars.map (scalarsText print)).flatten ++ (vectors.map (vectorsText print)).flatten

/-- `Particles::exportToVTK` without bonds, lib/particles.cpp:911-914: the bonds are those of the neighbour list, whose
pointer is followed without check (lib/particles.hpp:148, 150). -/
def exportToVTKNoBonds (print : G → List Char) (pos : List (Coord G)) (ngb : Option NgbList)
    (scalars : List (Scalars G)) (vectors : List (Vectors G)) (dataName : List Char) : R (List Char) :=
  match ngb with
  | none => .error .ub
  | some ngbs => .ok (exportToVTK print pos (ngb2bonds ngbs) scalars vectors dataName)

end Vtk
end Colloids
