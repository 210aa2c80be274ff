import Mathlib.Data.Nat.Notation
import Verif.Common

/-! # Grid data in VTK files in python: `export_structured_points` of python/colloids/vtk.py

An item of the array is given by its bits: a natural number. -/

namespace Colloids
namespace Py
namespace GridVtk

/-- `dtypes`, python/colloids/vtk.py:26-37. -/
def dtypes : List (Char × String) :=
  [('B', "unsigned_char"), ('b', "char"), ('H', "unsigned_short"), ('h', "short"), ('I', "unsigned_int"), ('i', "int"), ('L', "unsigned_long"), ('l', "long"),
    ('f', "float"), ('d', "double")]

/-- `data.dtype.itemsize` of numpy on 64 bits Linux. Only the types of `dtypes` are considered. -/
def itemsize (c : Char) : Nat :=
  if c = 'B' ∨ c = 'b' then 1 else if c = 'H' ∨ c = 'h' then 2 else if c = 'I' ∨ c = 'i' ∨ c = 'f' then 4 else 8

/-- The bytes of an item, the one of largest weight first. -/
def bigEndian : Nat → Nat → List Nat
  | 0, _ => []
  | m + 1, v => bigEndian m (v / 256) ++ [v % 256]

/-- The bytes of an item in memory, the one of smallest weight first. -/
def littleEndian (m v : Nat) : List Nat := (bigEndian m v).reverse

/-- What the file contains. The text of the head is not modelled, nor the origin, the spacing and the names. -/
structure File where
  dims : Nat × Nat × Nat
  size : Nat
  type : String
  bytes : List Nat

/-- The bytes, python/colloids/vtk.py:221-225: `tofile` writes in C order. -/
def payload (c : Char) (flat : List Nat) : List Nat :=
  if itemsize c > 1 then flat.flatMap (bigEndian (itemsize c)) else flat.flatMap (littleEndian (itemsize c))

/-- `export_structured_points`, python/colloids/vtk.py:199-225, for an array of this shape and these items in C order. -/
def exportStructured (c : Char) (shape : List Nat) (flat : List Nat) : R File :=
  match dtypes.lookup c with
  | none => .error .logicError
  | some type =>
    match shape.reverse with
    | s0 :: s1 :: s2 :: _ => .ok ⟨(s0, s1, s2), flat.length, type, payload c flat⟩
    | _ => .error .outOfRange

end GridVtk
end Py
end Colloids
