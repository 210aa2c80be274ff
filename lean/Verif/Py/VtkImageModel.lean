import Verif.Py.LifModel

/-! # Images of LIF files as VTK files: `Serie.getVTK`, python/colloids/lif.py:531-544, and python/colloids/lif2vtk.py

The text of the header is replaced by its numbers; the title and the line `SPACING` are not modelled. -/

namespace Colloids
namespace Py
namespace VtkImage

open PyLif
open Lif (Byte)

/-- A file of structured points: the numbers of the lines `DIMENSIONS` and `POINT_DATA`, the number of components and the bytes -/
structure Vtk where
  dims : List Nat
  points : Nat
  comps : Nat
  data : List Byte
  deriving DecidableEq

/-- Place of the point of coordinates `i`, `j`, `k` as any reader of the format finds it: the first coordinate varies first. -/
def Vtk.at (v : Vtk) (i j k c : Nat) : Option Byte :=
  match v.dims with
  | [a, b, _] => v.data[(i + a * (j + b * k)) * v.comps + c]?
  | _ => none

/-- `'%d %d %d' % tuple(l)`, lif.py:537 and lif2vtk.py:59; other than three numbers are a `TypeError`. -/
def three (l : List Nat) : R (List Nat) := if l.length = 3 then .ok l else .error .invalidArgument

/-- `getVTK`, lif.py:531-544, where strings are bytes; `read` gives what there is up to the end of the file. -/
def getVTK (s : Serie) (t : Int) : R Vtk := do
  let dims ← three s.boxShape
  let o ← s.getOffset [("T", t)]
  let p ← seek o
  pure ⟨dims, s.pixelsPerFrame, 1, (s.file.drop p).take s.pixelsPerFrame⟩

/-- The loop of the script, lif2vtk.py:54-70; `rest` is what is not read yet in the file of the series. -/
def loop (shape : List Nat) (n c : Nat) : Nat → List Byte → R (List Vtk)
  | 0, _ => .ok []
  | k + 1, rest => do
    let dims ← three (shape ++ List.replicate (3 - shape.length) 1)
    let l ← loop shape n c k (rest.drop (n * c))
    pure (⟨dims, n, c, rest.take (n * c)⟩ :: l)

/-- The files written by the script, lif2vtk.py:44-70, for a series of `channels` channels -/
def script (s : Serie) (channels : Nat) : R (List Vtk) := do
  let o ← s.getOffset []
  let p ← seek o
  loop s.frameShape s.pixelsPerFrame (max 1 channels) s.nbFrames (s.file.drop p)

end VtkImage
end Py
end Colloids
