import Verif.Lif.Model

/-!
# Tracking a series slice by slice

Model of `multiscale/src/locatorfromlif.cpp`. The finder of two dimensional centers and the
reconstruction are parameters; the state of the `Reconstructor` is the list of the frames
pushed since it was cleared (its size is their number, see C33).
-/

namespace Colloids.Lif

/-- `LocatorFromLif` (locatorfromlif.hpp 17-45). `slice` is the data of an image of
`dims[0]` rows and `dims[1]` columns. -/
structure Locator (C : Type) where
  serie : Serie
  dims : List Nat
  t : Nat
  totalT : Nat
  totalZ : Nat
  slice : List Byte
  frames : List (List C)

/-- `LocatorFromLif::LocatorFromLif` (locatorfromlif.cpp 12-21): `begin()` moves to the first
time step, or throws. -/
def Locator.new {C : Type} (serie : Serie) : R (Locator C) := do
  let o ← serie.getOffset 0
  let dims := serie.spatialDimensions
  let d0 ← getR dims 0
  let d1 ← getR dims 1
  pure
    { serie := { serie with file := serie.file.seek o }
      dims := dims
      t := 0
      totalT := serie.nbTimeSteps
      totalZ := match dims[2]? with
        | some n => n
        | none => 1
      slice := List.replicate (d0 * d1) 0
      frames := [] }

/-- `LocatorFromLif::clear` (locatorfromlif.cpp 27-31). -/
def Locator.clear {C : Type} (l : Locator C) : Locator C :=
  { l with
    slice := List.replicate l.slice.length 0
    frames := [] }

/-- `LocatorFromLif::fill_next_slice` (locatorfromlif.cpp 34-42). The time step given to
`fill2DBuffer` is 0. The finder gets the data of the slice. -/
def Locator.fillNextSlice {C : Type} (find : List Byte → List C) (l : Locator C) :
    R (Locator C) :=
  if l.totalT ≤ l.t ∨ l.totalZ ≤ l.frames.length then .error .outOfRange
  else do
    let r ← l.serie.fill2DBuffer l.slice 0 l.frames.length
    pure { l with
      serie := r.1
      slice := r.2
      frames := l.frames ++ [find r.2] }

/-- `LocatorFromLif::fill_time_step` (locatorfromlif.cpp 44-51). -/
def Locator.fillTimeStep {C : Type} (find : List Byte → List C) (l : Locator C) :
    R (Locator C) :=
  (List.range l.totalZ).foldlM (fun l _ => l.fillNextSlice find) l.clear

/-- `LocatorFromLif::get_centers` (locatorfromlif.cpp 52-63); `blobs` is the reconstruction,
`stretch` the multiplication of the third coordinate. -/
def Locator.getCenters {C P : Type} (blobs : List (List C) → R (List P)) (stretch : P → P)
    (l : Locator C) : R (Locator C × List P) := do
  let b ← blobs l.frames
  pure ({ l with t := l.t + 1 }, b.map stretch)

/-- `slice(i, j)`, row `i` and column `j`. -/
def Locator.pixel {C : Type} (l : Locator C) (i j : Nat) : Option Byte :=
  match l.dims[1]? with
  | none => none
  | some cols => l.slice[i * cols + j]?

end Colloids.Lif
