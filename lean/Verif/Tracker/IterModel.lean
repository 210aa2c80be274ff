import Verif.Lif.Model

/-! # Going through the time steps with a tracker: graphic/lifTracker.cpp:33-106, graphic/tracker.cpp:915-956

The image of the tracker is of any type `I`: how the bytes are stored in it is the matter of C95 and enters as the
parameter `conv`. Tracking enters as the parameter `track`, that gets the threshold and the filter (of any type `P`)
and the image; it returns the centers (scaled along z) and what is left of the image, because the filters work in
place. The messages and the export of the intensities are not modelled. -/

namespace Colloids
namespace Tracker

open Lif (Serie Header Byte IFile)

/-- `LifTracker::getTrackerDims`, graphic/lifTracker.cpp:94-104: the spatial dimensions backward at the end of
`{1, 1, 1}`. More than three are written before the array. -/
def trackerDims (h : Header) : R (List Nat) :=
  let d := h.spatialDimensions
  if 3 < d.length then .error .ub
  else .ok (List.replicate (3 - d.length) 1 ++ d.reverse)

/-- `LifTracker` with its `Tracker`: the series with its stream (all the copies of a `istreambuf_iterator` move the
stream), the number of pixels, the image, the parameters, the time step and the centers if they are known. -/
structure LifIter (I P C : Type) where
  serie : Serie
  n : Nat
  image : I
  param : P
  time : Nat
  centers : Option C

variable {I P C : Type}

/-- `fillImage_charToUchar(iterator)`, graphic/tracker.hpp:220-247: takes `n` bytes from the stream. Reading an iterator
at the end of the stream is undefined behaviour. -/
def fillFrom (n : Nat) (conv : List Byte → I) (f : IFile) : R (I × IFile) :=
  if f.pos + n ≤ f.bytes.length ∨ n = 0 then .ok (conv ((f.bytes.drop f.pos).take n), { f with pos := f.pos + n })
  else .error .ub

/-- `LifTracker::setTimeStep`, graphic/lifTracker.cpp:54-65, and `LifSerie::begin`, graphic/lifFile.cpp:302-306. -/
def LifIter.seek (conv : List Byte → I) (s : LifIter I P C) (t : Nat) : R (LifIter I P C) := do
  let o ← s.serie.getOffset t
  let (im, f) ← fillFrom s.n conv (s.serie.file.seek o)
  pure { s with serie := { s.serie with file := f }, image := im, time := t, centers := none }

/-- The image of `operator++`, graphic/lifTracker.cpp:74-75. -/
def LifIter.advance (conv : List Byte → I) (s : LifIter I P C) : R (I × IFile) :=
  if s.serie.file.pos < s.serie.file.bytes.length then fillFrom s.n conv s.serie.file
  else .ok (s.image, s.serie.file)

/-- `LifTracker::operator++`, graphic/lifTracker.cpp:71-84. -/
def LifIter.next (conv : List Byte → I) (s : LifIter I P C) : R (LifIter I P C) := do
  let (im, f) ← s.advance conv
  pure { s with serie := { s.serie with file := f }, image := im, time := s.time + 1, centers := none }

/-- `TrackerIterator::operator*`, graphic/tracker.cpp:919-956. `len` is the number of time steps of `reachedEnd`. -/
def LifIter.deref (track : P → I → C × I) (empty : C) (len : Nat) (s : LifIter I P C) : LifIter I P C × C :=
  match s.centers with
  | some c => (s, c)
  | none =>
    if len ≤ s.time then ({ s with centers := some empty }, empty)
    else ({ s with image := (track s.param s.image).2, centers := some (track s.param s.image).1 },
      (track s.param s.image).1)

/-- `LifTracker::LifTracker`, graphic/lifTracker.cpp:34-44. `junk` is the content of the image before it is filled. -/
def LifIter.make (conv : List Byte → I) (serie : Serie) (junk : I) (p : P) : R (LifIter I P C) := do
  let d ← trackerDims serie.toHeader
  LifIter.seek conv ⟨serie, d.prod, junk, p, 0, none⟩ 0

/-- What a user does with a tracker: go to the next time step, to a given one, get the centers, change the threshold or
the filter. -/
inductive IterOp (P : Type) where
  | next
  | seek (t : Nat)
  | deref
  | set (p : P)

/-- One operation; the centers obtained, if any. -/
def LifIter.step (conv : List Byte → I) (track : P → I → C × I) (empty : C) (s : LifIter I P C) :
    IterOp P → R (LifIter I P C × Option C)
  | .next => do
    let s ← s.next conv
    pure (s, none)
  | .seek t => do
    let s ← s.seek conv t
    pure (s, none)
  | .deref =>
    let (s', c) := s.deref track empty s.serie.nbTimeSteps
    .ok (s', some c)
  | .set p => .ok ({ s with param := p }, none)

/-- A sequence of operations; all the centers obtained. -/
def LifIter.run (conv : List Byte → I) (track : P → I → C × I) (empty : C) (s : LifIter I P C) :
    List (IterOp P) → R (List C)
  | [] => .ok []
  | op :: ops => do
    let (s, c) ← s.step conv track empty op
    let l ← s.run conv track empty ops
    pure (c.toList ++ l)

end Tracker
end Colloids
