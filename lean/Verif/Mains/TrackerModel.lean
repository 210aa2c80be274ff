import Verif.Tracker.IterModel
import Verif.Mains.CutterModel

/-! # The program `tracker`: graphic/mains/tracker.cpp, with graphic/radiiTracker.cpp:182-283

The options are already parsed and the series of the LIF file is already chosen. The disk gives the contents of the text files by
their names: the numbers that they hold. All the files can be written. The wisdom of FFTW, the header saved as XML (316-319), the
messages and the progress bars are not modelled. Tracking is a parameter: it gets the settings of the tracker (threshold and filter)
and the image, and returns the centers in pixels with their intensities, and what is left of the image. -/

namespace Colloids
namespace Mains

open Tracker (LifIter fillFrom trackerDims)
open Lif (Byte Serie)
open Files (FileSerie)

variable {G : Type} [Field G] [LinearOrder G] {I P : Type}

/-! ## The configuration file -/

/-- What there is in the home directory: the directory `.colloids` and the file `tracker.ini` in it. -/
structure IniState where
  dir : Bool
  ini : Bool
  deriving DecidableEq

/-- `testTrackerIni`, graphic/mains/tracker.cpp:58-106. `mkdir` tells whether there is a command `MKDIR` that makes directories;
`system` returns 0 when it does. A file cannot be made in a directory that does not exist. -/
def testTrackerIni (mkdir : Bool) (s : IniState) : IniState × R Unit :=
  if s.ini then (s, .ok ())
  else if mkdir && !s.dir then ({ s with dir := true }, .error .invalidArgument)
  else if s.dir then ({ s with ini := true }, .ok ())
  else (s, .error .invalidArgument)

/-! ## Names -/

/-- The prefix of the names, graphic/mains/tracker.cpp:272-273: `substr(size()-1)` throws on an empty string. -/
def trackerPath (output : List Char) : R (List Char) :=
  match output.getLast? with
  | none => .error .outOfRange
  | some c => .ok (if c = '_' then output.dropLast else output)

/-- `FileSerie(FileSerie::get0th(outputPath, size)+ext, "_t", size, 0)`, graphic/mains/tracker.cpp:120, 158, 316, 373, 388-392 and
graphic/radiiTracker.cpp:224-227. -/
def trackerSerie (path ext : List Char) (size : Nat) : R FileSerie :=
  Files.make (Files.get0th path size ['_', 't'] ++ ext) ['_', 't'] size 0

/-- The extension of the positions. -/
def extDat : List Char := ['.', 'd', 'a', 't']

/-- The extension of the intensities. -/
def extInt : List Char := ['.', 'i', 'n', 't', 'e', 'n', 's', 'i', 't', 'y']

/-- The extension of the radii. -/
def extRad : List Char := ['.', 'r', 'a', 'd', 'i', 'i']

/-- The extension of the numbers of particles. -/
def extNb : List Char := ['.', 'n', 'b']

/-- The test of the path, graphic/mains/tracker.cpp:276-282: the file is made, then removed. -/
def testPath (path : List Char) (disk : Disk G) : Disk G :=
  Function.update disk (path ++ ['t', 'e', 's', 't', '.', 't', 'e', 's', 't']) none

/-! ## Export -/

/-- The centers of an image as `TrackerIterator::operator*` makes them, graphic/tracker.cpp:926-951: `z` is multiplied by the ratio,
the intensities are read before. -/
def realCenters (ratio : G) (track : P → I → (Particles G × List G) × I) (p : P) (im : I) : (Particles G × List G) × I :=
  (((track p im).1.1.scaleBy ![1, 1, ratio], (track p im).1.2), (track p im).2)

/-- No particle, `Particles()`. `junk` is the contents of the box. -/
def noCenters (junk : Box 3 G) : Particles G × List G := (⟨[], junk, 1, none⟩, [])

/-- The file of intensities of a time step if it is asked for, graphic/tracker.cpp:935-944. -/
def exportIntensities (round : G → G) (serie : Option FileSerie) (time : Nat) (l : List G) (disk : Disk G) : Disk G × R Unit :=
  match serie with
  | none => (disk, .ok ())
  | some f =>
    match f.name time with
    | .error e => (disk, .error e)
    | .ok name => (Function.update disk name (some (l.map fun x => .dbl (round x))), .ok ())

/-- `parts.exportToFile(*outputFileName % t)`, graphic/mains/tracker.cpp:140 and 393. -/
def exportCenters (round : G → G) (serie : FileSerie) (t : Nat) (ps : Particles G) (disk : Disk G) : Disk G × R Unit :=
  match serie.name t with
  | .error e => (disk, .error e)
  | .ok name => (Function.update disk name (some (Dat.exportToFile round ps)), .ok ())

/-- The files that a time step writes: `*track` and `ParticlesExporter::operator()`, graphic/mains/tracker.cpp:137-144. The line of the number
of particles goes at the end of its file. -/
def exportStep (round : G → G) (dat : FileSerie) (int : Option FileSerie) (nb : List Char) (time t : Nat) (c : Particles G × List G)
    (disk : Disk G) : Disk G × R Unit :=
  match exportIntensities round int time c.2 disk with
  | (disk, .error e) => (disk, .error e)
  | (disk, .ok ()) =>
    match exportCenters round dat t c.1 disk with
    | (disk, .error e) => (disk, .error e)
    | (disk, .ok ()) => (Function.update disk nb (some ((disk nb).getD [] ++ [.nat c.1.pos.length])), .ok ())

/-- `for_each(track, track.end(), ParticlesExporter(…))`, graphic/mains/tracker.cpp:377-384, with `LifTracker`. The increment adds one to the time step,
so that the number of iterations is known when the loop starts at 0. -/
def lifLoop (conv : List Byte → I) (track : P → I → (Particles G × List G) × I) (empty : Particles G × List G) (round : G → G)
    (dat : FileSerie) (int : Option FileSerie) (nb : List Char) :
    Nat → LifIter I P (Particles G × List G) → Nat → Disk G → Disk G × R Unit
  | 0, _, _, disk => (disk, .ok ())
  | k + 1, s, t, disk =>
    match s.deref track empty s.serie.nbTimeSteps with
    | (s, c) =>
      match exportStep round dat int nb s.time t c disk with
      | (disk, .error e) => (disk, .error e)
      | (disk, .ok ()) =>
        match s.next conv with
        | .error e => (disk, .error e)
        | .ok s => lifLoop conv track empty round dat int nb k s (t + 1) disk

/-- The options of `tracker` in the mode LIF: graphic/mains/tracker.cpp:190-231. `only` is absent when `onlyTimeStep` is -1. -/
structure TrackOptions where
  output : List Char
  intensities : Bool
  only : Option Nat

/-- The mode LIF without `extractRadii`, graphic/mains/tracker.cpp:272-282 and 352-401, on a series of which `ratio` is the size of a voxel along z over
its size along x. `p` are the settings of the tracker. -/
def trackLif (conv : List Byte → I) (track : P → I → (Particles G × List G) × I) (round : G → G) (junk : I) (junkBox : Box 3 G)
    (ratio : G) (p : P) (o : TrackOptions) (serie : Serie) (disk : Disk G) : Disk G × R Unit :=
  match trackerPath o.output with
  | .error e => (disk, .error e)
  | .ok path =>
    let disk := testPath path disk
    match (do
      let s ← LifIter.make conv serie junk p
      let int ← trackerSerie path extInt serie.nbTimeSteps
      let dat ← trackerSerie path extDat serie.nbTimeSteps
      pure (s, int, dat) : R (LifIter I P (Particles G × List G) × FileSerie × FileSerie)) with
    | .error e => (disk, .error e)
    | .ok (s, int, dat) =>
      let int := if o.intensities then some int else none
      match o.only with
      | none =>
        lifLoop conv (realCenters ratio track) (noCenters junkBox) round dat int (path ++ extNb) serie.nbTimeSteps s 0
          (Function.update disk (path ++ extNb) (some []))
      | some t =>
        match s.seek conv t with
        | .error e => (disk, .error e)
        | .ok s =>
          match s.deref (realCenters ratio track) (noCenters junkBox) s.serie.nbTimeSteps with
          | (s, c) =>
            match exportIntensities round int s.time c.2 disk with
            | (disk, .error e) => (disk, .error e)
            | (disk, .ok ()) => exportCenters round dat t c.1 disk

/-! ## Series of images -/

/-- `for_each(track, track.end(), ParticlesExporter(…))`, graphic/mains/tracker.cpp:321, with `SerieTracker`: the increment loads the images of the
next time step (graphic/serieTracker.cpp:272-276) even after the last one. `load` gives the image of a time step, or throws if a file does not
exist. -/
def serieLoop (load : Nat → R I) (track : P → I → (Particles G × List G) × I) (p : P) (round : G → G)
    (dat : FileSerie) (int : Option FileSerie) (nb : List Char) : Nat → I → Nat → Disk G → Disk G × R Unit
  | 0, _, _, disk => (disk, .ok ())
  | k + 1, im, t, disk =>
    match exportStep round dat int nb t t (track p im).1 disk with
    | (disk, .error e) => (disk, .error e)
    | (disk, .ok ()) =>
      match load (t + 1) with
      | .error e => (disk, .error e)
      | .ok im => serieLoop load track p round dat int nb k im (t + 1) disk

/-- The mode of series of images, graphic/mains/tracker.cpp:272-282 and 293-323. `tsize` is the number of time steps that the user gives.
`length` is the contents of `SerieTracker::length`, which is compared to the time step (graphic/serieTracker.hpp:43-44) and which nothing sets:
here it is any number. The option `onlyTimeStep` is not read. -/
def trackSerie (load : Nat → R I) (track : P → I → (Particles G × List G) × I) (round : G → G) (ratio : G) (p : P) (o : TrackOptions)
    (tsize length : Nat) (disk : Disk G) : Disk G × R Unit :=
  match trackerPath o.output with
  | .error e => (disk, .error e)
  | .ok path =>
    let disk := testPath path disk
    match (do
      let im ← load 0
      let int ← trackerSerie path extInt tsize
      let dat ← trackerSerie path extDat tsize
      pure (im, int, dat) : R (I × FileSerie × FileSerie)) with
    | .error e => (disk, .error e)
    | .ok (im, int, dat) =>
      serieLoop load (realCenters ratio track) p round dat (if o.intensities then some int else none) (path ++ extNb) length im 0
        (Function.update disk (path ++ extNb) (some []))

/-! ## Radii -/

/-- `setCenters(Particles(*centersSerie % time_step))`, graphic/radiiTracker.cpp:153-164, 188-196 and 253: `z` is divided by the ratio, then the
coordinates are turned over. `junk` is the contents of a box that is not initialised. -/
def radiiCenters (junk : Coord G) (ratio : G) (file : Option (List (Dat.Num G))) : R (List (Coord G)) := do
  let ps ← Dat.ofDat junk file 1
  pure ((ps.scaleBy ![1, 1, 1 / ratio]).pos.map fun x => ![x 2, x 1, x 0])

/-- `for_each(track, track.end(), RadiiExporter(…))`, graphic/mains/tracker.cpp:349, with `LifRadiiTracker`. `measure` is `RadiiTracker::getRadii`.
The increment (graphic/radiiTracker.cpp:259-274) reads an image without looking whether the file is at its end, then the centers of the next time step if there is
one. -/
def radiiLoop (conv : List Byte → I) (measure : I → List (Coord G) → R (List G)) (round : G → G) (junk : Coord G) (ratio : G)
    (dat rad : FileSerie) (n nbt : Nat) : Nat → Lif.IFile → I → List (Coord G) → Nat → Disk G → Disk G × R Unit
  | 0, _, _, _, _, disk => (disk, .ok ())
  | k + 1, f, im, cs, t, disk =>
    match (do
      let r ← measure im cs
      let name ← rad.name t
      pure (name, r) : R (List Char × List G)) with
    | .error e => (disk, .error e)
    | .ok (name, r) =>
      let disk : Disk G := Function.update disk name (some (r.map fun x => .dbl (round x)))
      match (do
        let (im, f) ← fillFrom n conv f
        if t + 1 < nbt then do
          let name ← dat.name (t + 1)
          let cs ← radiiCenters junk ratio (disk name)
          pure (im, f, cs)
        else pure (im, f, cs) : R (I × Lif.IFile × List (Coord G))) with
      | .error e => (disk, .error e)
      | .ok (im, f, cs) => radiiLoop conv measure round junk ratio dat rad n nbt k f im cs (t + 1) disk

/-- The mode LIF with `extractRadii`, graphic/mains/tracker.cpp:272-282 and 338-351. The constructor of `LifRadiiTracker` is
graphic/radiiTracker.cpp:216-231, and `setTimeStep` 239-254. -/
def trackRadii (conv : List Byte → I) (measure : I → List (Coord G) → R (List G)) (round : G → G) (junk : Coord G) (ratio : G)
    (output : List Char) (serie : Serie) (disk : Disk G) : Disk G × R Unit :=
  match trackerPath output with
  | .error e => (disk, .error e)
  | .ok path =>
    let disk := testPath path disk
    match (do
      let d ← trackerDims serie.toHeader
      let dat ← trackerSerie path extDat serie.nbTimeSteps
      let o ← serie.getOffset 0
      let (im, f) ← fillFrom d.prod conv (serie.file.seek o)
      let name ← dat.name 0
      let cs ← radiiCenters junk ratio (disk name)
      let rad ← trackerSerie path extRad serie.nbTimeSteps
      pure (d.prod, dat, rad, im, f, cs) : R (Nat × FileSerie × FileSerie × I × Lif.IFile × List (Coord G))) with
    | .error e => (disk, .error e)
    | .ok (n, dat, rad, im, f, cs) =>
      radiiLoop conv measure round junk ratio dat rad n serie.nbTimeSteps serie.nbTimeSteps f im cs 0 disk

end Mains
end Colloids
