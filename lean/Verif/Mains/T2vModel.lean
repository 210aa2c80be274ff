import Verif.Mains.LostModel
import Verif.Mains.TauModel
import Verif.DynField.Model
import Verif.Bonds.Model

/-! # The programs `traj2vtk` and `cage2vtk`: mains/traj2vtk.cpp, mains/cage2vtk.cpp

Exact arithmetic, also in the files. A series of files is a function of the time step: the names of different series differ (see C33 and C137).
All the files can be written. What was written before an exception is not modelled. -/

namespace Colloids
namespace Mains

variable {G : Type} [Field G] [LinearOrder G]

/-- What is written in a VTK file: the number of points, the bonds, the scalar fields with their names, the velocities. -/
structure VtkOut (G V : Type) where
  points : Nat
  bonds : List Bond
  scalars : List (String × List G)
  velocity : List V

/-- The files beside the file of trajectories, mains/traj2vtk.cpp:316-325: number of positions of the files `.dat`, `.bonds`, last column of
`.isf`, `.vel`, `.lngb`, `.cloud` and `.boo`, `_space` `.cloud` and `.boo`, `_space` `.vol` and `.phi`, `_dynamic` `.vtk`. The files of numbers are
given by the numbers after the header. -/
structure VtkDisk (G V : Type) where
  dat : Nat → Option Nat
  bonds : Nat → Option (List Char)
  isf : Option (List G)
  vel : Nat → Option (List V)
  lngb : Nat → Option (List G)
  cloud : Nat → Option (List G)
  boo : Nat → Option (List G)
  cgCloud : Nat → Option (List G)
  cgBoo : Nat → Option (List G)
  vol : Nat → Option (List G)
  phi : Nat → Option (List G)
  vtk : Nat → Option (VtkOut G V)

/-- What the program knows of the film: the trajectories and the radius read at the beginning; the scattering function and the velocities that
`DynamicParticles` would compute (`makeDynamics`, `velocities`, see `Verif.Dyn`); `e` is `exp(-1.0)` and `pi` is `M_PI`. -/
structure FilmData (G V : Type) where
  ti : TrajIndex
  radius : G
  e : G
  pi : G
  isf : R (List G)
  vel : (half t : Nat) → R (List V)

/-- `ScalarDynamicField`: lib/fields.hpp:147, 173-184 in exact arithmetic. -/
def scalarOps : FieldOps G where
  isNull v := decide (v = 0)
  div v n := v / (n : G)

/-- `qw.resize(shape)` of a `boost::multi_array` with `w` columns, stored by rows: what both shapes have is kept, the rest is 0. -/
def resizeTable (w n : Nat) (qw : List G) : List G := qw.take (n * w) ++ List.replicate (n * w - qw.length) 0

/-- `ScalarField(qw.begin(), qw.end(), "", i)`: a column.  lib/fields.hpp:107-113 -/
def column (w n : Nat) (qw : List G) (i : Nat) : List G := (List.range n).map fun p => qw.getD (p * w + i) 0

/-- `copy(istream_iterator<double>(in), istream_iterator<double>(), v.begin())`: nothing is copied from a file that does not exist; past the end
of `v` it is undefined. -/
def readInto (file : Option (List G)) (v : List G) : R (List G) := DynField.copyInto (file.getD []) v

/-- The tables read by `export_timeBoo`, one per time step; the same array is used for all times.  mains/traj2vtk.cpp:183, 191-203,
mains/cage2vtk.cpp:70, 74-86 -/
def readTables (w : Nat) (cloud : Nat → Option (List G)) (sizes : List Nat) : R (List (List G)) := do
  let r ← sizes.zipIdx.foldlM (fun (st : List G × List (List G)) x => do
    let qw ← readInto (cloud x.2) (resizeTable w x.1 st.1)
    .ok (qw, st.2 ++ [qw])) ([], [])
  .ok r.2

/-- `export_timeBoo` for `w` columns: the numbers of the file of each time step.  mains/traj2vtk.cpp:179-224 (`w = 8`),
mains/cage2vtk.cpp:66-107 (`w = 4`) -/
def timeBoo (w : Nat) (ti : TrajIndex) (tau : Nat) (cloud : Nat → Option (List G)) : R (List (List G)) := do
  let sizes := ti.inverse.map List.length
  let tables ← readTables w cloud sizes
  let fields ← (List.range w).mapM fun i =>
    DynField.pushAll scalarOps ti tau (List.zipWith (fun n qw => column w n qw i) sizes tables)
  sizes.zipIdx.mapM fun x => do
    let s ← fields.mapM fun f => f.view x.2
    .ok ((List.range x.1).flatMap fun p => s.map fun c => c.getD p 0)

/-- `export_phi`: the numbers of the file of each time step.  mains/traj2vtk.cpp:226-251, mains/cage2vtk.cpp:109-134 -/
def timePhi (pi radius : G) (ti : TrajIndex) (tau : Nat) (vol : Nat → Option (List G)) : R (List (List G)) := do
  let vols ← ti.inverse.zipIdx.mapM fun x => readInto (vol x.2) (List.replicate x.1.length 0)
  let f ← DynField.pushAll scalarOps ti tau (vols.map (phiOf pi radius))
  (List.range ti.inverse.length).mapM fun t => f.view t

/-- `ifstream((serie%0).c_str()).good() && ifstream((serie%(size-1)).c_str()).good()`, for example mains/traj2vtk.cpp:327; `size-1` is a `size_t`. -/
def hasSerie {α : Type} (size : Nat) (serie : Nat → Option α) : Bool :=
  (serie 0).isSome && (serie ((size + (szMod - 1)) % szMod)).isSome

/-- The files of all the time steps are written. -/
def writeSerie {α : Type} (serie : Nat → Option α) (l : List α) : Nat → Option α := fun t => (l[t]?).or (serie t)

/-- A series is computed if it is not there: for example mains/traj2vtk.cpp:402-408. -/
def ensure {α : Type} (size : Nat) (serie : Nat → Option α) (compute : R (List α)) : R (Nat → Option α) :=
  if hasSerie size serie then .ok serie
  else do
    let l ← compute
    .ok (writeSerie serie l)

/-- The names of the columns, mains/traj2vtk.cpp:505-507. -/
def tableNames : List String := ["Q4", "Q6", "Q8", "Q10", "W4", "W6", "W8", "W10"]

variable {V : Type} [Zero V]

/-- mains/traj2vtk.cpp:477-489 -/
def loadPhi (d : VtkDisk G V) (haveVolume : Bool) (n t : Nat) : R (List G) :=
  if haveVolume then readInto (d.phi t) (List.replicate n 0) else .ok (List.replicate n 0)

/-- One VTK file, mains/traj2vtk.cpp:457-519. -/
def vtkFrame (d : VtkDisk G V) (haveVolume : Bool) (t : Nat) : R (VtkOut G V) :=
  match d.dat t with
  | none => .error .invalidArgument
  | some n => do
    let bonds ← loadBonds (d.bonds t)
    match d.cgBoo t with
    | none => .error .invalidArgument
    | some nums => do
      let qw ← readInto (some nums) (List.replicate (n * 8) 0)
      let lngb ← readInto (d.lngb t) (List.replicate n 0)
      let phi ← loadPhi d haveVolume n t
      let vel := (List.range n).map fun p => ((d.vel t).getD []).getD p 0
      .ok { points := n
            bonds := bonds
            scalars := (tableNames.zipIdx.map fun x => (x.1, column 8 n qw x.2)) ++ [("lostNgb", lngb)] ++
              (if haveVolume then [("phi", phi)] else [])
            velocity := vel }

/-- The interval: the argument, or the relaxation time.  mains/traj2vtk.cpp:370-373, 392-398 -/
def intervalOf (F : FilmData G V) (arg : Option Nat) (isf : Option (List G)) : R Nat :=
  match arg with
  | some a => .ok a
  | none => loadTau F.e ((List.range F.ti.inverse.length).map fun t => (isf.getD []).getD t 0)

/-- The file of the scattering function is made if it is needed.  mains/traj2vtk.cpp:328-366. The files `.msd` and `.ngp` are not modelled. -/
def ensureIsf (F : FilmData G V) (arg : Option Nat) (isf : Option (List G)) : R (Option (List G)) :=
  if arg.isNone && isf.isNone then do
    let l ← F.isf
    .ok (some l)
  else .ok isf

/-- The volume fractions, if there are volumes.  mains/traj2vtk.cpp:437-451 -/
def ensurePhi (F : FilmData G V) (tau : Nat) (d : VtkDisk G V) : R (Nat → Option (List G)) :=
  if hasSerie F.ti.inverse.length d.vol then ensure F.ti.inverse.length d.phi (timePhi F.pi F.radius F.ti tau d.vol) else .ok d.phi

/-- What is computed before the VTK files.  mains/traj2vtk.cpp:327-451: the disk, and `haveVolume`. -/
def traj2vtkData (F : FilmData G V) (arg : Option Nat) (d : VtkDisk G V) : R (VtkDisk G V × Bool) := do
  let size := F.ti.inverse.length
  let isf ← ensureIsf F arg d.isf
  let tau ← intervalOf F arg isf
  let vel ← ensure size d.vel ((List.range size).mapM fun t => F.vel ((tau + 1) / 2) t)
  let lngb ← ensure size d.lngb (do
    let l ← aroundLost F.ti d.bonds tau
    .ok (l.map fun row => row.map fun (n : Nat) => (n : G)))
  let boo ← ensure size d.boo (timeBoo 8 F.ti tau d.cloud)
  let cgBoo ← ensure size d.cgBoo (timeBoo 8 F.ti tau d.cgCloud)
  let haveVolume := hasSerie size d.phi || hasSerie size d.vol
  let phi ← ensurePhi F tau d
  .ok ({ d with isf := isf, vel := vel, lngb := lngb, boo := boo, cgBoo := cgBoo, phi := phi }, haveVolume)

/-- `main` after the reading of the trajectories: the disk at the end.  mains/traj2vtk.cpp:314-521 -/
def traj2vtk (F : FilmData G V) (arg : Option Nat) (d : VtkDisk G V) : R (VtkDisk G V) := do
  let r ← traj2vtkData F arg d
  let out ← (List.range F.ti.inverse.length).mapM (vtkFrame r.1 r.2)
  .ok { r.1 with vtk := writeSerie r.1.vtk out }

/-! ### cage2vtk -/

/-- `cageSpan[c->steps.size()]++`.  mains/cage2vtk.cpp:276-278 -/
def cageSpan (size : Nat) (cages : List Traj) : R (List Nat) :=
  cages.foldlM (fun l c => modifyR l c.steps.length (· + 1)) (List.replicate size 0)

/-- The scalar field `i` of the VTK file, from the numbers of the file `.boo`: `loadBoo` (lib/particles.cpp:979-984) makes a table of eight columns.
mains/cage2vtk.cpp:346-347, 387-394 -/
def cageField (n : Nat) (nums : List G) (i : Nat) : R (List G) := do
  let qw ← readInto (some nums) (List.replicate (n * 8) 0)
  .ok (column 8 n qw (i % 4))

end Mains
end Colloids
