import Verif.Dyn.IsfWrapModel
import Verif.Mains.VoroModel

/-! # The programs that write functions of time: mains/MSD.cpp, ISF.cpp, drift.cpp, dynamics.cpp

The film is the one that `DynamicParticles(filename)` opened (`Dyn.openTraj`), with its time step `dt`. The arguments
that follow the file name are the values that `atoi` gives, which is not modelled. A file is the list of its rows,
numbers as they are before printing. -/

namespace Colloids
namespace Mains

open Dyn

variable {G : Type} [Field G] [LinearOrder G]

/-- What a program leaves: the files it wrote in order, and how it ended: `none` for `EXIT_SUCCESS`, else the exception
that `main` caught (`EXIT_FAILURE`) or `Fault.ub`. -/
structure Report (α : Type) where
  files : List α
  status : Option Fault

/-- One file per element, until an exception: mains/MSD.cpp:25-44, mains/ISF.cpp:46-65. -/
def runFiles {α β : Type} (f : β → R α) : List β → Report α
  | [] => ⟨[], none⟩
  | b :: l =>
    match f b with
    | .ok a => ⟨a :: (runFiles f l).files, (runFiles f l).status⟩
    | .error e => ⟨[], some e⟩

/-- The `(argc-2)/3` subsets `argv[3*i+2]`, `argv[3*i+3]`, `argv[3*i+4]`: mains/MSD.cpp:16, 27-29. -/
def subsets : List Int → List (Int × Int × Int)
  | a :: b :: c :: l => (a, b, c) :: subsets l
  | _ => []

/-- A file of a function of the lag time. Its name is made of the three numbers, mains/MSD.cpp:24, 39. -/
structure SeriesFile (G : Type) where
  start : Nat
  stop : Nat
  av : Nat
  rows : List (G × Option G)

/-- `output <<t*parts.dt<<"\t"<<MSD[t]<<"\n"`, mains/MSD.cpp:41-42, mains/ISF.cpp:62-63. -/
def rowsOf (dt : G) (l : List (Option G)) : List (G × Option G) := l.zipIdx.map fun y => ((y.2 : G) * dt, y.1)

/-- The test of mains/MSD.cpp:30 and mains/ISF.cpp:51: true if the program throws. The additions are in `size_t`. -/
def outOfFilm (n start stop av : Nat) : Bool := n < (start + 1) % szMod || n < (stop + av + 1) % szMod

/-- `getMSD(t0, t1, t2)`, lib/dynamicParticles.cpp:694-718, for `t1 < t0`: the number of values `n`, that is
`t1-t0+1` in `size_t`, has wrapped. `getMSD(selection, …)` returns the null values for an empty selection and else
writes `nbSD[0]` whatever the size (line 656). For an empty film file `index` is always `none` here. With a selection
that is not empty and `1 < n`, `t0` is larger than `2^64-n`: no film has this frame, the selection is undefined before
anything else, so that what follows is not modelled (`Fault.ub`). -/
def getMSDReversed (D : DynParts G) (n t0 t1 t2 : Nat) : R (List (Option G)) :=
  if t2 = 0 then do
    let sel ← selectSpanning D t0 t1
    if sel.isEmpty then pure (List.replicate n (some 0)) else .error .ub
  else do
    let count ← (List.range' t0 (t2 - t0)).foldlM (fun (count : Nat) start => do
      let sel ← selectSpanning D start ((start + t1 + (szMod - t0 % szMod)) % szMod)
      if sel.isEmpty then pure count else .error .ub) 0
    pure (List.replicate n (quot (0 : G) (count : G)))

/-- `getMSD(t0, t1, t2)`, lib/dynamicParticles.cpp:694-718, for all `size_t`. -/
def getMSDAll (D : DynParts G) (t0 t1 t2 : Nat) : R (List (Option G)) :=
  if t0 ≤ t1 then getMSD D t0 t1 t2
  else do
    let longest ← D.trajectories.longestSpan
    let n := (t1 + 1 + (szMod - t0 % szMod)) % szMod
    if longest < n then throw Fault.invalidArgument
    else getMSDReversed D n t0 t1 t2

/-- The body of the loop of mains/MSD.cpp:25-44. -/
def msdSubset (D : DynParts G) (dt : G) (a : Int × Int × Int) : R (SeriesFile G) :=
  if outOfFilm D.positions.length (toSize a.1) (toSize a.2.1) (toSize a.2.2) then throw Fault.invalidArgument
  else do
    let l ← getMSDAll D (toSize a.1) (toSize a.2.1) (toSize a.2.2)
    pure ⟨toSize a.1, toSize a.2.1, toSize a.2.2, rowsOf dt l⟩

/-- mains/MSD.cpp:19-51. -/
def msdProgram (D : DynParts G) (dt : G) (args : List Int) : Report (SeriesFile G) :=
  match removeDrift D with
  | .error e => ⟨[], some e⟩
  | .ok D' => runFiles (msdSubset D' dt) (subsets args)

/-- The body of the loop of mains/ISF.cpp:46-65. For `stop < start`, `getSelfISFMean` is not the code. -/
noncomputable def isfSubset (D : DynParts ℝ) (dt : ℝ) (a : Int × Int × Int) : R (SeriesFile ℝ) :=
  if outOfFilm D.positions.length (toSize a.1) (toSize a.2.1) (toSize a.2.2) then throw Fault.invalidArgument
  else do
    let l ← getSelfISFMean D (toSize a.1) (toSize a.2.1) (toSize a.2.2)
    pure ⟨toSize a.1, toSize a.2.1, toSize a.2.2, rowsOf dt l⟩

/-- mains/ISF.cpp:40-72. The test `argc<4`, lines 28-33, is that there are at least two arguments after the name. -/
noncomputable def isfProgram (D : DynParts ℝ) (dt : ℝ) (args : List Int) : Report (SeriesFile ℝ) :=
  match removeDrift D with
  | .error e => ⟨[], some e⟩
  | .ok D' => runFiles (isfSubset D' dt) (subsets args)

/-- The rows of mains/drift.cpp:30-37: the time and the drift. For a film without frame `positions.size()-1` wraps and
the first call is undefined; with an unsuccessful call the rows before are already written, here lost. -/
def driftProgram (D : DynParts G) : R (List (Nat × Coord G)) :=
  if D.positions.length = 0 then .error .ub
  else (List.range (D.positions.length - 1)).mapM fun t => do
    let sel ← selectSpanning D t (t + 1)
    let d ← getDriftOf D sel t (t + 1)
    pure (t, d)

/-- mains/dynamics.cpp:39-56: the dynamics that are exported, with the drift (`_drift`) and without. -/
noncomputable def dynamicsProgram (D : DynParts ℝ) (mode : Nat) :
    R (Option (List SetDynamics) × Option (List SetDynamics)) := do
  let withDrift ← if mode = 0 ∨ mode = 2 then (makeDynamicsAll D).map some else pure none
  let without ← if mode = 1 ∨ mode = 2 then do
      let D' ← removeDrift D
      (makeDynamicsAll D').map some
    else pure none
  pure (withDrift, without)

end Mains
end Colloids
