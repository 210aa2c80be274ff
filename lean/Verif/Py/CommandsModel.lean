import Verif.Common
import Verif.Files.Model

/-! # The command lines given to the programs by python/colloids/experiment.py, and how the programs read them

Arguments are texts without the name of the program; numbers that are not natural, the radius and the time step, are the texts that `str` gives. -/

namespace Colloids
namespace Py
namespace Commands

/-- `atoi` of a text that begins with no sign nor space -/
def atoi (s : List Char) : Nat := Files.value (s.takeWhile Files.isDig)

/-- What an `Experiment` knows: the name of the first file without `.dat`, the token, the radius, the time step, the number of the first frame, the number of frames, and
the name of the trajectories without `.traj`. Names: experiment.py:227-232 and 350-353. -/
structure Xp where
  base : List Char
  token : List Char
  radius : List Char
  dt : List Char
  offset : Nat
  size : Nat
  trajBase : List Char

/-- The frames of the experiment, `get_range`, experiment.py:224-225 -/
def Xp.frames (x : Xp) : List Nat := List.range' x.offset x.size

/-- `cut`, experiment.py:192-197 -/
def cut (x : Xp) : List (List Char) := [x.base ++ ".dat".toList, x.token, Files.dec 5, Files.dec x.offset, Files.dec x.size, "0.3".toList]

/-- `link`, experiment.py:199-209 -/
def link (x : Xp) : List (List Char) := [x.base ++ ".dat".toList, x.token, x.radius, x.dt, Files.dec x.offset, Files.dec x.size]

/-- `linkboo`, experiment.py:211-222 -/
def linkboo (x : Xp) : List (List Char) := [x.base ++ ".dat".toList, x.token, x.dt, Files.dec x.size, Files.dec x.offset]

/-- `rdf_radius`, experiment.py:282-290 -/
def totalRdf (x : Xp) : List (List Char) := [x.base ++ ".dat".toList, x.token, Files.dec 200, Files.dec 15]

/-- `boo(total=False)`, experiment.py:349-353 -/
def boo (x : Xp) : List (List Char) := [x.trajBase ++ ".traj".toList]

/-- A command of `g6` for the file of a frame, experiment.py:428-431; `cutoff` is the text of `nbDiameters`. -/
def g6 (x : Xp) (name : List Char) (nbins : Nat) (cutoff : List Char) : List (List Char) := [name, x.radius, Files.dec nbins, cutoff]

/-- `get_tau`, experiment.py:329-333 -/
def dynamics (x : Xp) : List (List Char) := [x.trajBase ++ ".traj".toList, ['1']]

/-- A series of files as a program sees it, and its other texts -/
structure Series where
  pattern : List Char
  token : List Char
  texts : List (List Char)
  span : Nat
  offset : Nat
  deriving DecidableEq

/-- The frames of a series, lib/files_series.hpp:51 and lib/dynamicParticles.cpp:1471-1473: `span` frames from `offset`. -/
def Series.frames (s : Series) : List Nat := List.range' s.offset s.span

/-- mains/linker.cpp:28-42. With fewer than four arguments the program says its syntax and fails; with four it reads the null pointer `argv[5]`. -/
def readLinker : List (List Char) → R Series
  | f :: t :: r :: d :: s :: l => .ok ⟨f, t, [r, d], atoi s, match l with | [] => 0 | o :: _ => atoi o⟩
  | [_, _, _, _] => .error .ub
  | _ => .error .logicError

/-- `filename.substr(filename.find_last_of("."))` without its dot, mains/linkboo.cpp:38, for names with a dot -/
def extension (s : List Char) : List Char := (s.reverse.takeWhile fun c => decide (c ≠ '.')).reverse

/-- mains/linkboo.cpp:30-75 for files that are not `.traj`; for these ones the options are in the file, which is not modelled. -/
def readLinkboo (inTraj : List Char → R Series) : List (List Char) → R Series
  | [] => .error .logicError
  | f :: args =>
    if extension f = "traj".toList then inTraj f
    else match args with
      | t :: d :: s :: l => .ok ⟨f, t, [d], atoi s, match l with | [] => 0 | o :: _ => atoi o⟩
      | _ => .error .logicError

/-- mains/totalRdf.cpp:31-47: the name and the token of a series of files, the number of bins and the text of the range -/
def readTotalRdf : List (List Char) → R (List Char × List Char × Nat × List Char)
  | f :: t :: n :: r :: _ => .ok (f, t, atoi n, r)
  | _ => .error .logicError

/-- mains/boo.cpp:145-156, without periodic boundaries: the name and the radius -/
def readBoo : List (List Char) → R (List Char × List Char)
  | f :: r :: _ => .ok (f, r)
  | _ => .error .logicError

/-- What mains/g6.cpp reads -/
structure G6Options where
  file : List Char
  radius : List Char
  nbins : Nat
  cutoff : List Char
  mode : Bool
  l : Nat
  deriving DecidableEq

/-- mains/g6.cpp:43-75, without periodic boundaries. With two or three arguments it reads `argv[4]`, that is null or after the end. -/
def readG6 : List (List Char) → R G6Options
  | f :: r :: n :: c :: rest => .ok ⟨f, r, atoi n, c, match rest[0]? with | some m => decide (atoi m ≠ 0) | none => false, match rest[1]? with | some l => atoi l | none => 6⟩
  | _ :: _ :: _ => .error .ub
  | _ => .error .invalidArgument

/-- mains/dynamics.cpp:27-39: the name and the mode -/
def readDynamics : List (List Char) → R (List Char × Nat)
  | f :: m :: _ => .ok (f, atoi m)
  | _ => .error .logicError

/-- mains/cutter.cpp:42-61 for arguments that are not options, which begin with a dash: at most one name and two separations are accepted by boost. With two separations, the value of
`minSep` is not single and boost throws also. `num` is the conversion of a text to a `double`. -/
def readCutter {F : Type} (num : List Char → Option F) : List (List Char) → R (Option (List Char) × Option F)
  | [] => .ok (none, none)
  | [f] => .ok (some f, none)
  | [f, m] =>
    match num m with
    | some v => .ok (some f, some v)
    | none => .error .logicError
  | _ => .error .logicError

end Commands
end Py
end Colloids
