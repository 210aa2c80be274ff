import Verif.Py.PairModel
import Verif.Py.LinkerModel

/-! # Linking of a film in python: `link_save`, python/colloids/particles.py:922-943 -/

namespace Colloids
namespace Py
namespace LinkSave

/-- What `np.loadtxt` gives for the coordinates of a frame: an array with two dimensions for two particles or more, otherwise an array with a single
dimension, that contains the three coordinates of a particle or nothing. -/
inductive Loaded where
  | rows (l : List (Fin 3 → ℝ))
  | flat (n : Nat)

/-- `np.loadtxt(pattern%t, skiprows=2)`, python/colloids/particles.py:929 and 934. -/
def load (frame : List (Fin 3 → ℝ)) : Loaded :=
  match frame with
  | [] => .flat 0
  | [_] => .flat 3
  | l => .rows l

/-- `len` of an array. -/
def Loaded.len : Loaded → Nat
  | .rows l => l.length
  | .flat n => n

/-- The state of the loop: the coordinates of the last frame, the linker and the contents of the files `p2tr`. -/
structure State where
  pos1 : Loaded
  linker : Linker
  files : List (List Nat)

/-- The body of the loop, python/colloids/particles.py:932-937. An array with a single dimension has no `shape[1]`, or is indexed by two indices in code that
does not compile: an error. -/
noncomputable def step (weave : Bool) (argsort : List ℝ → List Nat) (P : RParams ℝ) (H : Heur 3 ℝ) (s : State) (frame : List (Fin 3 → ℝ)) : R State :=
  match s.pos1, load frame with
  | .rows pos0, .rows pos1 => do
    let r ← Pairs.getLinks P H pos0 (List.replicate pos0.length 1) pos1 (List.replicate pos1.length 1) 5
    let l ← s.linker.addFrame weave argsort pos1.length r.1 r.2
    let f ← last l.pos2tr
    pure ⟨.rows pos1, l, s.files ++ [f]⟩
  | _, _ => .error .outOfRange

/-- The frames that are used: without the last one if it is empty, python/colloids/particles.py:926-927. -/
def used (frames : List (List (Fin 3 → ℝ))) : List (List (Fin 3 → ℝ)) :=
  match frames.getLast? with
  | some [] => frames.dropLast
  | _ => frames

/-- `link_save`, python/colloids/particles.py:922-943: the contents of the files `p2tr`, the number of frames that is written in the `.traj` file and the
trajectories in it; the rest of the head of this file is not modelled. `frames` are the coordinates in the `size` files; the first file is read again when
there is no frame left. -/
noncomputable def linkSave (weave : Bool) (argsort : List ℝ → List Nat) (P : RParams ℝ) (H : Heur 3 ℝ) (frames : List (List (Fin 3 → ℝ))) :
    R (List (List Nat) × Nat × List Char) := do
  let size := (used frames).length
  let first ← idx frames 0
  let pos1 := load first
  let linker := Linker.new pos1.len
  let f ← last linker.pos2tr
  let s ← ((used frames).drop 1).foldlM (step weave argsort P H) ⟨pos1, linker, [f]⟩
  pure (s.files, size, s.linker.save)

end LinkSave
end Py
end Colloids
