import Verif.Traj.Model

/-! # Linking of trajectories in python: the class `Linker`, python/colloids/particles.py:802-920

Lists and arrays of integers are lists of natural numbers: the indices are supposed not negative. An `IndexError` is given as `outOfRange`,
a failed assertion or a name that is not defined as `logicError`. When a call fails the changes already made are not modelled.
The arrays that are given to the methods are supposed not to be modified afterwards by the caller. -/

namespace Colloids
namespace Py

/-- `l[i]` in python, with `i` not negative. -/
def idx (l : List α) (i : Nat) : R α :=
  match l[i]? with
  | some a => .ok a
  | none => .error .outOfRange

/-- `l[i] = f(l[i])` in python, with `i` not negative. -/
def upd (l : List α) (i : Nat) (f : α → α) : R (List α) :=
  if i < l.length then .ok (l.modify i f) else .error .outOfRange

/-- `l[-1]` in python. -/
def last (l : List α) : R α :=
  match l.getLast? with
  | some a => .ok a
  | none => .error .outOfRange

/-- The attributes of a `Linker`, python/colloids/particles.py:803-807. -/
structure Linker where
  tr2pos : List (List Nat)
  pos2tr : List (List Nat)
  trajstart : List Nat
  nbtrajs : List Nat
  deriving DecidableEq, Repr

namespace Linker

/-- `Linker.__init__`, python/colloids/particles.py:803-807. -/
def new (n : Nat) : Linker :=
  ⟨(List.range n).map fun p => [p], [List.range n], (List.range n).map fun _ => 0, [n]⟩

/-- The body of the loop of `loadFrame`, python/colloids/particles.py:814-818. -/
def loadStep (t nb : Nat) (s : List (List Nat) × List Nat) (x : Nat × Nat) : R (List (List Nat) × List Nat) :=
  if x.1 < nb then do pure (← upd s.1 x.1 (· ++ [x.2]), s.2)
  else .ok (s.1 ++ [[x.2]], s.2 ++ [t])

/-- `Linker.loadFrame`, python/colloids/particles.py:809-819. -/
def loadFrame (l : Linker) (frame : List Nat) : R Linker := do
  let t := l.pos2tr.length
  let nb ← last l.nbtrajs
  let s ← frame.zipIdx.foldlM (loadStep t nb) (l.tr2pos, l.trajstart)
  pure ⟨s.1, l.pos2tr ++ [frame], s.2, l.nbtrajs ++ [s.2.length]⟩

/-- `pairs[np.argsort(distances)]`, python/colloids/particles.py:831 and 881. The order is a parameter. -/
def arrange (order : List Nat) (pairs : List (Nat × Nat)) : R (List (Nat × Nat)) := order.mapM (idx pairs)

/-- The variables of the loop of `addFrame`, python/colloids/particles.py:833-836. -/
structure Marks where
  fromUsed : List Bool
  toUsed : List Bool
  newframe : List Nat
  tr2pos : List (List Nat)

/-- The body of the C++ loop of `addFrame`, python/colloids/particles.py:838-848. Arrays are not checked there. -/
def linkStep (pos2tr : List Nat) (s : Marks) (x : Nat × Nat) : R Marks := do
  let a ← getR s.fromUsed x.1
  let b ← getR s.toUsed x.2
  if a || b then pure s
  else do
    let f ← setR s.fromUsed x.1 true
    let g ← setR s.toUsed x.2 true
    let tr ← getR pos2tr x.1
    let nf ← setR s.newframe x.2 tr
    let tp ← upd s.tr2pos tr (· ++ [x.2])
    pure ⟨f, g, nf, tp⟩

/-- `np.where(np.bitwise_not(to_used))[0]`, python/colloids/particles.py:868 and 906. -/
def notUsed (toUsed : List Bool) : List Nat := (List.range toUsed.length).filter fun q => toUsed[q]? = some false

/-- `newframe[notused] = np.arange(len(notused)) + first`, python/colloids/particles.py:869 and 907. -/
def number (first : Nat) (notused frame : List Nat) : R (List Nat) :=
  notused.zipIdx.foldlM (fun f x => upd f x.1 fun _ => x.2 + first) frame

/-- `Linker.addFrame`, python/colloids/particles.py:821-874. `weave` says if the module `weave` is imported: the lines that import it
are commented out (lines 24-25), so that the name is not defined. The order given by `np.argsort` is a parameter. -/
def addFrame (weave : Bool) (argsort : List G → List Nat) (l : Linker) (frameSize : Nat) (pairs : List (Nat × Nat))
    (distances : List G) : R Linker := do
  if pairs.length ≠ distances.length then .error .logicError
  else if pairs.isEmpty then do
    let nb ← last l.nbtrajs
    let starts := l.trajstart ++ (List.range frameSize).map fun _ => l.pos2tr.length
    pure ⟨l.tr2pos ++ (List.range frameSize).map fun p => [p], l.pos2tr ++ [(List.range frameSize).map fun p => p + nb], starts,
      l.nbtrajs ++ [starts.length]⟩
  else if !(pairs.all fun x => x.2 < frameSize) then .error .logicError
  else do
    let sorted ← arrange (argsort distances) pairs
    let prev ← last l.pos2tr
    if !weave then .error .logicError
    else do
      let s ← sorted.foldlM (linkStep prev)
        ⟨List.replicate prev.length false, List.replicate frameSize false, List.replicate frameSize 0, l.tr2pos⟩
      let notused := notUsed s.toUsed
      let newframe ← number s.tr2pos.length notused s.newframe
      let starts := l.trajstart ++ notused.map fun _ => l.pos2tr.length
      pure ⟨s.tr2pos ++ notused.map fun p => [p], l.pos2tr ++ [newframe], starts, l.nbtrajs ++ [starts.length]⟩

/-- The body of the loop that filters the links in `update`, python/colloids/particles.py:888-892. -/
def filterStep (s : List Bool × List Bool × List (Nat × Nat)) (x : Nat × Nat) : R (List Bool × List Bool × List (Nat × Nat)) := do
  let a ← idx s.1 x.1
  let skip ← if a then pure true else idx s.2.1 x.2
  if skip then pure s
  else do
    let f ← upd s.1 x.1 fun _ => true
    let g ← upd s.2.1 x.2 fun _ => true
    pure (f, g, s.2.2 ++ [x])

/-- `Linker.update`, python/colloids/particles.py:876-914, with what is returned. The links that are kept have distinct trajectories, so that
the order of `np.argsort(links[:,0])` is the sorted one. `links[:,0]` is an `IndexError` when there is no link (line 894: the array
has one dimension). -/
def update (argsort : List G → List Nat) (l : Linker) (pairs : List (Nat × Nat)) (distances : List G) :
    R (Linker × List Bool) := do
  if !(2 < l.pos2tr.length) then .error .logicError
  else if pairs.length ≠ distances.length then .error .logicError
  else do
    let sorted ← arrange (argsort distances) pairs
    let T := l.pos2tr.length
    let nb ← idx l.nbtrajs (l.nbtrajs.length - 2)
    let prev ← idx l.pos2tr (T - 2)
    let cur ← idx l.pos2tr (T - 1)
    let fromUsed ← prev.foldlM (fun f tr => upd f tr fun _ => true) (List.replicate nb false)
    let s ← sorted.foldlM filterStep (fromUsed, cur.map fun tr => decide (tr < nb), [])
    if s.2.2.isEmpty then .error .outOfRange
    else do
      let links := s.2.2.mergeSort fun x y => decide (x.1 ≤ y.1)
      let cur ← links.foldlM (fun f x => upd f x.2 fun _ => x.1) cur
      let tp ← links.zipIdx.foldlM (fun tp x => upd tp x.1.1 (· ++ [prev.length + x.2, x.1.2])) (l.tr2pos.take nb)
      let notused := notUsed s.2.1
      let cur ← number nb notused cur
      let starts := l.trajstart.take nb ++ notused.map fun _ => T - 1
      let grown ← links.foldlM (fun g x => upd g x.1 fun _ => true) (List.replicate starts.length false)
      pure (⟨tp ++ notused.map fun p => [p], (l.pos2tr.set (T - 2) (prev ++ links.map (·.1))).set (T - 1) cur, starts,
        l.nbtrajs.set (l.nbtrajs.length - 1) starts.length⟩, grown)

/-- `Linker.save`, python/colloids/particles.py:916-920. -/
def save (l : Linker) : List Char :=
  ((l.trajstart.zip l.tr2pos).map fun x =>
    showNat x.1 ++ ['\n'] ++ (List.intersperse ['\t'] (x.2.map showNat)).flatten ++ ['\n']).flatten

end Linker
end Py
end Colloids
