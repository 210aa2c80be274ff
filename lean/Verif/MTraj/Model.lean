import Verif.Common

/-!
# Model of `multiscale/src/traj.hpp`, `multiscale/src/traj.cpp`

The index object is mutated in place and may throw half-way, so its methods are written in the monad
`MIndexM` that keeps the state reached when a fault is raised.
-/

namespace Colloids

/-- `class Traj` of the multiscale tracker. multiscale/src/traj.hpp:47-63. `int` overflow of times
is not represented. -/
structure MTraj where
  start : Int
  steps : List Nat
  deriving DecidableEq, Repr

namespace MTraj

/-- Constructor, traj.hpp:52-53. -/
def mk1 (start : Int) (p : Nat) : MTraj := ⟨start, [p]⟩

/-- `get_finish` traj.hpp:56. -/
def finish (tr : MTraj) : Int := tr.start + tr.steps.length

/-- `exist` traj.hpp:57. -/
def exist (tr : MTraj) (t : Int) : Bool := decide (tr.start ≤ t) && decide (t < tr.finish)

/-- `span` traj.hpp:58. -/
def span (tr : MTraj) (t0 t1 : Int) : Bool := decide (tr.start ≤ t0) && decide (t1 ≤ tr.finish)

/-- `operator[]` traj.hpp:60: an out-of-range time is undefined behaviour (assertion in debug). -/
def at_ (tr : MTraj) (t : Int) : R Nat :=
  if tr.exist t then getR tr.steps (t - tr.start).toNat else .error .ub

/-- `push_back` traj.hpp:62. -/
def pushBack (tr : MTraj) (p : Nat) : MTraj := { tr with steps := tr.steps ++ [p] }

/-- `update_last` traj.hpp:61 (`back()` of an empty deque is undefined behaviour). -/
def updateLast (tr : MTraj) (p : Nat) : R MTraj :=
  if tr.steps.isEmpty then .error .ub
  else .ok { tr with steps := tr.steps.set (tr.steps.length - 1) p }

end MTraj

/-- `class TrajIndex` traj.hpp:69-91. -/
structure MIndex where
  tr2pos : List MTraj
  pos2tr : List (List Nat)
  deriving DecidableEq, Repr

/-- Methods of the index: they read and write the object and may raise a fault, keeping the state
reached at that point. -/
def MIndexM (α : Type) : Type := MIndex → Except Fault α × MIndex

namespace MIndexM

instance : Monad MIndexM where
  pure a := fun s => (.ok a, s)
  bind x f := fun s => match x s with
    | (.ok a, s') => f a s'
    | (.error e, s') => (.error e, s')

/-- Read the object. -/
def get : MIndexM MIndex := fun s => (.ok s, s)
/-- Raise a fault. -/
def throw (e : Fault) : MIndexM α := fun s => (.error e, s)
/-- A computation that does not touch the object. -/
def lift (r : R α) : MIndexM α := fun s => (r, s)
/-- Write `tr2pos`. -/
def setTr (l : List MTraj) : MIndexM Unit := fun s => (.ok (), { s with tr2pos := l })
/-- Write `pos2tr`. -/
def setPos (l : List (List Nat)) : MIndexM Unit := fun s => (.ok (), { s with pos2tr := l })

end MIndexM

namespace MIndex
open MIndexM

/-- Constructor, traj.cpp:39-46. -/
def init (n : Nat) : MIndex :=
  { tr2pos := (List.range n).map (MTraj.mk1 0), pos2tr := [List.range n] }

/-- `getTraj(t,p)` traj.hpp:82. -/
def getTraj (ti : MIndex) (t p : Nat) : R Nat := do getR (← getR ti.pos2tr t) p

/-- Body of the linking loop, traj.cpp:64-72, for one bond `(from, to)`. -/
def linkStep (used : List Bool × List Bool) (b : Nat × Nat) :
    MIndexM (List Bool × List Bool) := do
  let fu ← lift (getR used.1 b.1)
  if fu then return used else do
    let tu ← lift (getR used.2 b.2)
    if tu then return used else do
      let s ← get
      let prev ← lift (getR s.pos2tr (s.pos2tr.length - 2))
      let tr ← lift (getR prev b.1)
      let cur ← lift (backR s.pos2tr)
      let cur' ← lift (setR cur b.2 tr)
      setPos (s.pos2tr.set (s.pos2tr.length - 1) cur')
      let trs ← lift (modifyR s.tr2pos tr (fun T => T.pushBack b.2))
      setTr trs
      return (used.1.set b.1 true, used.2.set b.2 true)

/-- Body of the loop creating trajectories, traj.cpp:75-80. -/
def newStep (toUsed : List Bool) (p : Nat) : MIndexM Unit := do
  let tu ← lift (getR toUsed p)
  if tu then return () else do
    let s ← get
    let cur ← lift (backR s.pos2tr)
    let cur' ← lift (setR cur p s.tr2pos.length)
    setPos (s.pos2tr.set (s.pos2tr.length - 1) cur')
    setTr (s.tr2pos ++ [MTraj.mk1 ((s.pos2tr.length : Int) - 1) p])

/-- Loop of a method over a list. -/
def forAll (f : β → α → MIndexM β) : List α → β → MIndexM β
  | [], b => return b
  | a :: as, b => do forAll f as (← f b a)

/-- The bonds sorted by distance (`std::list::sort` is stable), traj.cpp:54-58. -/
def sortedBonds [LE D] [DecidableLE D] (distances : List D) (pFrom pTo : List Nat) :
    List (D × (Nat × Nat)) :=
  (distances.zip (pFrom.zip pTo)).mergeSort (fun a b => decide (a.1 ≤ b.1))

/-- `add_Frame(frame_size, distances, p_from, p_to)` traj.cpp:48-81. -/
def addFrameLinks [LE D] [DecidableLE D] (frameSize : Nat) (distances : List D)
    (pFrom pTo : List Nat) : MIndexM Unit := do
  if distances.length ≠ pFrom.length ∨ pFrom.length ≠ pTo.length then throw .invalidArgument
  else if pTo.any (fun p => decide (frameSize ≤ p)) then throw .invalidArgument
  else do
    let s ← get
    let prev ← lift (backR s.pos2tr)
    setPos (s.pos2tr ++ [List.replicate frameSize 0])
    let used ← forAll linkStep ((sortedBonds distances pFrom pTo).map Prod.snd)
      (List.replicate prev.length false, List.replicate frameSize false)
    forAll (fun _ p => newStep used.2 p) (List.range used.2.length) ()

/-- Check that old trajectories can be continued, traj.hpp:108-110. -/
def checkOld (old : List Nat) : MIndexM Unit :=
  forAll (fun _ tr => do
    let s ← get
    let T ← lift (getR s.tr2pos tr)
    if T.finish < (s.pos2tr.length : Int) then throw .invalidArgument else return ()) old ()

/-- One step of the final loop, traj.hpp:123-130. -/
def updateStep (nbtrajs : Nat) (ptr : Nat × Nat) : MIndexM Unit := do
  let s ← get
  let T ← lift (getR s.tr2pos ptr.2)
  if ptr.2 < nbtrajs then setTr (s.tr2pos.set ptr.2 (T.pushBack ptr.1))
  else do
    let T' ← lift (T.updateLast ptr.1)
    setTr (s.tr2pos.set ptr.2 T')

/-- `std::list::unique`: keep the first of each run of equal elements. -/
def uniq : List Nat → List Nat
  | [] => []
  | [a] => [a]
  | a :: b :: l => if a = b then uniq (b :: l) else a :: uniq (b :: l)

/-- `add_Frame(first, last)` traj.hpp:93-132. `nbtrajs-1` wraps when there is no trajectory, in
which case every index is below the bound. -/
def addFrameExplicit (input : List Nat) : MIndexM Unit := do
  let sorted := uniq (input.mergeSort (fun a b => decide (a ≤ b)))
  if sorted.length < input.length then throw .invalidArgument
  else do
    let s ← get
    let nbtrajs := s.tr2pos.length
    let isOld := fun tr => decide (nbtrajs = 0 ∨ tr ≤ nbtrajs - 1)
    let old := sorted.takeWhile isOld
    let new := sorted.dropWhile isOld
    checkOld old
    if new ≠ [] ∧ sorted.getLastD 0 - new.headD 0 + 1 ≠ new.length then throw .invalidArgument
    else do
      let s ← get
      setTr (s.tr2pos ++ new.map (fun _ => MTraj.mk1 (s.pos2tr.length : Int) 0))
      let s ← get
      setPos (s.pos2tr ++ [input])
      forAll (fun _ ptr => updateStep nbtrajs ptr) (input.zipIdx.map Prod.swap) ()

end MIndex

end Colloids
