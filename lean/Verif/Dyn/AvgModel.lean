import Verif.Dyn.Model

/-! # Averages over time and bounds of trajectories: lib/dynamicParticles.cpp

A `std::map<size_t,double>` is the list of its pairs. -/

namespace Colloids
namespace Dyn

variable {G : Type} [Field G] [LinearOrder G]

/-- `m[k] = v` in a `std::map`. -/
def mapSet (k : Nat) (v : G) : List (Nat × G) → List (Nat × G)
  | [] => [(k, v)]
  | (k', v') :: l =>
    if k < k' then (k, v) :: (k', v') :: l
    else if k = k' then (k, v) :: l
    else (k', v') :: mapSet k v l

/-- The loop on `t`, lib/dynamicParticles.cpp:1418-1419, 1449-1461, from the value `v0`. `missing` is what
happens when a position has no value. -/
def addOver (values : List (List (Nat × G))) (missing : Fault) (T : Traj) (a n : Nat) (v0 : G) : R G :=
  (List.range' a n).foldlM (fun v t => do
    let m ← getR values t
    let p ← T.at_ t
    match m.lookup p with
    | none => throw missing
    | some x => pure (v + x)) v0

/-- The treatment of a trajectory of the selection, lib/dynamicParticles.cpp:1415-1422, 1446-1464. `insert`
keeps the value that the key has. -/
def averageStep (D : DynParts G) (values : List (List (Nat × G))) (missing : Fault) (a n : Nat)
    (m : List (Nat × G)) (tr : Nat) : R (List (Nat × G)) := do
  let T ← getR D.trajectories.trajs tr
  if T.span a (a + n - 1) then do
    let s ← addOver values missing T a n ((m.lookup tr).getD 0)
    pure (mapSet tr (s / n) m)
  else pure m

/-- `makeTimeAverage`, lib/dynamicParticles.cpp:1409-1423. Dereferencing the end of a map is undefined, and
so is the conversion of the infinite number of steps when the interval is null. -/
def makeTimeAverage (D : DynParts G) (sel : List Nat) (n : Nat) (values : List (List (Nat × G))) :
    R (List (List (Nat × G))) :=
  if n = 0 then throw .ub
  else (List.range (max (D.positions.length / n) 1)).mapM (fun avt =>
    sel.foldlM (averageStep D values .ub (avt * n) n) [])

/-- `makeSlidingTimeAverage`, lib/dynamicParticles.cpp:1431-1466. When the interval is too long the size wraps
and `assign` throws `length_error`. The null interval is not modelled. -/
def makeSlidingTimeAverage (D : DynParts G) (sel : List Nat) (n : Nat) (values : List (List (Nat × G))) :
    R (List (List (Nat × G))) :=
  if values.length < n - 1 then throw .logicError
  else (List.range (values.length - (n - 1))).mapM (fun avt =>
    sel.foldlM (averageStep D values .invalidArgument avt n) [])

/-- The loop of `boundsTrajectory`, lib/dynamicParticles.cpp:107-108. -/
def boundsLoop (D : DynParts G) (tr : Nat) : (k t : Nat) → Box 3 G → R (Box 3 G)
  | 0, _, bb => pure bb
  | k + 1, t, bb => do
    let x ← at_ D tr (t + 1)
    boundsLoop D tr k (t + 1) (bb.stretch (Particles.bounds x 0))

/-- `boundsTrajectory(tr)`, lib/dynamicParticles.cpp:101-111. -/
def boundsTrajectory (D : DynParts G) (tr : Nat) : R (Box 3 G) := do
  let T ← getR D.trajectories.trajs tr
  let x ← at_ D tr T.start
  boundsLoop D tr (T.lastTime - T.start) T.start (Particles.bounds x 0)

/-- `getMaxBox()`, lib/dynamicParticles.cpp:115-126. Undefined without any frame. -/
def getMaxBox (D : DynParts G) : R (Box 3 G) :=
  match D.positions with
  | [] => throw .ub
  | ps :: l => pure (l.foldl (fun bb ps => bb.stretch ps.bb) ps.bb)

/-- `getMaxSimultaneousParticles()`, lib/dynamicParticles.cpp:129-133. Undefined without any frame. -/
def getMaxSimultaneousParticles (D : DynParts G) : R Nat :=
  match D.positions.map (fun ps => ps.pos.length) with
  | [] => throw .ub
  | x :: l => pure (l.foldl (fun m y => if m < y then y else m) x)

end Dyn
end Colloids
