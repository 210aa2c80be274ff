import Verif.Bonds.Model
import Verif.Dyn.Model

/-! # Neighbours lost or gained by the trajectories: mains/dhlngb.cpp, mains/lostngb.cpp, mains/traj2vtk.cpp

The files of bonds are given as texts (`none` for a file that cannot be opened); the loading of the trajectories is
in `Verif.Traj`, the names of the files in `Verif.Files`. Counts are written as `int` (or `double` in traj2vtk): no
overflow here. -/

namespace Colloids
namespace Mains

/-- `f >> a` where `a` may not be initialised (`none`): the variable is left alone when the stream is not good or
when nothing but white space remains; otherwise it is set (`IStream.readNat`). -/
def readSize (s : IStream) (old : Option Nat) : IStream × Option Nat :=
  let r := s.readNat 0
  if s.good && !(s.rest.dropWhile isSpace).isEmpty then (r.1, some r.2) else (r.1, old)

/-- `easy[a].push_back(pos2traj[b]); easy[b].push_back(pos2traj[a])`, mains/dhlngb.cpp:49-50,
mains/lostngb.cpp:62-63, mains/traj2vtk.cpp:61-62 and 137-138. -/
def addNgb (inv : List Nat) (easy : List (List Nat)) (a b : Nat) : R (List (List Nat)) := do
  let tb ← getR inv b
  let easy ← modifyR easy a (· ++ [tb])
  let ta ← getR inv a
  modifyR easy b (· ++ [ta])

/-- The loop `while(f.good())`, mains/dhlngb.cpp:46-51, mains/lostngb.cpp:59-64, mains/traj2vtk.cpp:58-63 and
134-139. `a`, `b` are not initialised before the first turn. `fuel` bounds the number of turns. -/
def bondLoop (inv : List Nat) : (fuel : Nat) → IStream → (a b : Option Nat) → List (List Nat) →
    R (List (List Nat))
  | 0, _, _, _, _ => .error .diverge
  | fuel + 1, s, a, b, easy =>
    if !s.good then .ok easy
    else
      let r1 := readSize s a
      let r2 := readSize r1.1 b
      match r1.2, r2.2 with
      | some a, some b => do
        let easy ← addNgb inv easy a b
        bondLoop inv fuel r2.1 (some a) (some b) easy
      | _, _ => .error .ub

/-- `fillNgbFrame` mains/dhlngb.cpp:33-64 (the same in mains/lostngb.cpp:47-77, mains/traj2vtk.cpp:45-76 and
127-150): for each position, the trajectories of the positions bonded to it. A file that cannot be opened is a
stream which is not good. `inv` is `getInverse(t)`. -/
def ngbFrame (inv : List Nat) (file : Option (List Char)) : R (List (List Nat)) := do
  let easy ← match file with
    | none => .ok (List.replicate inv.length [])
    | some text => bondLoop inv (text.length + 2) { rest := text } none none (List.replicate inv.length [])
  pure (easy.map sortUnique)

/-- Body of the loop on the positions, mains/dhlngb.cpp:120-135. -/
def dhEntry (ti : TrajIndex) (inv : List Nat) (first actual : List (List Nat)) (t p : Nat) : R Int := do
  let tr ← getR inv p
  let T ← getR ti.trajs tr
  if t ≤ T.lastTime then do
    let row0 ← getR first p
    let q ← T.at_ t
    let row ← getR actual q
    pure ((Dyn.setDifference row0 row).length : Int)
  else pure (-1)

/-- `dhlngb` mains/dhlngb.cpp:101-146, `initial` being the argument converted to `size_t`: the content of the file
of each time step after `initial`. -/
def dhlngb (ti : TrajIndex) (files : Nat → Option (List Char)) (size initial : Nat) : R (List (List Int)) :=
  if size ≤ (initial + 1) % szMod then .error .invalidArgument
  else do
    let inv ← getR ti.inverse initial
    let first ← ngbFrame inv (files initial)
    (List.range' (initial + 1) (size - (initial + 1))).mapM fun t => do
      let invt ← getR ti.inverse t
      let actual ← ngbFrame invt (files t)
      (List.range inv.length).mapM (dhEntry ti inv first actual t)

/-- The neighbours of all the positions of all the frames, mains/lostngb.cpp:36-80, mains/traj2vtk.cpp:37-76 and
117-150. -/
def allNgbs (ti : TrajIndex) (files : Nat → Option (List Char)) : R (List (List (List Nat))) :=
  ti.inverse.zipIdx.mapM fun x => ngbFrame x.1 (files x.2)

/-- `dyn[t][tr[t]]`. -/
def ngbsOf (dyn : List (List (List Nat))) (T : Traj) (t : Nat) : R (List Nat) := do
  let frame ← getR dyn t
  let p ← T.at_ t
  getR frame p

/-- Body of the loop on the positions, mains/lostngb.cpp:86-99, mains/traj2vtk.cpp:158-171. -/
def postEntry (ti : TrajIndex) (dyn : List (List (List Nat))) (tau t0 tr : Nat) : R Int := do
  let T ← getR ti.trajs tr
  if (t0 + tau) % szMod ≤ T.lastTime then do
    let l ← ngbsOf dyn T ((t0 + tau) % szMod)
    let e ← ngbsOf dyn T t0
    pure ((Dyn.setDifference l e).length : Int)
  else pure (-1)

/-- `export_post_lostNgb` mains/lostngb.cpp:27-108, mains/traj2vtk.cpp:107-180: the content of the file of each
`t0`; `size-tau` is a `size_t`. -/
def postLost (ti : TrajIndex) (files : Nat → Option (List Char)) (tau : Nat) : R (List (List Int)) := do
  let dyn ← allNgbs ti files
  (List.range ((ti.inverse.length + (szMod - tau)) % szMod)).mapM fun t0 => do
    let inv ← getR ti.inverse t0
    inv.mapM (postEntry ti dyn tau t0)

/-- Body of the loop on the positions, mains/traj2vtk.cpp:82-97. -/
def aroundEntry (ti : TrajIndex) (dyn : List (List (List Nat))) (tau t0 tr : Nat) : R Nat := do
  let T ← getR ti.trajs tr
  let start := max (T.start + tau / 2) t0 - tau / 2
  let stop := min T.lastTime (t0 + tau / 2)
  if start ≠ stop then do
    let l ← ngbsOf dyn T stop
    let e ← ngbsOf dyn T start
    pure (Dyn.setDifference l e).length
  else pure 0

/-- `export_lostNgb` mains/traj2vtk.cpp:27-105: the content of the file of each `t0`. -/
def aroundLost (ti : TrajIndex) (files : Nat → Option (List Char)) (tau : Nat) : R (List (List Nat)) := do
  let dyn ← allNgbs ti files
  (List.range ti.inverse.length).mapM fun t0 => do
    let inv ← getR ti.inverse t0
    inv.mapM (aroundEntry ti dyn tau t0)

end Mains
end Colloids
