import Verif.Traj.Model
import Mathlib.Algebra.Order.Field.Basic

/-! # Relaxation time, jump frequency and volume fraction: mains/cage2vtk.cpp, mains/traj2vtk.cpp

Exact arithmetic. The files read are given by their numbers; what is written is given as lists of numbers. -/

namespace Colloids
namespace Mains

variable {G : Type} [Field G] [LinearOrder G]

/-- `std::upper_bound` (libstdc++ `__upper_bound`) of `e` in `l`: the index. `fuel` is any number not less than
`len`. -/
def upperBoundAux (e : G) (l : List G) : (fuel first len : Nat) → Nat
  | 0, first, _ => first
  | fuel + 1, first, len =>
    if len = 0 then first
    else
      let half := len / 2
      if e < l.getD (first + half) 0 then upperBoundAux e l fuel first half
      else upperBoundAux e l fuel (first + half + 1) (len - half - 1)

/-- `std::upper_bound` on the whole range. -/
def upperBound (e : G) (l : List G) : Nat := upperBoundAux e l l.length 0 l.length

/-- `loadTau` mains/cage2vtk.cpp:136-158, mains/traj2vtk.cpp:253-275. `isf` is the last column of the file for each
of the `size` time steps (zeros after the end of the file), `e` is `exp(-1.0)`. -/
def loadTau (e : G) (isf : List G) : R Nat :=
  match isf.getLast? with
  | none => .error .ub
  | some x =>
    if e < x then .ok (isf.length - 1)
    else .ok ((isf.length - 1 + (szMod - upperBound e isf.reverse)) % szMod)

/-- `jumps[u][(*tr)[u]]++`, mains/cage2vtk.cpp:49. -/
def countJump (T : Traj) (jumps : List (List Nat)) (u : Nat) : R (List (List Nat)) := do
  let p ← T.at_ u
  let row ← getR jumps u
  let row' ← modifyR row p (· + 1)
  setR jumps u row'

/-- The loop mains/cage2vtk.cpp:38-52 on a trajectory. `fuel` bounds the number of turns. -/
def jumpLoop (cages : TrajIndex) (tau : Nat) (T : Traj) : (fuel t : Nat) → List (List Nat) → R (List (List Nat))
  | 0, _, _ => .error .diverge
  | fuel + 1, t, jumps =>
    if t < T.lastTime + 1 then do
      let p ← T.at_ t
      let c ← cages.invert t p
      let C ← getR cages.trajs c
      let t' := C.lastTime
      let start := max (T.start + tau / 2) t' - tau / 2
      let stop := min T.lastTime (t' + tau / 2)
      let jumps ← (List.range' start (stop + 1 - start)).foldlM (countJump T) jumps
      jumpLoop cages tau T fuel (t' + 1) jumps
    else .ok jumps

/-- The counts of `export_jump` mains/cage2vtk.cpp:29-53. -/
def jumpCounts (ti cages : TrajIndex) (tau : Nat) : R (List (List Nat)) :=
  ti.trajs.foldlM (fun jumps T => jumpLoop cages tau T (T.lastTime + 2) T.start jumps)
    (ti.inverse.map fun inv => List.replicate inv.length 0)

/-- `length` mains/cage2vtk.cpp:57-59. -/
def jumpLength (size tau t : Nat) : Nat := min size (t + tau / 2) - (max (tau / 2) t - tau / 2)

/-- What `export_jump` writes, mains/cage2vtk.cpp:55-64: `none` for a division by zero. -/
def exportJump (ti cages : TrajIndex) (tau : Nat) : R (List (List (Option G))) := do
  let jumps ← jumpCounts ti cages tau
  pure (jumps.zipIdx.map fun x => x.1.map fun (n : Nat) =>
    let length := jumpLength ti.inverse.length tau x.2
    if length = 0 then none else some ((n : G) / (length : G)))

/-- `unitVolume` mains/cage2vtk.cpp:111, mains/traj2vtk.cpp:226: `4/3` is an integer division. `pi` is `M_PI`. -/
def unitVolume (pi radius : G) : G := ((4 / 3 : Nat) : G) * radius ^ 3 * pi

/-- The volume fractions of a frame, mains/cage2vtk.cpp:121-123, mains/traj2vtk.cpp:236-238, before the average over
time. The test `1.0 + vol[p]*vol[p] > 1.0` is `vol[p] ≠ 0` in exact arithmetic. -/
def phiOf (pi radius : G) (vol : List G) : List G :=
  vol.map fun v => if v = 0 then v else unitVolume pi radius / v

end Mains
end Colloids
