import Verif.Dyn.AvgModel

/-! # Bond order in a film: `DynamicParticles::makeBoo` and `makeSBoo`, lib/dynamicParticles.cpp:1366-1399

`V` stands for `BooData`. A `std::map` is the list of its pairs. -/

namespace Colloids
namespace Dyn

variable {G : Type} [Field G] [LinearOrder G] {V : Type} [AddCommGroup V] [Module G V]

/-- `makeBoo(t, selection, allBoo)`, lib/dynamicParticles.cpp:1368-1378; `boo` is `getBOO` in the frame `t`. `insert` keeps
the value that the key has. -/
def makeBoo (D : DynParts G) (boo : Nat → R V) (t : Nat) (sel : List Nat) : R (List (Nat × V)) :=
  sel.foldlM (fun m tr => do
    let T ← getR D.trajectories.trajs tr
    if T.exist t then do
      let p ← T.at_ t
      let b ← boo p
      pure (match m.lookup p with
        | some _ => m
        | none => mapSet p b m)
    else pure m) []

/-- `positions[t].getEuclidianNeighbours(positions[t][p],1.3*2.0*radius)`, lib/dynamicParticles.cpp:1391. -/
def booNgb (D : DynParts G) (t p : Nat) : R (List Nat) := do
  let ps ← getR D.positions t
  let x ← getR ps.pos p
  Particles.getEuclidianNeighbours Particles.geometry ps x (13 / 10 * 2 * D.radius)

/-- The sum over the neighbours, lib/dynamicParticles.cpp:1393-1394. Dereferencing the end of the map is undefined. -/
def addBoos (allBoo : List (Nat × V)) (ns : List Nat) (v0 : V) : R V :=
  ns.foldlM (fun s q => match allBoo.lookup q with
    | none => throw Fault.ub
    | some b => pure (s + b)) v0

/-- The treatment of a trajectory, lib/dynamicParticles.cpp:1387-1397. Without neighbour the division by zero is
undefined numbers, 0 here. -/
def sbooStep (D : DynParts G) (t : Nat) (allBoo : List (Nat × V)) (m : List (Nat × V)) (tr : Nat) : R (List (Nat × V)) := do
  let T ← getR D.trajectories.trajs tr
  if T.exist t then do
    let p ← T.at_ t
    let ns ← booNgb D t p
    let s ← addBoos allBoo ns ((m.lookup p).getD 0)
    pure (mapSet p ((ns.length : G)⁻¹ • s) m)
  else pure m

/-- `makeSBoo(t, selection, allBoo, SallBoo)`, lib/dynamicParticles.cpp:1382-1399. -/
def makeSBoo (D : DynParts G) (t : Nat) (sel : List Nat) (allBoo : List (Nat × V)) : R (List (Nat × V)) :=
  sel.foldlM (sbooStep D t allBoo) []

end Dyn
end Colloids
