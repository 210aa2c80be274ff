import Verif.Clusters.Model
import Verif.Dyn.Model
import Mathlib.Algebra.Order.Field.Rat

/-! # Clusters followed in time: lib/dynamicClusters.cpp:78-263

The members of a cluster are trajectory numbers, a `std::set<size_t>` is the list of its elements in
increasing order. -/

namespace Colloids
namespace DynClusters
open Dyn Clusters

variable {G : Type} [Field G] [LinearOrder G]

/-- `popul_t`, lib/dynamicClusters.cpp:104-107: the positions at time `t` of the trajectories of the
population that exist at this time. -/
def populAt (D : DynParts G) (pop : List Nat) (t : Nat) : R (List Nat) :=
  pop.foldlM (fun (acc : List Nat) (tr : Nat) => do
    let T ← getR D.trajectories.trajs tr
    if T.exist t then do
      let p ← T.at_ t
      pure (setInsert p acc)
    else pure acc) []

/-- `unsorted_clusters[t]`, lib/dynamicClusters.cpp:104-109. -/
def clustersAt (D : DynParts G) (pop : List Nat) (t : Nat) : R (List (List Nat)) := do
  let p ← populAt D pop t
  let N ← getR D.ngbs t
  segregate p [] N

/-- One `transform` by `TrajIndex::Inverser`, lib/dynamicClusters.cpp:118-123. -/
def toTrajs (D : DynParts G) (t : Nat) (k : List Nat) : R (List Nat) :=
  k.foldlM (fun (acc : List Nat) (p : Nat) => do
    let tr ← D.trajectories.invert t p
    pure (setInsert tr acc)) []

/-- lib/dynamicClusters.cpp:115-124: the clusters of more than one particle are appended to
`members[t]`. -/
def translate (D : DynParts G) (t : Nat) (ks : List (List Nat)) (ms : List (List Nat)) :
    R (List (List Nat)) :=
  ks.foldlM (fun (ms : List (List Nat)) (k : List Nat) =>
    if 1 < k.length then do
      let s ← toTrajs D t k
      pure (ms ++ [s])
    else pure ms) ms

/-- `std::set_union` of two sorted ranges (with the number of steps as fuel). -/
def setUnionAux : Nat → List Nat → List Nat → List Nat
  | 0, _, _ => []
  | _ + 1, [], l => l
  | _ + 1, l, [] => l
  | fuel + 1, a :: l, b :: l' =>
    if a < b then a :: setUnionAux fuel l (b :: l')
    else if b < a then b :: setUnionAux fuel (a :: l) l'
    else a :: setUnionAux fuel l l'

/-- `std::set_union` of two sorted ranges. -/
def setUnion (l l' : List Nat) : List Nat := setUnionAux (l.length + l'.length + 1) l l'

/-- The body of the loop over the clusters `S` of the next time, lib/dynamicClusters.cpp:140-159. The
distance is a rational number, of which the `double` of the code is the rounding. -/
def followStep (K : List Nat) (m : List (ℚ × Nat)) (S : List Nat × Nat) : List (ℚ × Nat) :=
  let inter := Boo.setIntersection K S.1
  if inter.isEmpty then m
  else
    let dist : ℚ := ((setUnion K S.1).length : ℚ) / (inter.length : ℚ) - 1
    if dist < 2 then mmInsert dist S.2 m else m

/-- `followerByDist`, lib/dynamicClusters.cpp:136-160. -/
def followers (ms ms' : List (List Nat)) : Followers ℚ :=
  ms.map (fun K => ms'.zipIdx.foldl (followStep K) [])

/-- `members.resize(n)`, lib/dynamicClusters.cpp:113: what the object contained stays. -/
def resize (old : List (List (List Nat))) (n : Nat) : List (List (List Nat)) :=
  old.take n ++ List.replicate (n - old.length) []

/-- The two first parts of `assign`, lib/dynamicClusters.cpp:98-124. -/
def assignMembers (D : DynParts G) (pop : List Nat) (old : List (List (List Nat))) :
    R (List (List (List Nat))) := do
  let unsorted ← (List.range D.positions.length).mapM (clustersAt D pop)
  (unsorted.zip (resize old D.positions.length)).zipIdx.mapM (fun x => translate D x.2 x.1.1 x.1.2)

/-- The loop over time, lib/dynamicClusters.cpp:131-166. The rates of creation, which are not used, are
left out. -/
def track (members : List (List (List Nat))) (n : Nat) : R TrajMap := do
  let m0 ← getR members 0
  (List.range (n - 1)).foldlM (fun (tm : TrajMap) (t : Nat) => do
    let ms ← getR members t
    let ms' ← getR members (t + 1)
    tm.pushBack (followers ms ms') ms'.length) (TrajMap.init m0.length)

/-- `DynamicClusters::assign`, lib/dynamicClusters.cpp:96-170, from the members that the object holds
already (none for the constructor, lines 84-88) to the new members and the trajectories of the clusters.
Without any time step `members[0]` is undefined. -/
def assign (D : DynParts G) (pop : List Nat) (old : List (List (List Nat))) :
    R (List (List (List Nat)) × TrajIndex) := do
  let members ← assignMembers D pop old
  let tm ← track members D.positions.length
  let ti ← TrajIndex.ofMap tm
  pure (members, ti)

/-- `DynamicClusters::bounds`, lib/dynamicClusters.cpp:225-241. The first element of an empty set is
undefined. -/
def bounds (D : DynParts G) (cluster : List Nat) (time : Nat) : R (Box 3 G) :=
  match cluster with
  | [] => throw .ub
  | first :: _ => do
    let T ← getR D.trajectories.trajs first
    if !T.exist time then throw .invalidArgument
    else do
      let x ← Dyn.at_ D first time
      cluster.foldlM (fun (b : Box 3 G) (tr : Nat) => do
        let T ← getR D.trajectories.trajs tr
        if T.exist time then do
          let x ← Dyn.at_ D tr time
          pure (b.stretch (Particles.bounds x D.radius))
        else throw .invalidArgument) (Particles.bounds x D.radius)

/-- `DynamicClusters::getLargestDelta`, lib/dynamicClusters.cpp:244-260. -/
def getLargestDelta (D : DynParts G) (members : List (List (List Nat))) (time : Nat) : R (Coord G) := do
  let ms ← getR members time
  ms.foldlM (fun (m : Coord G) (k : List Nat) => do
    let b ← bounds D k time
    pure (fun d => if m d < b.hi d - b.lo d then b.hi d - b.lo d else m d)) 0

/-- The line of one cluster, lib/dynamicClusters.cpp:181-187. -/
def saveLine (D : DynParts G) (t label : Nat) (k : List Nat) : R (List Char) := do
  let ps ← k.mapM (fun tr => D.trajectories.convert t tr)
  pure (showNat label ++ ['\t'] ++ showNat k.length ++ ['\t'] ++
    (ps.map (fun p => showNat p ++ ['\t'])).flatten ++ ['\n'])

/-- The file of the time `t` in `DynamicClusters::save`, lib/dynamicClusters.cpp:177-188. -/
def saveFrame (D : DynParts G) (members : List (List (List Nat))) (ti : TrajIndex) (t : Nat) :
    R (List Char) := do
  let labels ← getR ti.inverse t
  (List.range labels.length).foldlM (fun (out : List Char) (K : Nat) => do
    let label ← getR labels K
    let ms ← getR members t
    let k ← getR ms K
    let line ← saveLine D t label k
    pure (out ++ line)) (showNat labels.length ++ ['\n'])

/-- `DynamicClusters::save`, lib/dynamicClusters.cpp:173-190: the contents of the files, one per time.
A file that cannot be opened is not detected by the code and not represented. -/
def save (D : DynParts G) (members : List (List (List Nat))) (ti : TrajIndex) : R (List (List Char)) :=
  (List.range ti.inverse.length).mapM (saveFrame D members ti)

end DynClusters
end Colloids
