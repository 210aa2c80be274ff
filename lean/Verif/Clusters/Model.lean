import Verif.Common

/-!
# Model of `lib/dynamicClusters.cpp` (cluster segregation)

A `std::set<size_t>` is the list of its elements in increasing order.
-/

namespace Colloids

/-- `NgbList` (lib/particles.hpp: `std::vector< std::vector<size_t> >`-like container of the
neighbours of each particle). -/
abbrev NgbList := List (List Nat)

/-- `std::set<size_t>::insert`. -/
def setInsert (x : Nat) : List Nat → List Nat
  | [] => [x]
  | y :: ys => if x < y then x :: y :: ys else if x = y then y :: ys else y :: setInsert x ys

namespace Clusters

/-- Body of the loop of `growCluster`, lib/dynamicClusters.cpp:37-47, with the recursive call as a
parameter. The state is (population, cluster). -/
def growStep (rec : List Nat → List Nat → Nat → R (List Nat × List Nat))
    (s : List Nat × List Nat) (n : Nat) : R (List Nat × List Nat) :=
  if n ∈ s.1 then rec (s.1.erase n) (setInsert n s.2) n else .ok s

/-- `growCluster` lib/dynamicClusters.cpp:33-49. The recursion depth is bounded by the fuel; running
out of fuel is the fault `diverge` (shown never to happen with more fuel than population). -/
def growCluster (ngbs : NgbList) : Nat → List Nat → List Nat → Nat → R (List Nat × List Nat)
  | 0, _, _, _ => .error .diverge
  | fuel + 1, pop, cluster, center => do
      let ns ← getR ngbs center
      ns.foldlM (growStep (growCluster ngbs fuel)) (pop, cluster)

/-- Loop of `segregate`, lib/dynamicClusters.cpp:58-66, with fuel. -/
def segregateLoop (ngbs : NgbList) : Nat → List Nat → List (List Nat) → R (List (List Nat))
  | 0, _, _ => .error .diverge
  | _ + 1, [], clusters => .ok clusters
  | fuel + 1, center :: rest, clusters => do
      let (pop, cluster) ← growCluster ngbs (rest.length + 1) rest [center] center
      segregateLoop ngbs fuel pop (clusters ++ [cluster])

/-- `segregate` lib/dynamicClusters.cpp:56-67: appends the clusters of `population` to `clusters`
(the population is emptied). -/
def segregate (population : List Nat) (clusters : List (List Nat)) (ngbs : NgbList) :
    R (List (List Nat)) :=
  segregateLoop ngbs (population.length + 1) population clusters

/-- `segregateAll` lib/dynamicClusters.cpp:70-76: `n` is `parts.size()` and `ngbs` is
`parts.getNgbList()`. -/
def segregateAll (clusters : List (List Nat)) (n : Nat) (ngbs : NgbList) : R (List (List Nat)) :=
  segregate (List.range n) clusters ngbs

end Clusters
end Colloids
