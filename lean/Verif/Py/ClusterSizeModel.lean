import Mathlib.Logic.Relation
import Verif.Common

/-! # Sizes of the clusters of bonds: `Polydata.clustersize`, python/colloids/vtk.py:187-196

The connected components of networkx are given as lists, as by its versions before 1.9 (numpy refuses the sets of the later ones as indices: `IndexError`). -/

namespace Colloids
namespace Py
namespace ClusterSize

/-- `cl_size[c] = len(c)`, vtk.py:195 -/
def setAll (out c : List Nat) : R (List Nat) :=
  if c.all fun i => decide (i < out.length) then .ok (c.foldl (fun o i => o.set i c.length) out) else .error .outOfRange

/-- `cl_size` of `n` points, vtk.py:193-195; `cc` are the connected components, vtk.py:189-192. -/
def clustersize (n : Nat) (cc : List (List Nat)) : R (List Nat) := cc.foldlM setAll (List.replicate n 0)

end ClusterSize
end Py
end Colloids
