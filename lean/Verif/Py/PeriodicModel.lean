import Mathlib.Algebra.Order.Floor.Ring
import Mathlib.Algebra.Order.Field.Basic
import Mathlib.Analysis.Real.Sqrt
import Verif.Py.LinkerModel

/-! # Periodic boxes in python: python/colloids/periodic.py

Numbers are elements of an ordered field (exact arithmetic). The module `weave`, imported at lines 4-12 when there is one, is supposed to be
there. A configuration is a list of positions. -/

namespace Colloids
namespace Py
namespace Periodic

section Distance
variable {G : Type} [Field G] [LinearOrder G] [IsStrictOrderedRing G] [FloorRing G]

/-- `periodify`, python/colloids/periodic.py:17-23, for one component. -/
def periodify (u v period : G) : G :=
  let diff := v - u
  if period ≤ 0 then diff else diff - period * ((⌊diff / period + 1 / 2⌋ : ℤ) : G)

omit [FloorRing G] [IsStrictOrderedRing G] in
/-- The first loop of `periodic_dist`, python/colloids/periodic.py:31-32, with a bound on the number of iterations. -/
def downLoop (half period : G) : Nat → G → R G
  | 0, d => if half < d then .error .diverge else .ok d
  | fuel + 1, d => if half < d then downLoop half period fuel (d - period) else .ok d

/-- The second loop of `periodic_dist`, python/colloids/periodic.py:33-34: `d =+ period` is an assignment. -/
def upLoop (half period : G) : Nat → G → R G
  | 0, d => if d < -half then .error .diverge else .ok d
  | fuel + 1, d => if d < -half then upLoop half period fuel period else .ok d

/-- `periodic_dist`, python/colloids/periodic.py:26-37. -/
def periodicDist (fuel : Nat) (x y period : G) : R G := do
  let half := period * (1 / 2)
  let d ← downLoop half period fuel (x - y)
  upLoop half period fuel d

/-- `get_displ`, python/colloids/periodic.py:39-58. The two arrays have the same shape. -/
def getDispl (fuel : Nat) (start stop : List (List G)) (L : G) : R (List (List G)) :=
  if start.map List.length ≠ stop.map List.length then .error .logicError
  else (start.zip stop).mapM fun r => (r.1.zip r.2).mapM fun x => periodicDist fuel x.2 x.1 L

/-- `(get_displ(a,b, L)**2).sum()`, python/colloids/periodic.py:117 and 125. -/
def displSq (fuel : Nat) (L : G) (a b : List (List G)) : R G := do
  let d ← getDispl fuel a b L
  pure (d.map fun r => (r.map fun x => x ^ 2).sum).sum

/-- The mean of the displacements of all particles, `get_displ(...).mean(axis=0)`, python/colloids/periodic.py:88. -/
def meanDispl (fuel : Nat) (L : G) (a b : List (List G)) (dims : Nat) : R (List G) := do
  let d ← getDispl fuel a b L
  pure ((List.range dims).map fun j => (d.map fun r => r.getD j 0).sum / (d.length : G))

/-- `remove_drift`, python/colloids/periodic.py:86-92: the array after the call. The last line makes a new array that is
forgotten. -/
def removeDrift (fuel : Nat) (L : G) (dims : Nat) (a : List (List (List G))) : R (List (List (List G))) := do
  let means ← (a.zip (a.drop 1)).mapM fun x => meanDispl fuel L x.1 x.2 dims
  pure (a.zipIdx.map fun x => x.1.map fun r => r.zipIdx.map fun y => y.1 - ((means.take x.2).map fun m => m.getD y.2 0).sum)

end Distance

section Averages
variable {G : Type} [Field G] {F : Type}

/-- One term of the loops of `msd`, python/colloids/periodic.py:117 and 125. -/
def addTerm (sq : F → F → R G) (A : List F) (t0 : Nat) (m : List G) (dt : Nat) : R (List G) := do
  let a ← idx A t0
  let b ← idx A (t0 + 1 + dt)
  let s ← sq a b
  upd m (dt + 1) (· + s)

/-- `msd`, python/colloids/periodic.py:94-127. `sq` is the sum over the particles of the squared displacements between two configurations,
`N` is `A.shape[1]`. A size that is negative is refused by `np.zeros`. -/
def msd (sq : F → F → R G) (N : Nat) (A : List F) (av : Nat) : R (List G) :=
  if A.length + 1 < av then .error .invalidArgument
  else if av = 0 then do
    let m ← (List.range A.length).foldlM (fun m t0 => (List.range (A.length - (t0 + 1))).foldlM (addTerm sq A t0) m)
      (List.replicate (A.length + 1) 0)
    let m := m.map (· / (N : G))
    (List.range A.length).foldlM (fun m dt => upd m dt (· / ((A.length - dt : Nat) : G))) m
  else do
    let m ← (List.range (min av A.length)).foldlM (fun m t0 => (List.range (A.length - av)).foldlM (addTerm sq A t0) m)
      (List.replicate (A.length + 1 - av) 0)
    pure (m.map (· / ((av * N : Nat) : G)))

/-- `overlap`, python/colloids/periodic.py:163-233, with the two arrays that are returned. `near` is the number of particles that
moved by less than `ov` between two configurations. The counters are increased by several threads without protection, which is not
modelled: the loops are run in order. -/
def overlap (near : F → F → R Nat) (N : Nat) (pos : List F) (av : Nat) : R (List Nat × List Nat) :=
  if pos.length + 1 < av then .error .invalidArgument
  else if av = 0 then do
    let o ← (List.range (pos.length - 1)).foldlM (fun o t0 =>
      (List.range' (t0 + 1) (pos.length - (t0 + 1))).foldlM (fun o t1 => do
        let a ← idx pos t0
        let b ← idx pos t1
        let s ← near a b
        upd o (t1 - t0) (· + s)) o) (List.replicate (pos.length + 1) 0)
    let o ← upd o 0 fun _ => pos.length * N
    pure (o, ((List.range' 1 (pos.length - 1)).reverse).map (· * N))
  else do
    let o ← (List.range (pos.length - (pos.length + 1 - av) + 1)).foldlM (fun o t0 =>
      (List.range' 1 (pos.length - av - 1)).foldlM (fun o dt => do
        let a ← idx pos t0
        let b ← idx pos (t0 + dt)
        let s ← near a b
        upd o dt (· + s)) o) (List.replicate (pos.length + 1 - av) 0)
    let o ← upd o 0 fun _ => av * N
    pure (o, (List.replicate o.length 1).map fun x => x * av * N)

end Averages

section Rdf
variable {d : Nat}

/-- The distance in `get_mono_rdf`, python/colloids/periodic.py:319-324. -/
noncomputable def monoDist (L : ℝ) (a b : Fin d → ℝ) : ℝ :=
  Real.sqrt ((List.finRange d).foldl (fun dist k =>
    let diff := a k - b k
    let diff := diff - L * ((⌊diff * (1 / L) + 1 / 2⌋ : ℤ) : ℝ)
    dist + diff * diff) 0)

/-- `get_mono_rdf`, python/colloids/periodic.py:306-328. `int(...)` of a number that is not negative is its integer part. -/
noncomputable def getMonoRdf (pos : List (Fin d → ℝ)) (Nbins : Nat) (L : ℝ) : R (List (List Nat)) := do
  let l2r := (Nbins : ℝ) / (L / 2)
  let g ← (List.range pos.length).mapM fun i => (List.range pos.length).foldlM (fun row j => do
    if j = i then pure row
    else do
      let a ← idx pos i
      let b ← idx pos j
      let r := ⌊monoDist L a b * l2r⌋₊
      if r < Nbins then upd row r (· + 1) else pure row) (List.replicate (Nbins + 1) 0)
  pure (g.map List.dropLast)

end Rdf

/-- The integer square root of `generate_kvec`: `const int k = sqrt(...)`, python/colloids/periodic.py:488. -/
def isqrt (n : Nat) : Nat := Nat.sqrt n

/-- One step of the inner loop of `generate_kvec`, python/colloids/periodic.py:486-493, with `i` and `j`; the test of line 489 never
rejects because `k` is an integer. Arrays are not checked: writing out of the `maxNvec` rows is undefined. -/
def kStep (nk maxNvec : Nat) (i : Nat) (v : List (Nat × Nat × Nat)) (j : Nat) : R (List (Nat × Nat × Nat)) :=
  if v.length < maxNvec then
    let k := isqrt (nk * nk - i * i - j * j)
    if v.length + 3 ≤ maxNvec then .ok (v ++ [(i, j, k), (j, k, i), (k, i, j)]) else .error .ub
  else .ok v

/-- `generate_kvec`, python/colloids/periodic.py:479-495: the vectors that are written. The conditions on `nvec` only become false
for good, so that the loops go on without doing anything. `assert` is supposed to be compiled. -/
def generateKvec (nk maxNvec : Nat) : R (List (Nat × Nat × Nat)) :=
  if maxNvec % 3 ≠ 0 then .error .logicError
  else (List.range nk).foldlM (fun v i =>
    ((List.range nk).filter fun j => j * j < nk * nk - i * i).foldlM (kStep nk maxNvec i) v) []

end Periodic
end Py
end Colloids
