import Verif.Py.PeriodicModel
import Verif.Common

/-! # Correlations and neighbours in a periodic box in python: python/colloids/periodic.py

The loops are compiled from C++ by `weave`, where arrays are not checked: reading or writing out of an array is undefined. They are run by
several threads; the increments of the counters are protected, and the order of the additions does not matter in exact arithmetic, so that the
loops are run in order. An array with several indices is a flat list in row-major order. -/

namespace Colloids
namespace Py
namespace Pbox

open Periodic

/-- The squared distance of two positions, python/colloids/periodic.py:249-251, 286-288, 343-345, 356-358, 389-391 and 430-432. -/
noncomputable def pairSq (fuel : Nat) (L : ℝ) (a b : Fin 3 → ℝ) : R ℝ :=
  (List.finRange 3).foldlM (fun s k => do
    let d ← periodicDist fuel (a k) (b k) L
    pure (s + d ^ 2)) 0

/-- The end of the body of the loops: nothing when the distance is too large, otherwise the bin is increased, `base` being the place of the
first bin, python/colloids/periodic.py:289-293, 346-350, 359-363. -/
noncomputable def record (x : ℝ) (n base : Nat) (g : List Nat) : R (List Nat) :=
  if 1 ≤ x then .ok g else modifyR g (base + ⌊Real.sqrt x * n⌋₊) (· + 1)

/-- `get_rdf`, python/colloids/periodic.py:277-303. The first argument is a number, that is used for the three coordinates. `none` is
`maxdist=None`. -/
noncomputable def getRdf (fuel : Nat) (p : ℝ) (pos : List (Fin 3 → ℝ)) (n : Nat) (L : ℝ) (maxdist : Option ℝ) : R (List Nat) :=
  let m := maxdist.getD (L / 2)
  let imaxsq := 1 / m ^ 2
  (List.range pos.length).foldlM (fun g j => do
    let b ← getR pos j
    let disq ← pairSq fuel L (fun _ => p) b
    record (disq * imaxsq) n 0 g) (List.replicate n 0)

/-- The body of the two inner loops of `get_binary_rdf`, python/colloids/periodic.py:341-350 and 354-363, where `c` is the index of the
species. -/
noncomputable def binaryStep (fuel : Nat) (pos : List (Fin 3 → ℝ)) (n : Nat) (L imaxsq : ℝ) (c i : Nat) (g : List Nat) (j : Nat) : R (List Nat) :=
  if i = j then .ok g
  else do
    let a ← getR pos i
    let b ← getR pos j
    let disq ← pairSq fuel L a b
    record (disq * imaxsq) n ((2 * i + c) * n) g

/-- `get_binary_rdf`, python/colloids/periodic.py:330-374. -/
noncomputable def getBinaryRdf (fuel : Nat) (pos : List (Fin 3 → ℝ)) (n : Nat) (L : ℝ) (sep : Nat) (maxdist : Option ℝ) : R (List Nat) :=
  let m := maxdist.getD (L / 2)
  let imaxsq := 1 / m ^ 2
  (List.range pos.length).foldlM (fun g i => do
    let g ← (List.range sep).foldlM (binaryStep fuel pos n L imaxsq 0 i) g
    (List.range' sep (pos.length - sep)).foldlM (binaryStep fuel pos n L imaxsq 1 i) g) (List.replicate (pos.length * 2 * n) 0)

/-- The body of the loops of `get_space_correl`, python/colloids/periodic.py:387-400, and of `get_space_correl_binary`, lines 428-467. The two
arrays `g` and `h` have the same shape, they are kept in one list of pairs. `base` is the place of the first bin: 0 in the first function, in the
second one `Nbins` times the row that is chosen at lines 437-467. -/
noncomputable def correlStep (fuel : Nat) (pos : List (Fin 3 → ℝ)) (field : List ℝ) (n : Nat) (L imaxsq : ℝ) (base : Nat → Nat → Nat) (i : Nat)
    (gh : List (Nat × ℝ)) (j : Nat) : R (List (Nat × ℝ)) :=
  if i = j then .ok gh
  else do
    let a ← getR pos i
    let b ← getR pos j
    let disq ← pairSq fuel L a b
    if 1 ≤ disq * imaxsq then .ok gh
    else do
      let fi ← getR field i
      let fj ← getR field j
      modifyR gh (base i j + ⌊Real.sqrt (disq * imaxsq) * n⌋₊) (· + (1, fi * fj))

/-- `get_space_correl`, python/colloids/periodic.py:376-411: the array of pairs of `g` and `h`. -/
noncomputable def spaceCorrel (fuel : Nat) (pos : List (Fin 3 → ℝ)) (field : List ℝ) (n : Nat) (L : ℝ) : R (List (Nat × ℝ)) :=
  let m := L / 2
  let imaxsq := 1 / m ^ 2
  (List.range pos.length).foldlM (fun gh i => (List.range pos.length).foldlM (correlStep fuel pos field n L imaxsq (fun _ _ => 0) i) gh)
    (List.replicate n 0)

/-- The row of `g` and `h`, python/colloids/periodic.py:437-467. -/
def species (sep i j : Nat) : Nat :=
  if i < sep then (if j < sep then 0 else 1) else (if j < sep then 2 else 3)

/-- `get_space_correl_binary`, python/colloids/periodic.py:417-477: the array of pairs of `g` and `h`. -/
noncomputable def spaceCorrelBinary (fuel : Nat) (pos : List (Fin 3 → ℝ)) (field : List ℝ) (n : Nat) (L : ℝ) (sep : Nat) : R (List (Nat × ℝ)) :=
  let m := L / 2
  let imaxsq := 1 / m ^ 2
  (List.range pos.length).foldlM (fun gh i =>
    (List.range pos.length).foldlM (correlStep fuel pos field n L imaxsq (fun i j => species sep i j * n) i) gh)
    (List.replicate (4 * n) 0)

/-- The body of the inner loop of `get_N_ngbs`, python/colloids/periodic.py:248-254. -/
noncomputable def ngbStep (fuel : Nat) (pos : List (Fin 3 → ℝ)) (radii : List ℝ) (L maxdist : ℝ) (p : Nat) (m : List (ℝ × Nat)) (q : Nat) :
    R (List (ℝ × Nat)) :=
  if p = q then .ok m
  else do
    let a ← getR pos p
    let b ← getR pos q
    let disq ← pairSq fuel L a b
    let rp ← getR radii p
    let rq ← getR radii q
    let disq := disq / (rp + rq) ^ 2
    if maxdist * maxdist < disq then .ok m else .ok (mmInsert disq q m)

/-- One row of `neighbours`, python/colloids/periodic.py:245-258. -/
noncomputable def ngbRow (fuel : Nat) (pos : List (Fin 3 → ℝ)) (radii : List ℝ) (L : ℝ) (N : Nat) (maxdist : ℝ) (p : Nat) : R (List ℤ) := do
  let m ← (List.range pos.length).foldlM (ngbStep fuel pos radii L maxdist p) []
  pure ((m.take N).map (fun x => (x.2 : ℤ)) ++ List.replicate (N - m.length) (-1))

/-- `get_N_ngbs`, python/colloids/periodic.py:235-269. -/
noncomputable def getNNgbs (fuel : Nat) (pos : List (Fin 3 → ℝ)) (radii : List ℝ) (L : ℝ) (N : Nat) (maxdist : ℝ) : R (List (List ℤ)) :=
  if pos.length ≠ radii.length then .error .logicError
  else (List.range pos.length).mapM (ngbRow fuel pos radii L N maxdist)

/-- `bonds[np.where(Q6[bonds].min(axis=1)>thr)]`, python/colloids/periodic.py:275. `np.loadtxt` gives an array with one dimension when the file
has less than two lines, that has no axis 1. The indices are not negative. -/
def loadXbonds {G : Type} [LinearOrder G] (lines : List (Nat × Nat)) (Q6 : List G) (thr : G) : R (List (Nat × Nat)) := do
  let q ← lines.mapM fun b => do
    let x ← idx Q6 b.1
    let y ← idx Q6 b.2
    pure (b, min x y)
  if lines.length < 2 then .error .invalidArgument
  else .ok ((q.filter fun x => decide (thr < x.2)).map Prod.fst)

section Ngp
variable {G : Type} [Field G] {F : Type}

/-- One term of the loops of `ngp`, python/colloids/periodic.py:147-149 and 157-159. The arrays `msd` and `mqd` are kept in one list of pairs. -/
def ngpTerm (sq : F → F → R (List G)) (A : List F) (t0 : Nat) (m : List (G × G)) (dt : Nat) : R (List (G × G)) := do
  let a ← idx A t0
  let b ← idx A (t0 + 1 + dt)
  let diff ← sq a b
  upd m (dt + 1) (· + (diff.sum, (diff.map fun x => x ^ 2).sum))

variable [DecidableEq G]

/-- `c * mqd / (5*msd**2) -1`, python/colloids/periodic.py:153 and 161, `none` for a division by zero. -/
def ngpValue (c : G) (x : G × G) : Option G :=
  if 5 * x.1 ^ 2 = 0 then none else some (c * x.2 / (5 * x.1 ^ 2) - 1)

/-- `ngp`, python/colloids/periodic.py:137-161. `sq` gives the squared displacements of all the particles between two configurations, `N` is
`A.shape[1]`. -/
def ngp (sq : F → F → R (List G)) (N : Nat) (A : List F) (av : Nat) : R (List (Option G)) :=
  if A.length + 1 < av then .error .invalidArgument
  else if av = 0 then do
    let m ← (List.range A.length).foldlM (fun m t0 => (List.range (A.length - (t0 + 1))).foldlM (ngpTerm sq A t0) m)
      (List.replicate (A.length + 1) 0)
    let m ← (List.range A.length).foldlM (fun m dt => upd m dt fun x => (x.1, x.2 * ((A.length - dt : Nat) : G))) m
    let m ← upd m 0 fun x => (1, x.2)
    pure (m.map (ngpValue ((N : G) * 3)))
  else do
    let m ← (List.range (min av A.length)).foldlM (fun m t0 => (List.range (A.length - av)).foldlM (ngpTerm sq A t0) m)
      (List.replicate (A.length + 1 - av) 0)
    let m ← upd m 0 fun x => (1, x.2)
    pure (m.map (ngpValue ((av : G) * (N : G) * 3)))

end Ngp

end Pbox
end Py
end Colloids
