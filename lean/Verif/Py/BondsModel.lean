import Verif.Py.LinkerModel
import Mathlib.Analysis.SpecialFunctions.Pow.Real

/-! # Neighbours, bonds and overlaps in python: python/colloids/particles.py:180-402

Exact real arithmetic. `ball` is the search of `scipy.spatial.cKDTree`: the particles within a distance of a particle. `argsort` is
`np.argsort`, `order` the order in which a python `set` gives its elements. A `ValueError` is given as `invalidArgument`, a failed assertion
as `logicError`, an `IndexError` as `outOfRange`. -/

namespace Colloids
namespace Py
namespace Bonds

noncomputable section
variable {d : Nat}

/-- The square of a distance, python/colloids/particles.py:299, 321. -/
def sqd (p q : Fin d → ℝ) : ℝ := ∑ a, (p a - q a) ^ 2

/-- The distance that `cKDTree` compares. -/
def gap (p q : Fin d → ℝ) : ℝ := Real.sqrt (sqd p q)

/-- `a.max()` of an array of one dimension. -/
def maxOf : List ℝ → R ℝ
  | [] => .error .invalidArgument
  | a :: l => .ok (l.foldl max a)

/-- The square of the distance and the sum of the radii of a pair, python/colloids/particles.py:299-301. -/
def pairInfo (pos : List (Fin d → ℝ)) (radii : List ℝ) (x : Nat × Nat) : R (ℝ × ℝ) := do
  let p ← idx pos x.1
  let q ← idx pos x.2
  let r ← idx radii x.1
  let s ← idx radii x.2
  pure (sqd p q, r + s)

/-- `get_bonds`, python/colloids/particles.py:282-302. The return before the end when there are no pairs (296-297) gives the same result. -/
def getBonds (ball : ℝ → Nat → List Nat) (pos : List (Fin d → ℝ)) (radii : List ℝ) (maxdist : ℝ) : R (List (Nat × Nat) × List ℝ) := do
  if pos.length ≠ radii.length then throw .logicError
  let rmax ← maxOf radii
  let pairs := (List.range pos.length).flatMap fun i =>
    (((ball (2 * rmax * maxdist) i).mergeSort (· ≤ ·)).filter (i < ·)).map fun j => (i, j)
  let infos ← pairs.mapM (pairInfo pos radii)
  let good := (pairs.zip infos).filter fun x => x.2.1 < maxdist ^ 2 * x.2.2 ^ 2
  pure (good.map (·.1), good.map fun x => Real.sqrt x.2.1)

/-- `bonds2ngbs_list`, python/colloids/particles.py:340-346 (the lists, before `map(np.array, …)`). -/
def bonds2ngbsList (bonds : List (Nat × Nat)) (N : Nat) : R (List (List Nat)) :=
  bonds.foldlM (fun g x => do
    let g ← upd g x.1 (· ++ [x.2])
    upd g x.2 (· ++ [x.1])) ((List.range N).map fun _ => [])

/-- `np.histogram(bonds, bins=np.arange(N+1))[0].max()`, python/colloids/particles.py:350: the last bin contains its upper edge. -/
def histMax (bonds : List (Nat × Nat)) (N : Nat) : R Nat :=
  if N = 0 then .error .invalidArgument
  else
    let all := bonds.flatMap fun x => [x.1, x.2]
    .ok (((List.range N).map fun i => all.count i + if i + 1 = N then all.count N else 0).foldl max 0)

/-- `ngbs[a, np.where(ngbs[a]==-1)[0][0]] = b`, python/colloids/particles.py:353-354. -/
def place (g : List (List Int)) (a b : Nat) : R (List (List Int)) := do
  let row ← idx g a
  match row.findIdx? (· == -1) with
  | none => throw .outOfRange
  | some k => pure (g.set a (row.set k b))

/-- `bonds2ngbs`, python/colloids/particles.py:348-355. -/
def bonds2ngbs (bonds : List (Nat × Nat)) (N : Nat) : R (List (List Int)) := do
  let m ← histMax bonds N
  bonds.foldlM (fun g x => do
    let g ← place g x.1 x.2
    place g x.2 x.1) ((List.range N).map fun _ => List.replicate m (-1))

/-- `ngbN2bonds`, python/colloids/particles.py:330-337. -/
def ngbN2bonds (order : List (Nat × Nat) → List (Nat × Nat)) (ngbs : List (List Int)) : List (Nat × Nat) :=
  order (ngbs.zipIdx.flatMap fun x => (x.1.filter (0 ≤ ·)).map fun n => (min x.2 n.toNat, max x.2 n.toNat))

/-! ## The N first neighbours -/

/-- `edge[0]` by default, `positions.min(0)`, python/colloids/particles.py:312: the smallest coordinates. -/
def lowest (pos : List (Fin d → ℝ)) : R (Fin d → ℝ) :=
  match pos with
  | [] => .error .invalidArgument
  | p :: l => .ok (l.foldl (fun m q a => min (m a) (q a)) p)

/-- An element of `to_edge`, python/colloids/particles.py:314: `edge[0]` is used for both sides. -/
def toEdge (lo p : Fin (d + 1) → ℝ) : ℝ :=
  (min (Finset.univ.inf' ⟨0, Finset.mem_univ _⟩ fun a => p a - lo a) (Finset.univ.inf' ⟨0, Finset.mem_univ _⟩ fun a => lo a - p a)) ^ 2

/-- The elements chosen, and -1 in the other columns: `neighbours[i, :n] = …`, python/colloids/particles.py:316, 324 and 328. -/
def fillRow (N : Nat) (l : List Nat) : List Int := l.map (fun j : Nat => (j : Int)) ++ List.replicate (N - l.length) (-1)

/-- The loop for one particle, python/colloids/particles.py:319-328: neighbours and whether it is inside. -/
def nRow (argsort : List ℝ → List Nat) (pos : List (Fin (d + 1) → ℝ)) (N : Nat) (edge : ℝ) (i : Nat) (js : List Nat) : R (List Int × Bool) := do
  let p ← idx pos i
  let qs ← js.mapM (idx pos)
  let disq := qs.map fun q => sqd q p
  let ags := (argsort disq).take N
  let l ← last ags
  let far ← idx disq l
  if far < edge then do
    let ngbs ← ags.mapM (idx js)
    pure (fillRow N ngbs, true)
  else do
    let ds ← ags.mapM (idx disq)
    match ds.findIdx? (fun x => decide (x < edge)) with
    | none => throw .outOfRange
    | some k =>
      let ngbs ← (ags.take (k + 1)).mapM (idx js)
      pure (fillRow N ngbs, false)

/-- `get_N_ngbs`, python/colloids/particles.py:304-328. `edge[1]` is not used. -/
def getNNgbs (ball : ℝ → Nat → List Nat) (argsort : List ℝ → List Nat) (pos : List (Fin (d + 1) → ℝ)) (radii : List ℝ) (N : Nat) (maxdist : ℝ)
    (edge : Option ((Fin (d + 1) → ℝ) × (Fin (d + 1) → ℝ))) : R (List (List Int × Bool)) := do
  if pos.length ≠ radii.length then throw .logicError
  let lo ← match edge with
    | none => lowest pos
    | some e => pure e.1
  let rmax ← maxOf radii
  (List.range pos.length).mapM fun i => do
    let p ← idx pos i
    nRow argsort pos N (toEdge lo p) i (ball (2 * rmax * maxdist) i)

/-! ## Overlaps -/

/-- The square of the distance of `non_overlapping` and `non_halfoverlapping`, python/colloids/particles.py:254-256 and 275-277: the last
coordinate of the first particle minus itself. -/
def zeroDist (p q : Fin d → ℝ) : ℝ := ((List.finRange d).map fun a => (p a, q a)).foldl (fun _ x => (x.1 - x.1) ^ 2) 0

/-- The inner loop of `non_overlapping`, python/colloids/particles.py:250-258; `limit` is the length compared to the distance: the sum of the
radii, or the largest for `non_halfoverlapping`. -/
def dropStep (limit : ℝ → ℝ → ℝ) (pos : List (Fin d → ℝ)) (radii : List ℝ) (i : Nat) (p : Fin d → ℝ) (r : ℝ) (good : List Bool) (j : Nat) : R (List Bool) := do
  let g ← idx good j
  if j = i || !g then pure good
  else do
    let q ← idx pos j
    let s ← idx radii j
    if zeroDist q p < limit s r ^ 2 then upd good j (fun _ => false) else pure good

/-- The outer loop, python/colloids/particles.py:247-258 and 268-279. -/
def nonOverlap (limit : ℝ → ℝ → ℝ) (ball : ℝ → Nat → List Nat) (pos : List (Fin d → ℝ)) (radii : List ℝ) : R (List Bool) := do
  if pos.length ≠ radii.length then throw .logicError
  let rmax ← maxOf radii
  (List.range pos.length).foldlM (fun good i => do
    let p ← idx pos i
    let r ← idx radii i
    let g ← idx good i
    if !g then pure good
    else (ball (rmax + r) i).foldlM (dropStep limit pos radii i p r) good) ((List.range pos.length).map fun _ => true)

/-- `non_overlapping`, python/colloids/particles.py:241-259. -/
def nonOverlapping (ball : ℝ → Nat → List Nat) (pos : List (Fin d → ℝ)) (radii : List ℝ) : R (List Bool) := nonOverlap (· + ·) ball pos radii

/-- `non_halfoverlapping`, python/colloids/particles.py:261-280. -/
def nonHalfOverlapping (ball : ℝ → Nat → List Nat) (pos : List (Fin d → ℝ)) (radii : List ℝ) : R (List Bool) := nonOverlap max ball pos radii

/-! ## Radial distribution -/

/-- `get_rdf`, python/colloids/particles.py:377-402. `near maxdist` are the pairs of `sparse_distance_matrix`: the rank of a particle among those
inside, a particle, and their distance. -/
def getRdf (near : ℝ → List (Nat × Nat × ℝ)) (pos : List (Fin d → ℝ)) (inside : List Bool) (Nbins : Nat) (maxdist : ℝ) : R (List Nat) := do
  if pos.length ≠ inside.length then throw .outOfRange
  let center := (List.range inside.length).filter fun i => inside.getD i false
  let query ← (near maxdist).mapM fun x => do
    let c ← idx center x.1
    pure (c, x.2)
  let good := query.filter fun x => x.1 ≠ x.2.1
  let g ← good.foldlM (fun g x => upd g ⌊x.2.2 * ((Nbins : ℝ) / maxdist)⌋₊ (· + 1)) (List.replicate (Nbins + 1) 0)
  pure (g.take Nbins)

end

end Bonds
end Py
end Colloids
