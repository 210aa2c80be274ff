import Verif.Boo.RotModel
import Verif.Py.BondsModel
import Verif.Py.PeriodicModel

/-! # Bond orientational order in python: python/boo/boo.py

Exact real and complex arithmetic. `scipy.special.sph_harm` is replaced by the definition of its documentation, which is the one of boost
(`Boo.sphericalHarmonic`). The row of the coefficients of a particle, of orders 0 to `l`, is a function on `Fin (l + 1)`. An `IndexError` is given as
`outOfRange`, a failed assertion as `logicError`. Indices are not negative. -/

namespace Colloids
namespace Py
namespace PyBoo
open Boo (W3Entry)

/-- The coefficients of orders 0 to `l`. -/
abbrev Row (l : Nat) := Fin (l + 1) → ℂ

noncomputable section

/-- `cart2sph`, python/boo/boo.py:30-48, for one vector: radius, colatitude and azimuth. `r2+1.0 > 1.0` is modelled by `0 < r2`. -/
def cart2sph (v : Fin 3 → ℝ) : ℝ × ℝ × ℝ :=
  let r2 := v 0 ^ 2 + v 1 ^ 2 + v 2 ^ 2
  let r := √r2
  if v 0 ^ 2 < r2 ∨ 0 < r2 then
    let theta := Complex.arg ⟨v 0, v 1⟩
    (r, Real.arccos (v 2 / r), if theta < 0 then theta + 2 * Real.pi else theta)
  else (r, 0, 0)

/-- `vect2Ylm`, python/boo/boo.py:50-57, for one vector. -/
def vect2Ylm (l : Nat) (v : Fin 3 → ℝ) : Row l := fun m =>
  let s := cart2sph v
  Boo.sphericalHarmonic l m s.2.1 s.2.2

/-- `single_pos2qlm`, python/boo/boo.py:59-63. The mean over no neighbour is not a number: `none`. -/
def singlePos2qlm (l : Nat) (pos : List (Fin 3 → ℝ)) (i : Nat) (ngbs : List Nat) : R (Option (Row l)) := do
  let p ← idx pos i
  let vectors ← ngbs.mapM fun j => do
    let q ← idx pos j
    pure (q - p)
  if vectors = [] then pure none
  else pure (some ((1 / (vectors.length : ℝ)) • (vectors.map (vect2Ylm l)).sum))

/-- `np.add.at(a, indices, values)`: every value is added, also when an index is repeated. -/
def addAt {V : Type} [Add V] (a : List V) (ixs : List Nat) (values : List V) : R (List V) :=
  (List.zip ixs values).foldlM (fun a x => upd a x.1 (· + x.2)) a

/-- The number of bonds of each particle, python/boo/boo.py:81-82, 95-96: `bonds.ravel()` lists the two ends of each bond. -/
def countBonds (N : Nat) (bonds : List (Nat × Nat)) : R (List Nat) :=
  (bonds.flatMap fun b => [b.1, b.2]).foldlM (fun a i => upd a i (· + 1)) (List.replicate N 0)

/-- `q / np.maximum(1, Nngb)[:,None]`, python/boo/boo.py:83, 102. -/
def divideBy {l : Nat} (q : List (Row l)) (n : List Nat) : List (Row l) :=
  List.zipWith (fun row k => (1 / ((max 1 k : Nat) : ℝ)) • row) q n

/-- `bonds2qlm`, python/boo/boo.py:65-83, with a period for each dimension. -/
def bonds2qlm (l : Nat) (pos : List (Fin 3 → ℝ)) (bonds : List (Nat × Nat)) (periods : Fin 3 → ℝ) : R (List (Row l)) := do
  let ylm ← bonds.mapM fun b => do
    let u ← idx pos b.1
    let v ← idx pos b.2
    pure (vect2Ylm l fun a => Periodic.periodify (u a) (v a) (periods a))
  let q ← addAt (List.replicate pos.length (0 : Row l)) (bonds.map Prod.fst) ylm
  let q ← addAt q (bonds.map Prod.snd) ylm
  let n ← countBonds pos.length bonds
  pure (divideBy q n)

/-- `np.bitwise_and.at(a, indices, values)` -/
def andAt (a : List Bool) (ixs : List Nat) (values : List Bool) : R (List Bool) :=
  (List.zip ixs values).foldlM (fun a x => upd a x.1 (· && x.2)) a

/-- `coarsegrain_qlm`, python/boo/boo.py:85-102: the coarse grained coefficients and the mask of the valid particles. The mask is supposed to have as
many items as there are particles. -/
def coarsegrainQlm {l : Nat} (qlm : List (Row l)) (bonds : List (Nat × Nat)) (inside : List Bool) : R (List (Row l) × List Bool) := do
  if inside.length ≠ qlm.length then throw .outOfRange
  let ends1 ← bonds.mapM fun b => idx inside b.2
  let inside2 ← andAt inside (bonds.map Prod.fst) ends1
  let ends0 ← bonds.mapM fun b => idx inside b.1
  let inside2 ← andAt inside2 (bonds.map Prod.snd) ends0
  let n ← countBonds qlm.length bonds
  let q1 ← bonds.mapM fun b => idx qlm b.2
  let Q ← addAt (List.replicate qlm.length (0 : Row l)) (bonds.map Prod.fst) q1
  let q0 ← bonds.mapM fun b => idx qlm b.1
  let Q ← addAt Q (bonds.map Prod.snd) q0
  let Q := List.zipWith (fun row b => if !b then 0 else row) Q inside2
  pure (divideBy Q n, inside2)

/-- `boo_product`, python/boo/boo.py:105-116. -/
def booProduct {l : Nat} (a b : Row l) : ℝ :=
  (List.range l).foldl (fun (s : ℝ) (i : Nat) => s + 2 * (a (Fin.ofNat (l + 1) (i + 1)) * (starRingEnd ℂ) (b (Fin.ofNat (l + 1) (i + 1)))).re)
    (a 0 * (starRingEnd ℂ) (b 0)).re * (4 * Real.pi / (2 * l + 1))

/-- `abs2`, python/boo/boo.py:25-27. -/
def abs2 (x : ℂ) : ℝ := x.re ^ 2 + x.im ^ 2

/-- `ql`, python/boo/boo.py:118-125. -/
def ql {l : Nat} (q : Row l) : ℝ :=
  √(4 * Real.pi / (2 * l + 1) * (abs2 (q 0) + 2 * ((List.range l).map fun i : Nat => abs2 (q (Fin.ofNat (l + 1) (i + 1)))).sum))

/-- `get_qlm`, python/boo/boo.py:127-135. The code compiled by numba does not check the bounds. -/
def getQlm {l : Nat} (q : Row l) (m : Int) : R ℂ :=
  if h : m.natAbs < l + 1 then
    if 0 ≤ m then .ok (q ⟨m.natAbs, h⟩)
    else if (-m) % 2 = 0 then .ok ((starRingEnd ℂ) (q ⟨m.natAbs, h⟩))
    else .ok (-(starRingEnd ℂ) (q ⟨m.natAbs, h⟩))
  else .error .ub

end

/-- A row of `np.zeros([6,36])` of which the beginning is assigned, python/boo/boo.py:208-256. -/
def padRow (es : List W3Entry) : List W3Entry := es ++ List.replicate (36 - es.length) ⟨0, 0⟩

/-- `_w3j`, python/boo/boo.py:208-256: the products of the numbers by the square roots. -/
def w3jTable : List (List W3Entry) := [
  padRow [⟨1, 1⟩],
  padRow [⟨-1, 2/35⟩, ⟨1, 1/70⟩, ⟨1, 2/35⟩, ⟨-1, 3/35⟩],
  padRow [⟨3, 2/1001⟩, ⟨-3, 1/2002⟩, ⟨-1/3, 11/182⟩, ⟨2, 5/1001⟩,
    ⟨1, 7/286⟩, ⟨-1/3, 5/143⟩, ⟨1/3, 14/143⟩, ⟨-1/3, 35/143⟩, ⟨1, 5/143⟩],
  padRow [⟨-20, 1/46189⟩, ⟨10, 1/46189⟩,
    ⟨1, 11/4199⟩, ⟨-2, 105/46189⟩,
    ⟨-43/2, 1/46189⟩, ⟨3, 21/92378⟩,
    ⟨4, 1/46189⟩, ⟨5/2, 35/46189⟩, ⟨-6, 14/46189⟩,
    ⟨5/2, 11/4199⟩, ⟨-3/2, 21/4199⟩, ⟨1, 7/4199⟩,
    ⟨1, 11/4199⟩, ⟨-1, 77/8398⟩, ⟨1, 70/4199⟩, ⟨-2, 21/4199⟩],
  padRow [⟨7, 10/96577⟩, ⟨-7, 5/193154⟩,
    ⟨-37, 1/965770⟩, ⟨6, 14/96577⟩,
    ⟨73, 1/965770⟩, ⟨-3, 66/482885⟩,
    ⟨-5, 5/193154⟩, ⟨-8, 3/96577⟩, ⟨6, 77/482885⟩,
    ⟨-1, 65/14858⟩, ⟨3, 5/7429⟩, ⟨-1, 42/37145⟩,
    ⟨1, 65/14858⟩, ⟨0, 0⟩, ⟨-3, 3/7429⟩, ⟨2, 66/37145⟩,
    ⟨7, 13/74290⟩, ⟨-1, 78/7429⟩, ⟨3, 26/37145⟩, ⟨-1, 33/37145⟩,
    ⟨1, 26/37145⟩, ⟨-3, 13/37145⟩, ⟨1, 273/37145⟩, ⟨-1, 429/37145⟩, ⟨3, 11/7429⟩],
  padRow [⟨-126, 7/33393355⟩, ⟨63, 7/33393355⟩,
    ⟨196/3, 7/33393355⟩, ⟨-7, 462/6678671⟩,
    ⟨-259/2, 7/33393355⟩, ⟨7/3, 1001/6678671⟩,
    ⟨1097/3, 1/233753485⟩, ⟨59/6, 77/6678671⟩, ⟨-2, 6006/6678671⟩,
    ⟨4021/6, 1/233753485⟩, ⟨-113/2, 55/46750697⟩, ⟨3, 1155/13357342⟩,
    ⟨-914, 1/233753485⟩, ⟨1/3, 2926/1757545⟩, ⟨48, 33/46750697⟩, ⟨-3, 3003/6678671⟩,
    ⟨-7/3, 119/1964315⟩, ⟨65/3, 22/2750041⟩, ⟨-1, 1914/474145⟩, ⟨3, 429/5500082⟩,
    ⟨214/3, 17/13750205⟩, ⟨-3, 561/2750041⟩, ⟨-2/3, 77/392863⟩, ⟨71/3, 143/27500410⟩, ⟨-1, 2002/392863⟩,
    ⟨3, 323/723695⟩, ⟨-1/3, 1309/20677⟩, ⟨5/3, 374/144739⟩, ⟨-2, 143/144739⟩, ⟨1/3, 1001/206770⟩,
    ⟨2/3, 323/723695⟩, ⟨-1/3, 7106/723695⟩, ⟨2, 561/723695⟩, ⟨-4/3, 2431/723695⟩, ⟨2/3, 2002/103385⟩, ⟨-1, 1001/103385⟩]]

/-- `_w3j_m1_offset`, python/boo/boo.py:258. -/
def m1Offset : List Nat := [0, 1, 2, 4, 6, 9, 12, 16, 20, 25, 30]

/-- `get_w3j`, python/boo/boo.py:138-142: the last and the first of the sorted absolute values are the largest and the smallest. The code compiled by
numba does not check the bounds. -/
def getW3j (l : Nat) (m1 m2 m3 : Int) : R W3Entry := do
  let o ← getR m1Offset (max m1.natAbs (max m2.natAbs m3.natAbs))
  let row ← getR w3jTable (l / 2)
  getR row (o + min m1.natAbs (min m2.natAbs m3.natAbs))

noncomputable section

/-- `wl`, python/boo/boo.py:144-161. -/
def wl {l : Nat} (q : Row l) : R ℝ :=
  (Boo.mRange l).foldlM (fun (w : ℝ) m1 =>
    (Boo.mRange l).foldlM (fun (w : ℝ) m2 => do
      let m3 := -m1 - m2
      if -(l : Int) ≤ m3 ∧ m3 ≤ l then
        let c ← getW3j l m1 m2 m3
        let x ← getQlm q m1
        let y ← getQlm q m2
        let z ← getQlm q m3
        pure (w + c.val * (x * y * z).re)
      else pure w) w) 0

/-- `gG_l`, python/boo/boo.py:165-202, with the coefficients of one or several degrees: `prods i j` are the products of the coefficients of two particles,
one for each degree, as given by `boo_product`. `near maxdist` are the pairs of `sparse_distance_matrix`: the rank of a particle among the centers, a
particle, and their distance. The assertions on the lengths of the arrays are not modelled for the coefficients. The bins of the products and the
counts are filled by the same indices: `np.add.at(g, rs, 1)` fails first when an index is outside. -/
def gGl {K d : Nat} (near : ℝ → List (Nat × Nat × ℝ)) (prods : Nat → Nat → Fin K → ℝ) (pos : List (Fin d → ℝ)) (isCenter : List Bool) (Nbins : Nat)
    (maxdist : ℝ) : R (List (Fin K → ℝ) × List Nat) := do
  if isCenter.length ≠ pos.length then throw .logicError
  let center := (List.range isCenter.length).filter fun i => isCenter.getD i false
  let query ← (near maxdist).mapM fun x => do
    let c ← idx center x.1
    pure (c, x.2)
  let good := query.filter fun x => x.1 ≠ x.2.1
  let rs := good.map fun x => ⌊x.2.2 * ((Nbins : ℝ) / maxdist)⌋₊
  let g ← addAt (List.replicate Nbins 0) rs (good.map fun _ => 1)
  let h ← addAt (List.replicate Nbins (0 : Fin K → ℝ)) rs (good.map fun x => prods x.1 x.2.1)
  pure (h, g)

end

end PyBoo
end Py
end Colloids
