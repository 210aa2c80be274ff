import Mathlib.Algebra.Order.Field.Basic
import Verif.Py.LinkerModel

/-!
# The rest of python/colloids/statistics.py

`decimate_hist`, mean maps, space correlation, correlation of `qlm`, structure factors.  Doubles are elements of a linear ordered field; `none` is not a
number (zero divided by zero).  Not modelled: the plots (11-54), the Fourier transforms and windows (the spectrum is a parameter).
-/

namespace Colloids
namespace Py
namespace StatHist

variable {F : Type} [Field F] [LinearOrder F]

/-! ### decimate_hist -/

/-- `r[1:] += l[1:]` -/
def addTail : List F → List F → List F
  | b :: r, _ :: l => b :: List.zipWith (· + ·) r l
  | r, _ => r

/-- one iteration of the loop of `decimate_hist` on line `i` of `h`.  The lines of `ret` are views of `h`: `ret` is modelled by their indices, and the
additions change `h`.  statistics.py:59-63 -/
def decimateOne (col : Nat) (thr : F) (st : List (List F) × List Nat) (i : Nat) : R (List (List F) × List Nat) := do
  let l ← idx st.1 i
  let r ← last st.2
  let row ← idx st.1 r
  let v ← idx row col
  if thr < v then .ok (st.1, st.2 ++ [i]) else .ok (st.1.set r (addTail row l), st.2)

/-- `decimate_hist`: the result, and the array `h` of the caller afterwards.  statistics.py:56-64 -/
def decimateHist (col : Nat) (thr : F) (h : List (List F)) : R (List (List F) × List (List F)) := do
  let _ ← idx h 0
  let st ← (List.range' 1 (h.length - 1)).foldlM (decimateOne col thr) (h, [0])
  let ret ← st.2.mapM (idx st.1)
  .ok (ret, st.1)

/-! ### Histograms -/

/-- whether `x` is in bin `k` of the edges: the last bin has its upper edge -/
def inBin (b : List F) (k : Nat) (x : F) : Bool :=
  decide (b.getD k 0 ≤ x) && (decide (x < b.getD (k + 1) 0) || (decide (k + 2 = b.length) && decide (x ≤ b.getD (k + 1) 0)))

/-- `np.histogram(x, bins=b, weights=w)[0]` when `b` is an array of edges -/
def histogramW (b : List F) (data : List (F × F)) : List F :=
  (List.range (b.length - 1)).map fun k => ((data.filter fun y => inBin b k y.1).map Prod.snd).sum

/-- `np.histogram(x, bins=b)[0]` when `b` is an array of edges -/
def histogramN (b : List F) (x : List F) : List Nat :=
  (List.range (b.length - 1)).map fun k => (x.filter fun y => inBin b k y).length

/-- the check of numpy on edges -/
def edgesOk (b : List F) : Bool := (List.range (b.length - 1)).all fun k => decide (b.getD k 0 ≤ b.getD (k + 1) 0)

/-- `meanMap1D`, with the edges of the bins: left edge, mean, number.  When `bins` is a number numpy builds the edges first (not modelled).
statistics.py:67-71 -/
def meanMap1D (x values : List F) (b : List F) : R (List (F × F × Nat)) :=
  if !edgesOk b then .error .invalidArgument
  else if x.length ≠ values.length then .error .invalidArgument
  else
    let number := histogramN b x
    let total := histogramW b (x.zip values)
    let selection := (List.range (b.length - 1)).filter fun k => decide (0 < number.getD k 0)
    .ok (selection.map fun k => (b.getD k 0, total.getD k 0 / (number.getD k 0 : F), number.getD k 0))

/-- one cell of `meanMap`, with the edges of the bins in both directions.  statistics.py:73-76 -/
def meanMapCell (bx bY : List F) (data : List ((F × F) × F)) (i j : Nat) : F :=
  let c := data.filter fun d => inBin bx i d.1.1 && inBin bY j d.1.2
  if c.length = 0 then -1 else (c.map Prod.snd).sum / (c.length : F)

/-! ### Space correlation -/

/-- the values minus their mean.  statistics.py:124 -/
def centered (values : List F) : List F := values.map (· - values.sum / (values.length : F))

/-- what particle `p`, of value `u`, adds to `total` and `rdf`.  statistics.py:127-133 -/
def spaceOne {α : Type} (dist : α → α → F) (pos : List α) (v : List F) (b : List F) (x : α × F) : List (F × Nat) :=
  let h := histogramW b (List.zipWith (fun q w => (dist q x.1, w * x.2)) pos v)
  let n := histogramN b (pos.map fun q => dist q x.1)
  List.zipWith (fun (h : F) (n : Nat) => (if 0 < n then h / (n : F) else 0, n)) h n

/-- `space_correlation` of real values; `dist` is the square of the distance.  `none` is a division by zero.  The bins are checked by numpy in the loop only.
statistics.py:122-134 -/
def spaceCorrelation {α : Type} (dist : α → α → F) (pos : List α) (values : List F) (b : List F) : R (List (Option F) × List (Option F)) :=
  let v := centered values
  if b.length = 0 then .error .invalidArgument
  else if pos.length ≠ 0 ∧ values.length ≠ 0 ∧ (edgesOk b = false ∨ pos.length ≠ values.length) then .error .invalidArgument
  else
    let parts := (pos.zip v).map (spaceOne dist pos v b)
    let total := (List.range (b.length - 1)).map fun k => (parts.map fun l => (l.getD k (0, 0)).1).sum
    let rdf := (List.range (b.length - 1)).map fun k => (parts.map fun l => (l.getD k (0, 0)).2).sum
    let s := (v.map fun x => x * x).sum
    .ok (total.map fun t => if s = 0 then none else some (t / s),
      rdf.zipIdx.map fun x => if b.getD (x.2 + 1) 0 = 0 then none else some ((x.1 : F) / b.getD (x.2 + 1) 0 ^ 2))

/-! ### Correlation of qlm -/

/-- `[0]+2*np.arange(1,n)`: a list plus an array is the sum of arrays.  statistics.py:104 -/
def qlmIndices (n : Nat) : List Nat := (List.range (n - 1)).map fun i => 0 + 2 * (i + 1)

/-- `correlate_qlm(qlm, average=False)`; `prod` is the real part of `qlm*np.conj(qlm[0])`, indexed by time, particle and `m < n`.
statistics.py:103-108 -/
def correlateQlm (n : Nat) (prod : List (List (List F))) : R (List (List (Option F))) := do
  if prod = [] then .error .outOfRange
  else if (qlmIndices n).any fun i => decide (n ≤ i) then .error .outOfRange
  else
    let cor := prod.map fun t => t.map fun p => ((qlmIndices n).map fun m => p.getD m 0).sum
    let c0 ← idx cor 0
    .ok (cor.map fun row => List.zipWith (fun a b => if b = 0 then none else some (a / b)) row c0)

/-! ### Structure factors -/

/-- `StructureFactor2D(shape)` then a call on positions: the image has two dimensions (`ImageStructureFactor` asserts it) and is indexed by `x,y,z`.  `some` is a result.
statistics.py:139-153 and 226-227 -/
def structureFactor2D (shape : List Nat) (pos : List (List Nat)) : R (Option (List F)) :=
  if shape.length ≠ 2 then .error .logicError
  else match pos with
    | [] => .ok none
    | p :: _ => if p.length ≠ 3 then .error .invalidArgument else .error .outOfRange

/-- `np.fft.fftfreq(n)[i]` -/
def freq (n i : Nat) : F := (if i < (n - 1) / 2 + 1 then (i : F) else (i : F) - n) / n

/-- square of `StructureFactor3D.dists[i,j,k]` for a shape `n0,n1,n2`: the third wave number is taken in those of the second dimension.
statistics.py:175-179 -/
def dist3D (n0 n1 n2 i j k : Nat) : R F :=
  if i < n0 ∧ j < n1 ∧ k < min n1 (n2 / 2 + 1) then .ok (freq n0 i ^ 2 + freq n1 j ^ 2 + freq n1 k ^ 2) else .error .outOfRange

/-- the radial sum of `StructureFactor3D.__call__`: `dists` has `n0 × n1 × min n1 (n2/2+1)` numbers and `spectrum` has `n0 × n1 × (n2/2+1)`.
statistics.py:209 -/
def radialSum3D (n0 n1 n2 : Nat) (b dists spectrum : List F) : R (List F) :=
  if n0 * n1 * min n1 (n2 / 2 + 1) ≠ n0 * n1 * (n2 / 2 + 1) then .error .invalidArgument
  else .ok ((histogramW b (dists.zip spectrum)).map (· / (spectrum.sum / (spectrum.length : F))))

/-- the state of `StructureFactor3D`: `S` and `Ns` -/
structure SF3D (F : Type) where
  S : List F
  Ns : List Nat

/-- `StructureFactor3D.__call__` with `accumulate`: `N` positions with radial sum `s`.  statistics.py:189-191, 210-212 -/
def SF3D.call (st : SF3D F) (x : Nat × List F) : SF3D F :=
  if x.1 = 0 then { st with Ns := st.Ns ++ [0] }
  else { S := List.zipWith (fun a s => a + s * (x.1 : F)) st.S x.2, Ns := st.Ns ++ [x.1] }

/-- `np.var(Ns) * len(Ns)` -/
def varLen (Ns : List Nat) : F :=
  let l : List F := Ns.map fun (n : Nat) => (n : F)
  let m := l.sum / (l.length : F)
  (l.map fun n => (n - m) ^ 2).sum / (l.length : F) * (l.length : F)

/-- `StructureFactor3D.get_S`; the variance of no number is not a number.  statistics.py:216-221 -/
def SF3D.getS (st : SF3D F) (nbq : List Nat) : R (List (Option F)) :=
  match List.zipWith (fun (s : F) (n : Nat) => if 0 < n then s / (n : F) else s) st.S nbq with
  | [] => .error .outOfRange
  | _ :: rest => .ok ((if st.Ns = [] then none else some (varLen st.Ns)) :: rest.map some)

/-- `ImageStructureFactor.__call__` after the Fourier transform: `none` where no pixel is in the bin or the spectrum is null.
statistics.py:255-260 -/
def imageS (b dists spectrum : List F) : List (Option F) :=
  List.zipWith (fun (h : F) (n : Nat) => if n = 0 ∨ spectrum.sum = 0 then none else some (h / (n : F) / (spectrum.sum / (spectrum.length : F))))
    (histogramW b (dists.zip spectrum)) (histogramN b dists)

end StatHist
end Py
end Colloids
