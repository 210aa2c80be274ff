import Mathlib.Analysis.SpecialFunctions.Log.Basic
import Mathlib.Analysis.Real.Sqrt
import Mathlib.Algebra.Order.Monoid.WithTop
import Verif.Py.LinkerModel

/-! # Two-point microrheology in python: python/colloids/experiment.py

Numbers are real numbers, the logarithm and the square root are exact. `⊤` stands for the value `nan` of a division of zero by zero: it absorbs all
additions. -/

namespace Colloids
namespace Py
namespace Brown

/-- `a[ks] += vs` of numpy: all the sums are computed from the values before the assignment, then they are assigned in order, so that only the last
one remains when an index is repeated. python/colloids/experiment.py:1101-1102. -/
def fancyAdd {A : Type} [Add A] (a : List A) (kvs : List (Nat × A)) : R (List A) := do
  let sums ← kvs.mapM fun kv => do
    let old ← idx a kv.1
    pure (kv.1, old + kv.2)
  pure (sums.foldl (fun b kv => b.set kv.1 kv.2) a)

/-- The length of a vector. -/
noncomputable def norm3 (r : Fin 3 → ℝ) : ℝ := Real.sqrt (∑ k, r k ^ 2)

/-- The projection on the plane of the first two axes, turned by a right angle, python/colloids/experiment.py:1084-1085. Nothing when the vector is
along the last axis: the code has a vector of `nan`. -/
noncomputable def planar (r : Fin 3 → ℝ) : Option (ℝ × ℝ) :=
  let rho := Real.sqrt (r 0 ^ 2 + r 1 ^ 2)
  if rho = 0 then none else some (r 1 / rho, -(r 0 / rho))

/-- `np.cross(ns, (p0, p1, 0))`, python/colloids/experiment.py:1087. -/
noncomputable def third (n : Fin 3 → ℝ) (p : ℝ × ℝ) : Fin 3 → ℝ :=
  ![n 1 * 0 - n 2 * p.2, n 2 * p.1 - n 0 * 0, n 0 * p.2 - n 1 * p.1]

/-- `(d * u).sum(-1)`. -/
def dot (d u : Fin 3 → ℝ) : ℝ := ∑ k, d k * u k

/-- The components `ddn`, `ddq` and `ddp` of a pair, python/colloids/experiment.py:1080-1098, from the vector from the first to the second particle and
their displacements. -/
noncomputable def comps (r d e : Fin 3 → ℝ) : WithTop ℝ × WithTop ℝ × WithTop ℝ :=
  let n : Fin 3 → ℝ := fun k => r k / norm3 r
  let ddn : ℝ := dot d n * dot e n
  match planar r with
  | none => (ddn, ⊤, ⊤)
  | some p =>
    let q := third n p
    let ddq : ℝ := dot d q * dot e q
    let ddp : ℝ := (d 0 * p.1 + d 1 * p.2) * (e 0 * p.1 + e 1 * p.2)
    (ddn, ddq, ddp)

/-- The square of a number that may be `nan`. -/
noncomputable def square : WithTop ℝ → WithTop ℝ
  | ⊤ => ⊤
  | some x => ((x ^ 2 : ℝ) : WithTop ℝ)

/-- `[ddn, ddq, ddp, ddn**2, ddq**2, ddp**2]`, python/colloids/experiment.py:1101. -/
noncomputable def six (c : WithTop ℝ × WithTop ℝ × WithTop ℝ) : Fin 6 → WithTop ℝ :=
  ![c.1, c.2.1, c.2.2, square c.1, square c.2.1, square c.2.2]

/-- What is added to `bres` for a pair: for each interval of time, the six numbers. `disp l i` is the displacement of particle `i` in the interval
number `l`, python/colloids/experiment.py:1057-1058: the array is read as a function. -/
noncomputable def payload (pos : List (Fin 3 → ℝ)) (disp : Nat → Nat → Fin 3 → ℝ) (i j : Nat) : Nat → Fin 6 → WithTop ℝ :=
  fun l => six (comps (pos.getD j 0 - pos.getD i 0) (disp l i) (disp l j))

/-- The index of the bin, python/colloids/experiment.py:1100. The distance is at least `rmin`, so that it is not negative when `rmin < rmax`. -/
noncomputable def logBin (rmin rmax : ℝ) (nbins : Nat) (dist : ℝ) : Nat :=
  ⌊(Real.log dist - Real.log rmin) / ((Real.log rmax - Real.log rmin) / nbins)⌋.toNat

open Classical in
/-- The neighbours of a particle, with the bin of each one, python/colloids/experiment.py:1072-1076. `ball i` are the particles that the tree finds not
further than `rmax`. -/
noncomputable def neighbours (pos : List (Fin 3 → ℝ)) (ball : Nat → List Nat) (rmin : ℝ) (i : Nat) : List Nat :=
  (ball i).filter fun j => decide (rmin ^ 2 ≤ ∑ k, (pos.getD j 0 k - pos.getD i 0 k) ^ 2)

/-- The body of the loop of `get_Brownian_corr`, python/colloids/experiment.py:1069-1102. -/
noncomputable def brownStep (pos : List (Fin 3 → ℝ)) (disp : Nat → Nat → Fin 3 → ℝ) (ball : Nat → List Nat) (rmin rmax : ℝ) (nbins : Nat)
    (acc : List (Nat → Fin 6 → WithTop ℝ) × List Nat) (i : Nat) : R (List (Nat → Fin 6 → WithTop ℝ) × List Nat) := do
  let _ ← idx pos i
  let js := neighbours pos ball rmin i
  let bin := fun j => logBin rmin rmax nbins (norm3 (pos.getD j 0 - pos.getD i 0))
  let b ← fancyAdd acc.1 (js.map fun j => (bin j, payload pos disp i j))
  let n ← fancyAdd acc.2 (js.map fun j => (bin j, 1))
  pure (b, n)

/-- `get_Brownian_corr`, python/colloids/experiment.py:1031-1103, without the messages: the sums for each bin, the numbers and the limits of the bins.
`pos` are the positions at the initial time, `inside` is given; the indices are not negative. -/
noncomputable def brownianCorr (pos : List (Fin 3 → ℝ)) (disp : Nat → Nat → Fin 3 → ℝ) (ball : Nat → List Nat) (rmin rmax : ℝ) (nbins : Nat)
    (inside : List Nat) : R (List (Nat → Fin 6 → WithTop ℝ) × List Nat × List ℝ) := do
  let lrbinsize := (Real.log rmax - Real.log rmin) / nbins
  let (b, n) ← inside.foldlM (brownStep pos disp ball rmin rmax nbins) (List.replicate nbins 0, List.replicate nbins 0)
  pure (b, n, (List.range (nbins + 1)).map fun (x : Nat) => Real.exp ((x : ℝ) * lrbinsize + Real.log rmin))

/-- `MSD_twopoint`, python/colloids/experiment.py:1105-1113, for one component and one bin: the mean and the error. -/
noncomputable def msdTwopoint (s s2 : ℝ) (nb : Nat) : Option (ℝ × ℝ) :=
  if nb = 0 then none
  else
    let msd := s / nb
    some (msd, Real.sqrt (s2 / nb - msd ^ 2))

end Brown
end Py
end Colloids
