import Mathlib.Analysis.SpecialFunctions.Pow.Real
import Mathlib.Analysis.SpecialFunctions.Trigonometric.Basic
import Mathlib.MeasureTheory.Integral.IntervalIntegral.Basic
import Mathlib.Data.Matrix.Mul
import Verif.Common

/-!
# `python/colloids/track.py`: scales, radii and brightness of blurred balls

Floating point numbers are real numbers (rounding is not modelled); `numba.vectorize` and `numpy` apply a
function of numbers to arrays item by item.  Arrays with one item per particle are functions of the
index; all of them have the same length.  `spsolve` is a parameter; what is assumed of it is written in
the theorems.
-/

namespace Colloids
namespace Py
namespace Track

open Real

noncomputable section

/-- `math.erf` -/
def erf (x : ℝ) : ℝ := 2 / √π * ∫ t in (0 : ℝ)..x, exp (-t ^ 2)

/-- `radius2scale`.  track.py:505-509 -/
def radius2scale (R k n dim : ℝ) : ℝ :=
  n / log 2 * log (R / k * √(n * ((2 : ℝ) ^ (2.0 / n) - 1) / (2 * dim * log 2))) - 1

/-- `scale2radius`.  track.py:511-515 -/
def scale2radius (x k n dim : ℝ) : ℝ :=
  k * (2 : ℝ) ^ ((x + 1) / n) * √(2 * dim * log 2 / n / ((2 : ℝ) ^ (2.0 / n) - 1))

/-- `radius2sigma`.  track.py:517-519 -/
def radius2sigma (R n dim : ℝ) : ℝ := R / √(2 * dim * log 2 / n / (1 - (2 : ℝ) ^ (-2.0 / n)))

/-- `sigma2radius`.  track.py:521-523 -/
def sigma2radius (sigma n dim : ℝ) : ℝ :=
  sigma * √(2 * dim * log 2 / n / (1 - (2 : ℝ) ^ (-2.0 / n)))

/-- `halfG`.  track.py:525-528 -/
def halfG (d R sigma : ℝ) : ℝ :=
  exp (-(R + d) ^ 2 / (2 * sigma ^ 2)) * √(2 / π) * sigma / d + erf ((R + d) / sigma / √2)

/-- `midG`.  track.py:530-534 -/
def midG (R sigma : ℝ) : ℝ :=
  let x := R / sigma / √2
  erf x - x * exp (-x ^ 2) * 2 / √π

/-- `G`; `none` is the missing distance.  track.py:536-540 -/
def G (R sigma : ℝ) : Option ℝ → ℝ
  | none => midG R sigma
  | some d => halfG d R sigma + halfG (-d) R sigma

/-- `DoG`.  track.py:542-544 -/
def DoG (R sigma alpha : ℝ) (d : Option ℝ) : ℝ := G R (alpha * sigma) d - G R sigma d

/-- `halfG_dsigma`.  track.py:546-549 -/
def halfGdsigma (d R s2 : ℝ) : ℝ :=
  (R ^ 2 + d * R + s2) * exp (-(R + d) ^ 2 / (2 * s2)) / √(2 * π) / d / s2

/-- `midG_dsigma`.  track.py:551-554 -/
def midGdsigma (R sigma : ℝ) : ℝ :=
  -R ^ 3 / sigma ^ 4 * √(2 / π) * exp (-R ^ 2 / 2 / sigma ^ 2)

/-- `G_dsigma`.  track.py:556-561 -/
def Gdsigma (R sigma : ℝ) : Option ℝ → ℝ
  | none => midGdsigma R sigma
  | some d => halfGdsigma d R (sigma ^ 2) + halfGdsigma (-d) R (sigma ^ 2)

/-- `DoG_dsigma`.  track.py:563-565 -/
def DoGdsigma (R sigma alpha : ℝ) (d : Option ℝ) : ℝ :=
  alpha * Gdsigma R (alpha * sigma) d - Gdsigma R sigma d

/-- `halfG_dsigma_dR`.  track.py:567-570 -/
def halfGdsigmadR (d R s2 : ℝ) : ℝ :=
  -R * ((R + d) ^ 2 - s2) * exp (-(R + d) ^ 2 / (2 * s2)) / √(2 * π) / d / s2 ^ 2

/-- `midG_dsigma_dR`.  track.py:572-575 -/
def midGdsigmadR (R sigma : ℝ) : ℝ :=
  R ^ 2 * (R ^ 2 - 3 * sigma ^ 2) / sigma ^ 6 * √(2 / π) * exp (-R ^ 2 / 2 / sigma ^ 2)

/-- `G_dsigma_dR`.  track.py:577-582 -/
def GdsigmadR (R sigma : ℝ) : Option ℝ → ℝ
  | none => midGdsigmadR R sigma
  | some d => halfGdsigmadR d R (sigma ^ 2) + halfGdsigmadR (-d) R (sigma ^ 2)

/-- `DoG_dsigma_dR`.  track.py:584-586 -/
def DoGdsigmadR (R sigma alpha : ℝ) (d : Option ℝ) : ℝ :=
  alpha * GdsigmadR R (alpha * sigma) d - GdsigmadR R sigma d

/-! ### Systems of equations -/

/-- `scipy.sparse.linalg.spsolve`: matrix, right hand side -/
abbrev Spsolve (N : Nat) := Matrix (Fin N) (Fin N) ℝ → (Fin N → ℝ) → Fin N → ℝ

/-- `alpha = 2**(1.0/n)`.  track.py:605,639,673 -/
def alphaOf (n : Nat) : ℝ := (2 : ℝ) ^ (1.0 / (n : ℝ))

/-- the bonds as indices of the arrays: `IndexError` out of bounds (negative indices, which numpy
accepts, are not modelled).  track.py:610-611 -/
def checked (N : Nat) (bonds : List (Nat × Nat)) : Colloids.R (List (Fin N × Fin N)) :=
  bonds.mapM fun b =>
    if h : b.1 < N ∧ b.2 < N then .ok (⟨b.1, h.1⟩, ⟨b.2, h.2⟩) else .error .outOfRange

/-- `M[i,j] = x` in a sparse matrix -/
def setAt {N : Nat} (M : Matrix (Fin N) (Fin N) ℝ) (i j : Fin N) (x : ℝ) : Matrix (Fin N) (Fin N) ℝ :=
  fun a b => if a = i ∧ b = j then x else M a b

/-- `v[i] += x` -/
def addTo {N : Nat} (v : Fin N → ℝ) (i : Fin N) (x : ℝ) : Fin N → ℝ :=
  fun a => if a = i then v a + x else v a

/-- the loop of `global_rescale_intensity` over distances and bonds.  track.py:644-649 -/
def rescaleLoop {N : Nat} (sigma0 R0 I : Fin N → ℝ) (alpha : ℝ)
    (l : List (ℝ × Fin N × Fin N)) (s : Matrix (Fin N) (Fin N) ℝ × (Fin N → ℝ)) :
    Matrix (Fin N) (Fin N) ℝ × (Fin N → ℝ) :=
  l.foldl (fun s x =>
    let d := x.1
    let i := x.2.1
    let j := x.2.2
    let J := setAt s.1 i j (I j * DoGdsigmadR (R0 j) (sigma0 i) alpha (some d))
    let J := setAt J j i (I i * DoGdsigmadR (R0 i) (sigma0 j) alpha (some d))
    let v := addTo s.2 i (I j * DoGdsigma (R0 j) (sigma0 i) alpha (some d))
    let v := addTo v j (I i * DoGdsigma (R0 i) (sigma0 j) alpha (some d))
    (J, v)) s

/-- `global_rescale_intensity`.  track.py:620-652 -/
def globalRescaleIntensity {N : Nat} (spsolve : Spsolve N) (sigma0 : Fin N → ℝ)
    (bonds : List (Nat × Nat)) (dists : List ℝ) (I : Fin N → ℝ) (R0 : Option (Fin N → ℝ)) (n : Nat) :
    Colloids.R (Fin N → ℝ) := do
  if bonds.length ≠ dists.length then .error .logicError
  else do
    let alpha := alphaOf n
    let R0 := R0.getD fun i => sigma2radius (sigma0 i) n 3
    let bonds ← checked N bonds
    let l := (dists.zip bonds).map fun x => (max x.1 (R0 x.2.1 + R0 x.2.2), x.2)
    let s := rescaleLoop sigma0 R0 I alpha l
      (fun _ _ => 0, fun i => I i * DoGdsigma (R0 i) (sigma0 i) alpha none)
    let J : Matrix (Fin N) (Fin N) ℝ := fun i j =>
      if i = j then I i * DoGdsigmadR (R0 i) (sigma0 i) alpha none else s.1 i j
    pure fun i => R0 i + spsolve J (fun i => -s.2 i) i

/-- the loop of `global_rescale` over distances and bonds.  track.py:610-615 -/
def rescaleLoop1 {N : Nat} (sigma0 R0 : Fin N → ℝ) (alpha : ℝ)
    (l : List (ℝ × Fin N × Fin N)) (s : Matrix (Fin N) (Fin N) ℝ × (Fin N → ℝ)) :
    Matrix (Fin N) (Fin N) ℝ × (Fin N → ℝ) :=
  l.foldl (fun s x =>
    let d := x.1
    let i := x.2.1
    let j := x.2.2
    let J := setAt s.1 i j (DoGdsigmadR (R0 j) (sigma0 i) alpha (some d))
    let J := setAt J j i (DoGdsigmadR (R0 i) (sigma0 j) alpha (some d))
    let v := addTo s.2 i (DoGdsigma (R0 j) (sigma0 i) alpha (some d))
    let v := addTo v j (DoGdsigma (R0 i) (sigma0 j) alpha (some d))
    (J, v)) s

/-- `global_rescale`.  track.py:588-618 -/
def globalRescale {N : Nat} (spsolve : Spsolve N) (sigma0 : Fin N → ℝ)
    (bonds : List (Nat × Nat)) (dists : List ℝ) (R0 : Option (Fin N → ℝ)) (n : Nat) :
    Colloids.R (Fin N → ℝ) := do
  if bonds.length ≠ dists.length then .error .logicError
  else do
    let alpha := alphaOf n
    let R0 := R0.getD fun i => sigma2radius (sigma0 i) n 3
    let bonds ← checked N bonds
    let l := (dists.zip bonds).map fun x => (max x.1 (R0 x.2.1 + R0 x.2.2), x.2)
    let s := rescaleLoop1 sigma0 R0 alpha l
      (fun _ _ => 0, fun i => DoGdsigma (R0 i) (sigma0 i) alpha none)
    let J : Matrix (Fin N) (Fin N) ℝ := fun i j =>
      if i = j then DoGdsigmadR (R0 i) (sigma0 i) alpha none else s.1 i j
    pure fun i => R0 i + spsolve J (fun i => -s.2 i) i

/-- `solve_intensities`.  track.py:654-682 -/
def solveIntensities {N : Nat} (spsolve : Spsolve N) (sigma0 : Fin N → ℝ)
    (bonds : List (Nat × Nat)) (dists : List ℝ) (intensities : Fin N → ℝ)
    (R0 : Option (Fin N → ℝ)) (n : Nat) : Colloids.R (Fin N → ℝ) := do
  if bonds.length ≠ dists.length then .error .logicError
  else do
    let alpha := alphaOf n
    let R0 := R0.getD fun i => sigma2radius (sigma0 i) n 3
    let bonds ← checked N bonds
    let M := (dists.zip bonds).foldl (fun M x =>
      let M := setAt M x.2.1 x.2.2 (DoG (R0 x.2.2) (sigma0 x.2.1) alpha (some x.1))
      setAt M x.2.2 x.2.1 (DoG (R0 x.2.1) (sigma0 x.2.2) alpha (some x.1)))
      (fun _ _ => (0 : ℝ))
    let M : Matrix (Fin N) (Fin N) ℝ := fun i j =>
      if i = j then DoG (R0 i) (sigma0 i) alpha none else M i j
    pure (spsolve M intensities)

end

end Track
end Py
end Colloids
