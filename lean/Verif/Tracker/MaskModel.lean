import Verif.Tracker.StoreModel
import Mathlib.Analysis.SpecialFunctions.Pow.Real
import Mathlib.Analysis.Real.Sqrt
import Mathlib.Algebra.Order.Floor.Semiring

/-! # The mask in Fourier space: graphic/tracker.cpp:92-317, 505-525

A mask is a function of the three indices. The numbers are real: the square root is exact. -/

namespace Colloids
namespace Tracker

noncomputable section

/-- `FFTmask`. -/
abbrev Mask := Nat → Nat → Nat → Bool

/-- Three radii, one in each dimension. -/
structure Radii where
  r0 : ℝ
  r1 : ℝ
  r2 : ℝ

/-- The frequencies that belong to radii, graphic/tracker.cpp:108-111, 203-204. -/
def freq (n : Nat) (r : ℝ) : ℝ := (n : ℝ) / r / 2

/-- `(size_t)(1 + f * sqrt(1.0 - a - b))` or `dflt` if `a + b > 1`, at most `size`:
graphic/tracker.cpp:162-171, 244-248. -/
def limit (size dflt : Nat) (a b f : ℝ) : Nat :=
  min size (if a + b > 1 then dflt else ⌊1 + f * Real.sqrt (1 - a - b)⌋₊)

/-- The part of the low pass mask that is drawn, graphic/tracker.cpp:235-255. The line `di`, `dj` is filled
with `true` up to `kmax` and `false` after; the rest of the mask `m` does not change. -/
def drawLow (D : Dims) (r : Radii) (m : Mask) : Mask := fun di dj k =>
  if di < D.n0 / 2 + 1 ∧ dj < D.n1 / 2 + 1 ∧ k < D.half then
    decide (k < limit D.half 0 (((di : ℝ) / freq D.n0 r.r0) ^ 2) (((dj : ℝ) / freq D.n1 r.r1) ^ 2) (freq D.n2 r.r2))
  else m di dj k

/-- The part of the band pass mask that is drawn, graphic/tracker.cpp:153-184. -/
def drawBand (D : Dims) (rmin rmax : Radii) (m : Mask) : Mask := fun di dj k =>
  if di < D.n0 / 2 + 1 ∧ dj < D.n1 / 2 + 1 ∧ k < D.half then
    let kmin := limit D.half 0 (((di : ℝ) / freq D.n0 rmax.r0) ^ 2) (((dj : ℝ) / freq D.n1 rmax.r1) ^ 2)
      (freq D.n2 rmax.r2)
    let kmax := limit D.half kmin (((di : ℝ) / freq D.n0 rmin.r0) ^ 2) (((dj : ℝ) / freq D.n1 rmin.r1) ^ 2)
      (freq D.n2 rmin.r2)
    decide (kmin ≤ k ∧ k < kmax)
  else m di dj k

/-- The index whose content is copied to index `i` of a dimension of size `n`, graphic/tracker.cpp:275-281,
297-303: `original` is `parity, ..., n/2 - 1 + parity` and `mirror` is `n-1, ..., n-n/2`. (The two ranges
have nothing in common but `n/2` when it is copied to itself, so all the copies are done at once.) -/
def mirrorIdx (n i : Nat) : Nat :=
  if n / 2 + 1 ≥ 3 ∧ n - n / 2 ≤ i ∧ i < n then (1 - n % 2) + (n - 1 - i) else i

/-- `Tracker::mirrorMask`, graphic/tracker.cpp:263-317: the first direction only where the second was
drawn, then the second direction everywhere. -/
def mirrorMask (D : Dims) (m : Mask) : Mask :=
  let m1 : Mask := fun i j k => if j < D.n1 / 2 + 1 then m (mirrorIdx D.n0 i) j k else m i j k
  fun i j k => m1 i (mirrorIdx D.n1 j) k

/-- `Tracker::makeLowPassMask`, graphic/tracker.cpp:194-261. -/
def makeLowPassMask (D : Dims) (r : Radii) (m : Mask) : Mask := mirrorMask D (drawLow D r m)

open Classical in
/-- `Tracker::makeBandPassMask`, graphic/tracker.cpp:96-189. -/
def makeBandPassMask (D : Dims) (rmin rmax : Radii) (m : Mask) : R Mask :=
  if rmin.r0 < rmax.r0 ∧ rmin.r1 < rmax.r1 ∧ rmin.r2 < rmax.r2 then
    .ok (mirrorMask D (drawBand D rmin rmax m))
  else .error .invalidArgument

end

end Tracker
end Colloids
