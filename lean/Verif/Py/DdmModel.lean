import Mathlib.Analysis.SpecialFunctions.Log.Basic
import Mathlib.Analysis.SpecialFunctions.Pow.Real
import Verif.Common
import Verif.Py.PhaseCorModel

/-!
# `python/colloids/ddm.py`

Differential dynamic microscopy.  The slices `[:max(shape)/2]` need integers: the module is in python 2, where `/` between
integers rounds down.  Real numbers instead of floats; `readImages` is not modelled; an image is a function on the pixels
of a torus `ZMod m × ZMod n`, none of the sizes is zero.
-/

namespace Colloids
namespace Py
namespace Ddm

open Colloids.Py.PhaseCor

noncomputable section

variable {m n : Nat} [NeZero m] [NeZero n]

/-- images of `m` lines and `n` columns -/
abbrev Img (m n : Nat) := ZMod m → ZMod n → ℝ

/-- `spectreDiff`.  ddm.py:43-48 -/
def spectreDiff (im0 im1 : Img m n) : Img m n := fun k l =>
  ‖fft2 (fun x y => ((im1 x y - im0 x y : ℝ) : ℂ)) k l‖ ^ 2

/-- `step` and `couples` of `timeAveraged`, `N` is `len(images)-dt` (if it is negative there is no couple, as for
zero) and `navmax` is not zero.  ddm.py:75-76 -/
def couples (N navmax : Nat) : List Nat :=
  let step := max (N / navmax) 1
  (List.range ((N + step - 1) / step)).map (· * step)

/-- one turn of the loop of `timeAveraged`.  ddm.py:78-79 -/
def addCouple (images : List (Img m n)) (dt : Nat) (result : Img m n) (t : Nat) : R (Img m n) :=
  match images[t]?, images[t + dt]? with
  | some a, some b => .ok fun k l => result k l + spectreDiff a b k l
  | _, _ => .error .outOfRange

/-- `timeAveraged`; the result is `none` if it is not a number everywhere (no couple); `navmax = 0` is an error of division.
ddm.py:71-80 -/
def timeAveraged (images : List (Img m n)) (dt navmax : Nat) : R (Option (Img m n)) :=
  if navmax = 0 then .error .invalidArgument
  else
    let c := couples (images.length - dt) navmax
    do
      let result ← c.foldlM (addCouple images dt) fun _ _ => 0
      .ok (if c = [] then none else some fun k l => result k l / c.length)

/-- `logSpaced`; `uniq` is `np.unique`.  The logarithm of 0 is not finite: the cast of the result is an error here.
ddm.py:82-87 -/
def logSpaced (uniq : List Int → List Int) (L num : Nat) : R (List Int) :=
  if L = 0 then .error .invalidArgument
  else .ok (uniq ((List.range num).map fun (i : Nat) =>
    ⌊(2 : ℝ) ^ ((i : ℝ) * (Real.log L / Real.log 2) / num)⌋))

/-- `np.fft.fftfreq(n)[i]` -/
def fftfreq (n i : Nat) : ℝ := (if i < (n - 1) / 2 + 1 then (i : ℝ) else (i : ℝ) - n) / n

/-- `RadialAverager.dists`.  ddm.py:54 -/
def dists (x : ZMod m) (y : ZMod n) : ℝ := √(fftfreq m x.val ^ 2 + fftfreq n y.val ^ 2)

/-- `RadialAverager.bins`.  ddm.py:55 -/
def bins (m n : Nat) : List ℝ := (List.range (max m n / 2)).map fun i => fftfreq (max m n) i

open Classical in
/-- whether `np.histogram` counts `d` in bin `k`: bins are closed on the left and open on the right, the last one is closed -/
def inBin (b : List ℝ) (k : Nat) (d : ℝ) : Bool :=
  decide (b.getD k 0 ≤ d) &&
    (if k + 2 = b.length then decide (d ≤ b.getD (k + 1) 0) else decide (d < b.getD (k + 1) 0))

/-- `np.histogram(self.dists, self.bins, weights=im)[0]`; there is no bin with less than two limits -/
def histogram (b : List ℝ) (im : Img m n) : List ℝ :=
  (List.range (b.length - 1)).map fun k => ∑ x : ZMod m, ∑ y : ZMod n, if inBin b k (dists x y) then im x y else 0

/-- `RadialAverager.__call__` on an image of the right shape; `none` is a number divided by zero.  `radialAverage` is the same.
ddm.py:58-61, 63-69 -/
def radial (im : Img m n) : List (Option ℝ) :=
  let hd := histogram (m := m) (n := n) (bins m n) fun _ _ => 1
  ((histogram (bins m n) im).zip hd).map fun q => if q.2 = 0 then none else some (q.1 / q.2)

/-- the same on an average that may not be a number anywhere -/
def radialOpt (a : Option (Img m n)) : List (Option ℝ) :=
  match a with
  | some im => radial im
  | none => (radial (m := m) (n := n) fun _ _ => 0).map fun _ => none

/-- `ddm`; the intervals are positive; an average that is not a number gives lines without number.  ddm.py:89-97 -/
def ddm (uniq : List Int → List Int) (images : List (Img m n)) (navmax num : Nat) :
    R (List Int × List (List (Option ℝ))) := do
  let dts ← logSpaced uniq images.length num
  let D ← dts.mapM fun (dt : Int) => do
    let a ← timeAveraged images dt.toNat navmax
    .ok (radialOpt a)
  .ok (dts, D)

end

end Ddm
end Py
end Colloids
