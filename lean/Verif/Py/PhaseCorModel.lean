import Mathlib.Analysis.SpecialFunctions.Complex.CircleAddChar
import Mathlib.Data.ZMod.Basic
import Verif.Common
import Verif.Py.TrackDrawModel

/-!
# `python/colloids/phaseCorrelation.py`

The module is in python 2 (`print` without parentheses): `/` between integers rounds down.  Complex numbers are
exact; `fft2` and `ifft2` are the sums they are defined by.  The window functions and the display are not modelled.
-/

namespace Colloids
namespace Py
namespace PhaseCor

open Colloids.Py.Track ComplexConjugate

noncomputable section

variable {m n : Nat} [NeZero m] [NeZero n]

/-- `numpy.fft.fft2` -/
def fft2 (a : ZMod m → ZMod n → ℂ) (k : ZMod m) (l : ZMod n) : ℂ :=
  ∑ x : ZMod m, ∑ y : ZMod n, ZMod.stdAddChar (-(x * k)) * ZMod.stdAddChar (-(y * l)) * a x y

/-- `numpy.fft.ifft2` -/
def ifft2 (a : ZMod m → ZMod n → ℂ) (x : ZMod m) (y : ZMod n) : ℂ :=
  (∑ k : ZMod m, ∑ l : ZMod n, ZMod.stdAddChar (k * x) * ZMod.stdAddChar (l * y) * a k l) / ((m : ℂ) * (n : ℂ))

open Classical in
/-- `phaseCorrel`; `none` is an array without any number: `0 / 0` in one of the coefficients.
phaseCorrelation.py:42-46 -/
def phaseCorrel (a b : ZMod m → ZMod n → ℂ) : Option (ZMod m → ZMod n → ℂ) :=
  let R := fun k l => fft2 a k l * conj (fft2 b k l)
  if ∃ k l, R k l = 0 then none
  else some (ifft2 fun k l => R k l / ((‖R k l‖ : ℝ) : ℂ))

end

/-- the pixels in the order of `ravel` -/
def pixels (m n : Nat) : List (Nat × Nat) := (List.range m).flatMap fun i => (List.range n).map fun j => (i, j)

variable {F : Type} [Field F] [LinearOrder F]

/-- `argmax` and `unravel_index` of an array that is not empty -/
def argmax2 (m n : Nat) (c : Nat → Nat → F) : Nat × Nat := argmaxBy (fun p => c p.1 p.2) (0, 0) (pixels m n)

/-- one coordinate of the displacement.  phaseCorrelation.py:60-62 -/
def wrap (n i : Nat) : Int := if n / 2 < i then (i : Int) - n else i

/-- `getDispl` of real numbers; `argmax` of no number is the first index.  phaseCorrelation.py:56-64 -/
def getDispl (m n : Nat) (c : Option (Nat → Nat → F)) : Int × Int :=
  match c with
  | none => (wrap m 0, wrap n 0)
  | some c => let l := argmax2 m n c; (wrap m l.1, wrap n l.2)

/-- `numpy.fft.fftshift` in one direction: where index `i` comes from -/
def unshift (n i : Nat) : Nat := (i + (n - n / 2)) % n

/-- `getDisplConfidence`; the confidence is `none` if it is infinite or if the window covers the array.
phaseCorrelation.py:66-79 -/
def getDisplConfidence (m n : Nat) (c : Nat → Nat → F) : (Int × Int) × Option F :=
  let b := fun i j => c (unshift m i) (unshift n j)
  let l := argmax2 m n b
  let first := c (argmax2 m n c).1 (argmax2 m n c).2
  let others := (pixels m n).filter fun p =>
    !(decide (l.1 - 2 ≤ p.1 ∧ p.1 < min (l.1 + 3) m) && decide (l.2 - 2 ≤ p.2 ∧ p.2 < min (l.2 + 3) n))
  ((((l.1 : Int) - (m / 2 : Nat)), ((l.2 : Int) - (n / 2 : Nat))),
    match others with
    | [] => none
    | o :: rest =>
      let q := argmaxBy (fun p => b p.1 p.2) o rest
      if b q.1 q.2 = 0 then none else some (first / b q.1 q.2))

/-! ### Interrogation windows -/

/-- one of the two numbers of `get_field_shape`.  phaseCorrelation.py:105-128 -/
def fieldShape (size window overlap : Nat) : Int := ((size : Int) - window) / ((window : Int) - overlap) + 1

/-- `sub_windows` of an array of `H` lines of `W` elements whose memory is `mem`: windows in order, of lines of
elements.  `step` is not zero (`ZeroDivisionError`); negative steps are not modelled.  A negative shape is an error; an
element out of the memory is undefined behaviour (it is only read when used: here at once).
phaseCorrelation.py:87-103 (the strides are counted in elements) -/
def subWindows {α : Type} (mem : List α) (H W window overlap : Nat) : R (List (List (List α))) :=
  if window ≤ overlap then .error .invalidArgument
  else
    let step := window - overlap
    let R := fieldShape H window overlap
    let C := fieldShape W window overlap
    if R < 0 ∨ C < 0 then .error .invalidArgument
    else (pixels R.toNat C.toNat).mapM fun rc =>
      (List.range window).mapM fun u => (List.range window).mapM fun v =>
        match mem[rc.1 * (W * step) + rc.2 * step + u * W + v]? with
        | some x => .ok x
        | none => .error .ub

/-- `get_coordinates`: the coordinates `x` and `y` of the points of the grid, line by line; `meshgrid` of `x` and of the reversed `y`.
A negative number of points is none.  phaseCorrelation.py:130-160 -/
def getCoordinates (H W window overlap : Nat) : R (List (List (F × F))) :=
  if window ≤ overlap then .error .invalidArgument
  else
    let pos := fun (k : Nat) => ((k * (window - overlap) : Nat) : F) + ((window : F) - 1) / 2
    let xs := (List.range (fieldShape W window overlap).toNat).map pos
    let ys := (List.range (fieldShape H window overlap).toNat).map pos
    .ok (ys.reverse.map fun y => xs.map fun x => (x, y))

end PhaseCor
end Py
end Colloids
