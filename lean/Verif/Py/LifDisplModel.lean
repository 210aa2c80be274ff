import Verif.Py.PhaseCorModel

/-! # Displacements between the images of a series: `getDisplacements2D`, python/colloids/lif.py:559-588

The default `Z` needs the division of integers of python 2, which rounds down. Complex numbers are exact and the Fourier transforms are the sums they are defined by.
The images have `m` lines and `n` columns; `irfft2` gives as many columns as `rfft2` got only if `n` is even: the model is for an even `n`. -/

namespace Colloids
namespace Py
namespace LifDispl

open Colloids.Py.PhaseCor ComplexConjugate

noncomputable section

variable {m n : Nat} [NeZero m] [NeZero n]

/-- `R[Ra>0] /= Ra[Ra>0]`, lif.py:579-580 -/
def normalized (z : ℂ) : ℂ := if 0 < ‖z‖ then z / ((‖z‖ : ℝ) : ℂ) else z

/-- `r`, lif.py:573, 578-581, of the images `a` and `b` -/
def correl (a b : ZMod m → ZMod n → ℝ) (x : ZMod m) (y : ZMod n) : ℝ :=
  (ifft2 (fun k l => normalized (fft2 (fun x y => (a x y : ℂ)) k l * conj (fft2 (fun x y => (b x y : ℂ)) k l))) x y).re

/-- The place of the peak, lif.py:582-584 -/
def peak (a b : ZMod m → ZMod n → ℝ) : Nat × Nat := argmax2 m n fun i j => correl a b i j

/-- `displs` after the loop, lif.py:571-586 -/
def peaks : List (ZMod m → ZMod n → ℝ) → List (Nat × Nat)
  | [] => []
  | a :: l => (0, 0) :: List.zipWith peak (a :: l) l

/-- A coordinate in `np.where`, lif.py:588 -/
def unwrap (size i : Nat) : Int := if i < size / 2 then i else (i : Int) - size

/-- `getDisplacements2D`, lif.py:559-588, of the images of the slice. `shape` is lines, columns: `shape[::-1]` is columns, lines.
The window, lif.py:568-570, has `n` lines of `m` columns: the product with an image is a `ValueError` for other shapes (`m` and `n` are more than 1). With a
window the images are `windowed`, which is not defined here. -/
def getDisplacements2D (windowed : (ZMod m → ZMod n → ℝ) → ZMod m → ZMod n → ℝ) (window : Bool) (frames : List (ZMod m → ZMod n → ℝ)) :
    R (List (Int × Int)) :=
  if window && decide (m ≠ n) then .error .invalidArgument
  else .ok ((peaks (if window then frames.map windowed else frames)).map fun p => (unwrap n p.1, unwrap m p.2))

end

end LifDispl
end Py
end Colloids
