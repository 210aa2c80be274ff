import Mathlib.LinearAlgebra.Matrix.NonsingularInverse
import Mathlib.Data.Real.Basic
import Verif.Py.LinkerModel

/-! # Sub-pixel displacements, elongation and 16 bits images in python: python/colloids/track.py

Real numbers for doubles. -/

namespace Colloids
namespace Py
namespace Local

noncomputable section

/-- An image of any dimension. Only pixels further than 2 pixels from the borders are considered, so that the images have no border. -/
abbrev Im (n : Nat) : Type := (Fin n → ℤ) → ℝ

/-- `correlate1d` of scipy with three weights, along an axis. -/
def corr1 {n : Nat} (w : ℝ × ℝ × ℝ) (b : Fin n) (f : Im n) : Im n :=
  fun c => w.1 * f (c - Pi.single b 1) + w.2.1 * f c + w.2.2 * f (c + Pi.single b 1)

/-- `sobel` of scipy. -/
def sobel {n : Nat} (a : Fin n) (f : Im n) : Im n :=
  ((List.finRange n).filter (· ≠ a)).foldl (fun g b => corr1 (1, 2, 1) b g) (corr1 (-1, 0, 1) a f)

/-- `grad[sl]`, python/colloids/track.py:211 and 217. -/
def grad {n : Nat} (f : Im n) (c : Fin n → ℤ) : Fin n → ℝ := fun a => sobel a f c

/-- `hess[sl]`, python/colloids/track.py:212-213. -/
def hess {n : Nat} (f : Im n) (c : Fin n → ℤ) : Matrix (Fin n) (Fin n) ℝ := Matrix.of fun a i => sobel a (sobel i f) c

/-- `self.hess` in `LocalDispl`, python/colloids/track.py:192-195: one half of the matrix is computed and copied to the other one. -/
def hessQuick {n : Nat} (f : Im n) (c : Fin n → ℤ) : Matrix (Fin n) (Fin n) ℝ :=
  Matrix.of fun a b => if a ≤ b then sobel b (sobel a f) c else sobel a (sobel b f) c

/-- The displacement and the value, python/colloids/track.py:197-199 and 215-219. A matrix that has no inverse is an error. -/
def dispOf {n : Nat} (v : ℝ) (g : Fin n → ℝ) (h : Matrix (Fin n) (Fin n) ℝ) : R ((Fin n → ℝ) × ℝ) :=
  if h.det = 0 then .error .logicError
  else
    let dc := (-4 ^ (n - 1) : ℝ) • h⁻¹.mulVec g
    .ok (dc, v + 1 / 2 * dotProduct g dc)

/-- `local_disp`, python/colloids/track.py:206-219, further than 2 pixels from the borders: the reflections of scipy at the sides of the 5 pixels wide
neighbourhood do not reach its center. -/
def localDisp {n : Nat} (c : Fin n → ℤ) (f : Im n) : R ((Fin n → ℝ) × ℝ) := dispOf (f c) (grad f c) (hess f c)

/-- `LocalDispl.__call__`, python/colloids/track.py:184-199, further than 2 pixels from the borders. -/
def quickDisp {n : Nat} (c : Fin n → ℤ) (f : Im n) : R ((Fin n → ℝ) × ℝ) := dispOf (f c) (grad f c) (hessQuick f c)

open Classical in
/-- `elongated`, python/colloids/track.py:221-235, for the layer `f` of a 2D image, further than 2 pixels from the borders. A null determinant divides by zero:
infinity, or not a number. -/
def elongated (c : Fin 2 → ℤ) (f : Im 2) (r : ℝ) : Bool :=
  let h := hess f c
  if h.det < 0 then true
  else if h.det = 0 then decide (h.trace ≠ 0)
  else decide (h.trace ^ 2 / h.det > (r + 1) ^ 2 / r)

/-- `readTIFF16`, python/colloids/track.py:36-46, from the bytes that PIL gives, row after row, and the width and the height in `im.size`. -/
def readTIFF16 (width height : Nat) (bytes : List Nat) (bigendian : Bool) : R (List (List Nat)) :=
  if bytes.length ≠ width * height * 2 then .error .invalidArgument
  else .ok ((List.range width).map fun i => (List.range height).map fun j =>
    let a := bytes.getD ((i * height + j) * 2) 0
    let b := bytes.getD ((i * height + j) * 2 + 1) 0
    if bigendian then (a <<< 8) + b else (b <<< 8) + a)

end

end Local
end Py
end Colloids
