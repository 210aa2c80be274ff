import Mathlib.Analysis.SpecialFunctions.Pow.Real
import Verif.Py.LocalModel

/-! # Centers of blobs and centers of the slices of a stack in python: python/colloids/track.py

Real numbers for doubles. -/

namespace Colloids
namespace Py
namespace Blob

open Local

noncomputable section

open Classical in
/-- `np.absolute(d).max()>0.5`, python/colloids/track.py:259 and 263. -/
def outside {n : Nat} (d : Fin (n + 1) → ℝ) : Bool := decide (∃ a, |d a| > 1 / 2)

open Classical in
/-- `nc`, python/colloids/track.py:260. -/
def moved {n : Nat} (c : Fin (n + 1) → ℤ) (d : Fin (n + 1) → ℝ) : Fin (n + 1) → ℤ :=
  fun a => (c a + if d a > 1 / 2 then 1 else 0) - if d a < -(1 / 2) then 1 else 0

/-- An item of `centers`, `dcenters` and `vals`. -/
structure Cen (n : Nat) where
  pixel : Fin (n + 1) → ℤ
  disp : Fin (n + 1) → ℝ
  val : ℝ

/-- The second try once the displacement at the neighbouring pixel is known, python/colloids/track.py:262-268. -/
def second {n : Nat} (first : Cen n) (nc : Fin (n + 1) → ℤ) (ndc : Fin (n + 1) → ℝ) (nv : ℝ) : Cen n :=
  if outside ndc then ⟨fun _ => -1, first.disp, first.val⟩ else ⟨nc, ndc, nv⟩

/-- One turn of the loop on the centers, python/colloids/track.py:258-268; `loc` gives the displacement and the value at a pixel. -/
def turn {n : Nat} (loc : (Fin (n + 1) → ℤ) → R ((Fin (n + 1) → ℝ) × ℝ)) (first : Cen n) : R (Cen n) :=
  if outside first.disp then do
    let r ← loc (moved first.pixel first.disp)
    pure (second first (moved first.pixel first.disp) r.1 r.2)
  else pure first

open Classical in
/-- `good`, python/colloids/track.py:270. -/
def good {n : Nat} (c : Cen n) : Bool := decide (c.pixel 0 > -1) && decide (c.val < 0)

/-- A row of the result, python/colloids/track.py:280. -/
def row {n : Nat} (c : Cen n) : (Fin (n + 1) → ℝ) × ℝ := (fun a => c.pixel a + c.disp a, c.val)

/-- `find_blob`, python/colloids/track.py:250-280, from the coordinates of the minima that are not on the borders (line 249). How the image is blurred and where
its minima are (lines 240-249) is given. The first coordinate is the scale. -/
def findBlob {n : Nat} (loc : (Fin (n + 1) → ℤ) → R ((Fin (n + 1) → ℝ) × ℝ)) (centers : List (Fin (n + 1) → ℤ)) : R (List ((Fin (n + 1) → ℝ) × ℝ)) := do
  let first ← centers.mapM fun c => do
    let r ← loc c
    pure (⟨c, r.1, r.2⟩ : Cen n)
  let cs ← first.mapM (turn loc)
  pure ((cs.filter good).map row)

/-! ## save_2Dcenters -/

/-- A row of `find_blob` for an image: scale, ordinate, abscissa and value. -/
structure Row where
  s : ℝ
  y : ℝ
  x : ℝ
  v : ℝ

/-- A row of `centers` in `save_2Dcenters`: abscissa, ordinate, radius and value. -/
structure Saved where
  x : ℝ
  y : ℝ
  r : ℝ
  v : ℝ

/-- The radius, python/colloids/track.py:288. -/
def radius (s : ℝ) : ℝ := 1.6 / √2 * (2 : ℝ) ^ (s / 3)

/-- `centers` for a slice, python/colloids/track.py:284-288, from the blobs of the image with doubled pixels and those of the image. -/
def centers2D (doubled single : List Row) : List Saved :=
  (doubled.map (fun r => (⟨r.s * 1, r.y * 0.5, r.x * 0.5, r.v * 1⟩ : Row)) ++
    single.map (fun r => (⟨r.s + 3, r.y + 0, r.x + 0, r.v + 0⟩ : Row))).map fun r => ⟨r.x, r.y, radius r.s, r.v⟩

/-- `np.repeat(np.repeat(im, 2, 0), 2,1)`, python/colloids/track.py:285. -/
def doubledIm (im : Nat → Nat → ℝ) : Nat → Nat → ℝ := fun y x => im (y / 2) (x / 2)

/-- The head and the number of rows of the file `.dat`, python/colloids/track.py:289-296. -/
def head2D (doubled single : List Row) : (Nat × Nat × Nat) × (Nat × Nat × ℝ) :=
  ((1, (centers2D doubled single).length, 1), (256, 256, 1.6 * √2 * (2 : ℝ) ^ ((7 : ℝ) / 3)))

end

end Blob
end Py
end Colloids
