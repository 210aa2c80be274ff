import Mathlib.Analysis.SpecialFunctions.Pow.Real
import Mathlib.Algebra.Order.Floor.Ring
import Verif.Common

/-! # Neighbourhood of a particle and its intensity profile: python/colloids/lif.py:611-638

Indices and sizes are floats in the code: an old numpy, that truncates them, is needed. -/

namespace Colloids
namespace Py
namespace Radius

/-- `box[0,d], box[1,d]`, lif.py:612, for an image with `n` pixels in this dimension -/
noncomputable def box (n : Nat) (p r : ℝ) : Int × Int := (⌊max 0 (p - r)⌋, ⌊min (n : ℝ) (p + r + 1)⌋)

/-- One dimension of `getNeighbourhood`, lif.py:611-615: the slice and the coordinate of the center. A slice ends at the end of the data. -/
noncomputable def neighbourhood {A : Type} (image : List A) (p r : ℝ) : List A × ℝ :=
  let b := box image.length p r
  ((image.drop b.1.toNat).take (b.2 - b.1).toNat, p - b.1)

/-- The square distance of a pixel, lif.py:618-624, before it is stored -/
noncomputable def sqDist (zratio : ℝ) (center : Fin 3 → ℝ) (i j k : Nat) : ℝ :=
  (i - center 0) ^ 2 + (j - center 1) ^ 2 + (k - center 2) ^ 2 * zratio ^ 2

/-- What is stored in `dist`, lif.py:620-624. `np.empty_like(ngb)` has the type of the image, bytes for those read by the module: the number is truncated, modulo 256. -/
noncomputable def stored (d : ℝ) : Nat := ⌊d⌋₊ % 256

/-- `l[i] += x` -/
def addAt (l : List ℝ) (i : Nat) (x : ℝ) : R (List ℝ) :=
  match l[i]? with
  | some y => .ok (l.set i (y + x))
  | none => .error .outOfRange

/-- The two additions, lif.py:628-631. `st` is `(nbs, val)`. -/
noncomputable def addPixel (rmax precision : ℝ) (st : List ℝ × List ℝ) (x : ℝ × ℝ) : R (List ℝ × List ℝ) :=
  if (stored x.2 : ℝ) < rmax ^ 2 then do
    let i := ⌊Real.sqrt (stored x.2) / precision⌋₊
    let nbs ← addAt st.1 i 1
    let val ← addAt st.2 i x.1
    pure (nbs, val)
  else pure st

/-- The histograms of `getRadius`, lif.py:625-631, for the values and square distances of the pixels -/
noncomputable def histograms (rmax precision : ℝ) (pixels : List (ℝ × ℝ)) : R (List ℝ × List ℝ) :=
  pixels.foldlM (addPixel rmax precision) (List.replicate ⌊rmax / precision⌋₊ 0, List.replicate ⌊rmax / precision⌋₊ 0)

/-- Item `k` of `intensity`, lif.py:632. The filter and the search of the minimum that follow are not modelled. -/
noncomputable def intensity (st : List ℝ × List ℝ) (k : Nat) : ℝ := (st.2.take (k + 1)).sum / (st.1.take (k + 1)).sum

end Radius
end Py
end Colloids
