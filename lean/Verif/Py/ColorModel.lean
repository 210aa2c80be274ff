import Mathlib.Analysis.SpecialFunctions.Pow.Real
import Mathlib.Analysis.SpecialFunctions.Trigonometric.Basic

/-! # Color scale: python/colloids/colors.py

The functions apply to each pixel of an image: a pixel is modelled, with real numbers. -/

namespace Colloids
namespace Py
namespace Color

/-- `where(y**3>0.008856, y**3, (y - 16.0 / 116.0) / 7.787)*ref/100`, colors.py:10 -/
noncomputable def unLab (y ref : ℝ) : ℝ := (if y ^ 3 > 0.008856 then y ^ 3 else (y - 16.0 / 116.0) / 7.787) * ref / 100

/-- gamma correction, colors.py:21 -/
noncomputable def gamma (v : ℝ) : ℝ := if v > 0.0031308 then 1.055 * v ^ ((1 : ℝ) / 2.4) - 0.055 else 12.92 * v

/-- clip, colors.py:23 -/
noncomputable def clip (v : ℝ) : ℝ := min (max v 0) 1

/-- `lab2rgb`, colors.py:4-23 -/
noncomputable def lab2rgb (l a b : ℝ) : ℝ × ℝ × ℝ :=
  let y := (l + 16) / 116.0
  let x := a / 500.0 + y
  let z := y - b / 200.0
  let X := unLab x 95.047
  let Y := unLab y 100
  let Z := unLab z 108.883
  (clip (gamma (X * 3.2406 + Y * -1.5372 + Z * -0.4986)),
   clip (gamma (X * -0.9689 + Y * 1.8758 + Z * 0.0415)),
   clip (gamma (X * 0.0557 + Y * -0.2040 + Z * 1.0570)))

/-- the coordinates `l, a, b` of `msh2rgb`, colors.py:26-29 -/
noncomputable def msh2lab (m s h : ℝ) : ℝ × ℝ × ℝ := (m * Real.cos s, m * Real.sin s * Real.cos h, m * Real.sin s * Real.sin h)

/-- `msh2rgb`, colors.py:25-30 -/
noncomputable def msh2rgb (m s h : ℝ) : ℝ × ℝ × ℝ :=
  let lab := msh2lab m s h
  lab2rgb lab.1 lab.2.1 lab.2.2

/-- the coordinates `m, s, h` of `colorscale`, colors.py:34-38; `np.mod(im, 1)` is the fractional part -/
noncomputable def scaleMsh (v centre extrema : ℝ) : ℝ × ℝ × ℝ :=
  let x := Int.fract v
  (2 * (extrema - centre) * |x - 0.5| + centre,
   1.08 * 2 * |0.5 - x|,
   if x < 0.5 then -1.1 - 2 * x * 0.561 else 1.061 - 2 * (x - 0.5) * 0.561)

/-- `colorscale`, colors.py:32-39 -/
noncomputable def colorscale (v centre extrema : ℝ) : ℝ × ℝ × ℝ :=
  let msh := scaleMsh v centre extrema
  msh2rgb msh.1 msh.2.1 msh.2.2

end Color
end Py
end Colloids
