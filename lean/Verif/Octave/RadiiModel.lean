import Verif.Common
import Mathlib.Analysis.SpecialFunctions.Pow.Real
import Mathlib.Analysis.SpecialFunctions.Log.Basic
import Mathlib.Analysis.SpecialFunctions.Sqrt

/-! # Blurring radii and sizes of an octave, octavefinder.cpp:828-831, 973-1039, octavefinder.hpp:49-51

Real numbers stand for `double`. The filters of OpenCV are represented by their radius. -/

namespace Colloids
namespace Octave

/-- `OctaveFinder::fill_iterative_radii`, octavefinder.cpp:976-978, and OctaveFinder3D, 1010-1012. -/
noncomputable def targetSigma (preblur : ℝ) (n i : Nat) : ℝ := preblur * (2 : ℝ) ^ ((i : ℝ) / (n : ℝ))

/-- The prefactor: octavefinder.cpp:981-984 (`flat` if the height or the width is 1). -/
noncomputable def prefactor2 (flat : Bool) (n : Nat) : ℝ :=
  if flat then √(2 * Real.log 2 / n / ((2 : ℝ) ^ (2 / (n : ℝ)) - 1))
  else 2 * √(Real.log 2 / n / ((2 : ℝ) ^ (2 / (n : ℝ)) - 1))

/-- The prefactor in three dimensions, octavefinder.cpp:1014. -/
noncomputable def prefactor3 (n : Nat) : ℝ := √(6 * Real.log 2 / n / ((2 : ℝ) ^ (2 / (n : ℝ)) - 1))

/-- The sizes, octavefinder.cpp:985-987, 1015-1017. The conversion to `int` truncates; the numbers are positive. -/
noncomputable def layerSize (prefactor preblur : ℝ) (n i : Nat) : Int :=
  ⌊targetSigma preblur n i * prefactor + 1 / 2⌋

/-- The iterative radii, octavefinder.cpp:989-991, 1019-1021. -/
noncomputable def iterativeRadius (preblur : ℝ) (n i : Nat) : ℝ :=
  √(targetSigma preblur n (i + 1) * targetSigma preblur n (i + 1) - targetSigma preblur n i * targetSigma preblur n i)

/-- `get_iterative_radius(larger, smaller)`, octavefinder.cpp:828-831. The square root of a negative number is not a
number: `none`. -/
noncomputable def radiusBetween (preblur : ℝ) (n : Nat) (larger smaller : ℝ) : Option ℝ :=
  let d := (2 : ℝ) ^ (2 * larger / n) - (2 : ℝ) ^ (2 * smaller / n)
  if d < 0 then none else some (preblur * √d)

/-- `OctaveFinder::scale`, octavefinder.hpp:49-51. -/
noncomputable def scaleRadius (prefactor preblur : ℝ) (n : Nat) (r : ℝ) : ℝ :=
  prefactor * preblur * (2 : ℝ) ^ ((r + 1) / n)

end Octave
end Colloids
