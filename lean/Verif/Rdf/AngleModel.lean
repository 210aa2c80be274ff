import Verif.Particles.Model
import Mathlib.Analysis.Real.Sqrt
import Mathlib.Analysis.SpecialFunctions.Trigonometric.Inverse
import Mathlib.Algebra.Order.Floor.Semiring

/-! # Distribution of the angles between bonds: lib/particles.cpp:157-168, 609-628

Exact real arithmetic. -/

namespace Colloids
namespace Rdf

/-- `Particles::getAngle`, lib/particles.cpp:162-168. `none` is the NaN of `0/0`. -/
noncomputable def getAngle (ps : Particles ℝ) (origin a b : Nat) : R (Option ℝ) := do
  let xa ← ps.at_ a
  let xo ← ps.at_ origin
  let xb ← ps.at_ b
  let va := xa - xo
  let vb := xb - xo
  pure (if √(dot3 va va * dot3 vb vb) = 0 then none
    else some (Real.arccos (dot3 va vb / √(dot3 va va * dot3 vb vb))))

/-- `angD[(size_t)(getAngle(...) * 180.0 / M_PI)] = scale`, lib/particles.cpp:625. The conversion of a NaN is
undefined, and so is an index out of the array. -/
noncomputable def setAngle (ps : Particles ℝ) (scale : ℝ) (origin a b : Nat) (angD : List ℝ) : R (List ℝ) := do
  match ← getAngle ps origin a b with
  | none => throw .ub
  | some θ => setR angD ⌊θ * 180 / Real.pi⌋₊ scale

/-- The loop lib/particles.cpp:623-625. -/
noncomputable def angleRow (ps : Particles ℝ) (scale : ℝ) (numPt : Nat) (ngbs : List Nat) (a x : Nat)
    (angD : List ℝ) : R (List ℝ) :=
  (List.range' (a + 1) (ngbs.length - (a + 1))).foldlM (fun angD b => do
    let y ← getR ngbs b
    if numPt ≠ y then setAngle ps scale numPt x y angD else pure angD) angD

/-- `scale`, lib/particles.cpp:619: `(nb-1)*(nb-2)/2` is an integer. -/
noncomputable def angleScale (nb : Nat) : ℝ := if 2 < nb then 1 / (((nb - 1) * (nb - 2) / 2 : Nat) : ℝ) else 1

/-- `Particles::getAngularDistribution`, lib/particles.cpp:610-628, `ngbs` being the neighbours of `numPt`. -/
noncomputable def getAngularDistribution (ps : Particles ℝ) (numPt : Nat) (ngbs : List Nat) : R (List ℝ) :=
  if 1 < ngbs.length then
    (List.range ngbs.length).foldlM (fun angD a => do
      let x ← getR ngbs a
      if numPt ≠ x then angleRow ps (angleScale ngbs.length) numPt ngbs a x angD else pure angD)
      (List.replicate 180 0)
  else pure (List.replicate 180 0)

end Rdf
end Colloids
