import Verif.Rdf.Model
import Verif.Boo.RotProps2

/-! # Correlation of the bond order with distance: lib/particles.hpp:219-232, 310-320, lib/particles.cpp:817-828

Exact real arithmetic, sequential loop, as in `Verif.Rdf.Model`. -/

namespace Colloids
namespace Rdf
open Boo

/-- The histogram of the pairs (`g`) and of the products (`gl`). -/
abbrev GlState := List Nat × List ℝ

/-- The body of `GlBinner::operator()`, lib/particles.hpp:315-318, for the tensors `a` of `p` and `b` of `q`. The
counter `count` is not used afterwards. -/
noncomputable def glPair (ps : Particles ℝ) (scale : ℝ) (l : Nat) (s : GlState) (p q : Nat) (a b : BooData) :
    R GlState := do
  let y ← ps.at_ q
  let x ← ps.at_ p
  let r := ⌊√(dot3 (y - x) (y - x)) * scale⌋₊
  let g ← modifyR s.1 r (· + 1)
  let v ← innerProduct a b l
  let gl ← modifyR s.2 r (· + v)
  pure (g, gl)

/-- `GlBinner::operator()`, lib/particles.hpp:311-320. -/
noncomputable def glBin (ps : Particles ℝ) (scale : ℝ) (boo : List BooData) (l : Nat) (s : GlState) (p q : Nat) :
    R GlState := do
  let a ← getR boo p
  let na ← isnull a
  if na then pure s
  else do
    let b ← getR boo q
    let nb ← isnull b
    if nb then pure s else glPair ps scale l s p q a b

/-- `Binner::operator<<`, lib/particles.cpp:780-789, with the operator of `GlBinner`. -/
noncomputable def glFill (ps : Particles ℝ) (cutoff scale : ℝ) (boo : List BooData) (l : Nat) (selection : List Nat)
    (s : GlState) : R GlState :=
  selection.foldlM (fun s p => do
    let around ← Particles.getEuclidianNeighboursOf Particles.geometry ps p cutoff
    around.foldlM (fun s q => glBin ps scale boo l s p q) s) s

/-- `GlBinner::normalize`, lib/particles.cpp:818-826, without the last line (`RdfBinner::normalize` does not change
`gl`). The test `1.0+g[r]*g[r] == 1.0` is that of a null count. -/
noncomputable def glNormalize (s : GlState) : R (List ℝ) := do
  let gl ← setR s.2 0 0
  let norm : ℝ := 13 / (4 * Real.pi)
  pure (gl.mapIdx fun r v =>
    if 1 ≤ r then (if s.1.getD r 0 = 0 then 0 else v / (norm * (s.1.getD r 0 : ℝ))) else v)

/-- The constructor lib/particles.hpp:225-229, the binning of a selection and the normalisation. -/
noncomputable def getGl (ps : Particles ℝ) (boo : List BooData) (l : Nat) (selection : List Nat) (n : Nat)
    (nbDiameterCutOff : ℝ) : R (List ℝ) := do
  let cutoff := 2 * ps.radius * nbDiameterCutOff
  let s ← glFill ps cutoff (n / cutoff) boo l selection (List.replicate n 0, List.replicate n 0)
  glNormalize s

end Rdf
end Colloids
