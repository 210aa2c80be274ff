import Verif.Rdf.Model

/-! # Radial distribution function with periodic boundary conditions: lib/particles.cpp:780-815, lib/periodic.cpp:45-57

`Particles::getRdf` and the binners call the virtual functions of `PeriodicParticles`. Exact real arithmetic, sequential loop. -/

namespace Colloids
namespace Rdf

/-- `RdfBinner::operator()`, lib/particles.hpp:191-195, with `PeriodicParticles::getDiff`. -/
noncomputable def pbin (ps : Particles ℝ) (scale : ℝ) (s : List Nat × Nat) (p q : Nat) : R (List Nat × Nat) := do
  let d ← Periodic.getDiffBetween ps p q
  let g ← modifyR s.1 ⌊√(dot3 d d) * scale⌋₊ (· + 1)
  pure (g, s.2 + 1)

/-- `Binner::operator<<`, lib/particles.cpp:780-789, with `PeriodicParticles::selectEnclosed`. -/
noncomputable def pfill (ps : Particles ℝ) (cutoff scale : ℝ) (selection : List Nat) (s : List Nat × Nat) : R (List Nat × Nat) :=
  selection.foldlM (fun s p => do
    let around ← Particles.getEuclidianNeighboursOf Periodic.geometry ps p cutoff
    around.foldlM (fun s q => pbin ps scale s p q) s) s

/-- `PeriodicParticles::getNumberDensity`, lib/periodic.cpp:54-57. -/
noncomputable def pgetNumberDensity (ps : Particles ℝ) : ℝ := ps.pos.length / ps.bb.area

/-- `Particles::getRdf` of a selection, lib/particles.cpp:803-809, for `PeriodicParticles`. -/
noncomputable def pgetRdf (ps : Particles ℝ) (selection : List Nat) (n : Nat) (nbDiameterCutOff : ℝ) : R (List ℝ) := do
  let cutoff := 2 * ps.radius * nbDiameterCutOff
  let s ← pfill ps cutoff (n / cutoff) selection (List.replicate n 0, 0)
  normalize (pgetNumberDensity ps) (n / cutoff) selection.length s.1

/-- `Particles::getRdf` on the whole set, lib/particles.cpp:811-815, for `PeriodicParticles`: the selection is that of the index, which is not
virtual in the particles. -/
noncomputable def pgetRdfAll (ps : Particles ℝ) (n : Nat) (nbDiameterCutOff : ℝ) : R (List ℝ) := do
  match ps.index with
  | none => throw .ub
  | some t =>
    let inside ← RStarIndex.getInside t (2 * ps.radius * nbDiameterCutOff) false
    pgetRdf ps inside n nbDiameterCutOff

end Rdf
end Colloids
