import Verif.Particles.Model
import Verif.Index.Model
import Mathlib.Analysis.Real.Sqrt
import Mathlib.Analysis.SpecialFunctions.Trigonometric.Basic
import Mathlib.Algebra.Order.Floor.Semiring

/-! # Radial distribution function: lib/particles.cpp:780-815, lib/particles.hpp:165-200

Exact real arithmetic. The loop on the selection is parallel in the code, with unprotected increments of
the histogram; the model is sequential. `Verif/Parallel/BinnerModel.lean` has the threads. -/

namespace Colloids
namespace Rdf

/-- `RdfBinner::operator()`, lib/particles.hpp:191-195: the histogram and the number of pairs. The
`double`s of the histogram are natural numbers until it is normalised. -/
noncomputable def bin (ps : Particles ℝ) (scale : ℝ) (s : List Nat × Nat) (p q : Nat) :
    R (List Nat × Nat) := do
  let y ← ps.at_ q
  let x ← ps.at_ p
  let g ← modifyR s.1 ⌊√(dot3 (y - x) (y - x)) * scale⌋₊ (· + 1)
  pure (g, s.2 + 1)

/-- `Binner::operator<<`, lib/particles.cpp:780-789. -/
noncomputable def fill (ps : Particles ℝ) (cutoff scale : ℝ) (selection : List Nat)
    (s : List Nat × Nat) : R (List Nat × Nat) :=
  selection.foldlM (fun s p => do
    let around ← Particles.getEuclidianNeighboursOf Particles.geometry ps p cutoff
    around.foldlM (fun s q => bin ps scale s p q) s) s

/-- `RdfBinner::normalize`, lib/particles.cpp:792-800, given the number density. Divisions by zero are
not modelled. -/
noncomputable def normalize (density scale : ℝ) (n : Nat) (g : List Nat) : R (List ℝ) := do
  let g ← setR (g.map (fun (k : Nat) => (k : ℝ))) 0 0
  let norm := 4 * Real.pi * density / scale ^ 3 * n
  pure (g.mapIdx (fun r v => if 1 ≤ r then v / norm / (r * r) else v / norm))

/-- `Particles::getNumberDensity`, lib/particles.cpp:930-953. -/
noncomputable def getNumberDensity (ps : Particles ℝ) : R ℝ := do
  let b ← match ps.index with
    | some t => RTree.getOverallBox t
    | none => do
      let front ← getR ps.pos 0
      pure (ps.pos.foldl (fun (b : Box 3 ℝ) x =>
        ⟨fun a => min (b.lo a) (x a), fun a => max (b.hi a) (x a)⟩) ⟨front, front⟩)
  pure (ps.pos.length / b.area)

/-- `Particles::getRdf`, lib/particles.cpp:803-809, with the constructors lib/particles.hpp:172-189. -/
noncomputable def getRdf (ps : Particles ℝ) (selection : List Nat) (n : Nat) (nbDiameterCutOff : ℝ) :
    R (List ℝ) := do
  let cutoff := 2 * ps.radius * nbDiameterCutOff
  let s ← fill ps cutoff (n / cutoff) selection (List.replicate n 0, 0)
  let density ← getNumberDensity ps
  normalize density (n / cutoff) selection.length s.1

/-- `Particles::getRdf` on the whole set, lib/particles.cpp:811-815. Without an index the null pointer is
dereferenced. -/
noncomputable def getRdfAll (ps : Particles ℝ) (n : Nat) (nbDiameterCutOff : ℝ) : R (List ℝ) := do
  match ps.index with
  | none => throw .ub
  | some t =>
    let inside ← RStarIndex.getInside t (2 * ps.radius * nbDiameterCutOff) false
    getRdf ps inside n nbDiameterCutOff

/-- The `while` loops of `removeOutside`, lib/particles.hpp:329, 333: `BOO[p++] = T()` until `p` is
`q`. -/
def clear {α : Type} (null : α) (boo : List α) (p q : Nat) : R (List α) :=
  (List.range' p (q - p)).foldlM (fun b i => setR b i null) boo

/-- `Particles::removeOutside`, lib/particles.hpp:322-335, for `size` particles. -/
def removeOutside {α : Type} (null : α) (size : Nat) (inside : List Nat) (boo : List α) :
    R (List α) := do
  let s ← inside.foldlM (fun (s : Nat × List α) i => do
    let boo ← clear null s.2 s.1 i
    pure (i + 1, boo)) (0, boo)
  clear null s.2 s.1 size

end Rdf
end Colloids
