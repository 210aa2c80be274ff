import Verif.Parallel.Model
import Verif.Rdf.Model

/-!
# `Particles::Binner::operator<<` with several threads: lib/particles.cpp:780-789

The loop on the selection is `#pragma omp parallel for schedule(dynamic)` and the histogram is shared, without
protection.
-/

namespace Colloids

namespace Parallel

/-- The shared variables of `RdfBinner`, lib/particles.hpp:184-200: a bin of `g` or `count`. -/
inductive Cell
  | bin (r : Nat)
  | count
  deriving DecidableEq

/-- `RdfBinner::operator()`, lib/particles.hpp:195-199: the two increments, for a histogram of `n` bins. -/
noncomputable def binOps (ps : Particles ℝ) (scale : ℝ) (n p q : Nat) : R (List (Cell × Nat)) := do
  let y ← ps.at_ q
  let x ← ps.at_ p
  let r := ⌊√(dot3 (y - x) (y - x)) * scale⌋₊
  if r < n then pure [(.bin r, 1), (.count, 1)] else throw Fault.ub

/-- The body of the loop for the particle `p`, lib/particles.cpp:785-787. -/
noncomputable def fillIter (ps : Particles ℝ) (cutoff scale : ℝ) (n p : Nat) : R (List (Cell × Nat)) := do
  let around ← Particles.getEuclidianNeighboursOf Particles.geometry ps p cutoff
  let ops ← around.mapM (binOps ps scale n p)
  pure ops.flatten

/-- The increments of each iteration of the loop. -/
noncomputable def fillIters (ps : Particles ℝ) (cutoff scale : ℝ) (n : Nat) (selection : List Nat) :
    R (List (List (Cell × Nat))) :=
  selection.mapM (fillIter ps cutoff scale n)

/-- `h` is a possible content of `g` after the loop, when it contains `g` before. -/
def FillEnds (iters : List (List (Cell × Nat))) (g h : Nat → Nat) : Prop :=
  ∃ mem mem', Ends 0 (iters.map incrs) mem mem' ∧ (∀ r, mem (.bin r) = g r) ∧ ∀ r, mem' (.bin r) = h r

end Parallel

end Colloids
