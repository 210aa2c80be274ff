import Verif.DynField.Model
import Verif.Dyn.Model

/-!
# Model of `mains/avpos.cpp`: positions averaged in time

Numbers are in a linear ordered field. The film is loaded (C126) before; the files are written with
`Particles::exportToFile` (C40), here only the positions that are written are kept.
-/

namespace Colloids

namespace Mains

open Dyn

variable {G : Type} [Field G] [LinearOrder G]

/-- `VectorDynamicField` lib/fields.hpp:187-198 (`isNull`: the largest squared component does not change one) and the
division of line 146. -/
def coordOps : FieldOps (Coord G) where
  isNull := fun v => decide (1 + max (max (v 0 * v 0) (v 1 * v 1)) (v 2 * v 2) = 1)
  div := fun v n => fun a => v a / (n : G)

/-- The export loop mains/avpos.cpp:76-84 up to the call to `exportToFile`: `std::copy` of the view in the positions of
the frame; a view longer than the frame would be written past its end. -/
def avposFrame (D : DynParts G) (f : DynField (Coord G)) (t : Nat) : R (List (Coord G)) := do
  let v ← f.view t
  let ps ← getR D.positions t
  DynField.copyInto v ps.pos

/-- mains/avpos.cpp:65-84: the positions of each file, for the interval `tau`. The number of time steps of the header
is the number of frames that have been loaded. -/
def avpos (D : DynParts G) (tau : Nat) : R (List (List (Coord G))) := do
  let D' ← removeDrift D
  let f ← DynField.pushAll coordOps D'.trajectories tau (D'.positions.map (·.pos))
  (List.range D'.positions.length).mapM (avposFrame D' f)

end Mains

end Colloids
