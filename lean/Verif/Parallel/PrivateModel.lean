import Verif.Parallel.FilmModel
import Verif.Particles.Model
import Verif.DynField.Model

/-!
# Parallel loops of which every iteration has its own cells

lib/particles.cpp:148-150, lib/fields.hpp:127-136 and 145-147, lib/dynamicParticles.cpp:797-802, 1195, 1496-1498.
-/

namespace Colloids

namespace Parallel

/-! ## `x[p] = f(p)` -/

/-- `x'` is a possible value of the vector `x` of `n` elements after a parallel loop `x[p] = f(p)` where `f` does not
read `x`: the followers of `link`, lib/dynamicParticles.cpp:1496-1498. -/
def TableEnds {V : Type} (n : Nat) (f : Nat → V) (x x' : Nat → V) : Prop :=
  Ends (L := Unit) () ((List.range n).map (fun p => [Instr.store p (fun _ => f p)])) x x'

/-! ## `Particles::operator+=` -/

/-- `ps'` is a possible result of `ps += v`, lib/particles.cpp:144-155: `std::valarray` adds the coordinates one after
the other. -/
def ShiftEnds {G : Type} [Field G] [LinearOrder G] (ps : Particles G) (v : Coord G) (ps' : Particles G) : Prop :=
  ∃ mem : Nat × Fin 3 → G,
    Ends 0 ((List.range ps.pos.length).map (fun p => incrs [((p, 0), v 0), ((p, 1), v 1), ((p, 2), v 2)]))
      (fun c => (ps.pos[c.1]?.getD 0) c.2) mem ∧
    ps' = { ps with bb := ps.bb.translate v, pos := (List.range ps.pos.length).map (fun p a => mem (p, a)),
                    index := ps.index.map fun t => RTree.translate t v }

/-! ## `DynamicField::push_back` -/

/-- The elements of the row of values and of the row of divisors. -/
inductive FieldCell
  | val (p : Nat)
  | div (p : Nat)
  deriving DecidableEq

variable {V : Type} [Add V] [Zero V]

/-- What an iteration adds, lib/fields.hpp:130-131. -/
def binTerm (ops : FieldOps V) (ti : TrajIndex) (now : Nat) (frame : List V) (inv : List Nat) (p : Nat) :
    R (Option V) := do
  let trn ← getR inv p
  let tr ← getR ti.trajs trn
  if tr.exist now then
    let x ← getR frame (← tr.at_ now)
    pure (if ops.isNull x then none else some x)
  else pure none

/-- The body of the loop, lib/fields.hpp:133-134. A cell holds a pair of which the values use the first element and the
divisors the second. -/
def binBody (p : Nat) : Option V → List (Instr FieldCell (V × Nat) (V × Nat))
  | none => []
  | some x => [.load (.val p) (fun m _ => m), .store (.val p) (fun r => (r.1 + x, r.2)),
      .load (.div p) (fun m _ => m), .store (.div p) (fun r => (r.1, r.2 + 1))]

/-- The memory with a row of values and a row of divisors. -/
def rowMem (row : List V) (div : List Nat) : FieldCell → V × Nat
  | .val p => (row[p]?.getD 0, 0)
  | .div p => (0, div[p]?.getD 0)

/-- `rd` is a possible state of the two rows after the parallel loop, lib/fields.hpp:127-136. -/
def BinEnds (ops : FieldOps V) (ti : TrajIndex) (now : Nat) (frame : List V) (inv : List Nat) (row : List V)
    (div : List Nat) (rd : List (V × Nat)) : Prop :=
  ∃ terms mem, (List.range inv.length).mapM (binTerm ops ti now frame inv) = .ok terms ∧
    Ends (0, 0) ((List.range inv.length).map (fun p => binBody p (terms[p]?.getD none))) (rowMem row div) mem ∧
    rd = (List.range inv.length).map (fun p => ((mem (.val p)).1, (mem (.div p)).2))

/-- The parallel loop of division, lib/fields.hpp:145-147. -/
def DivideEnds (ops : FieldOps V) (row : List V) (div : List Nat) (row' : List V) : Prop :=
  ∃ mem, Ends (0, 0) ((List.range row.length).map (fun p =>
      [Instr.load (FieldCell.div p) (fun m r => (r.1, m.2)), .load (.val p) (fun m r => (m.1, r.2)),
       .store (.val p) (fun r => (ops.div r.1 (max 1 r.2), r.2))])) (rowMem row div) mem ∧
    row' = (List.range row.length).map (fun p => (mem (.val p)).1)

/-! ## The normalisation of `get_MSD_NGP` -/

variable {G : Type} [Field G] [LinearOrder G]

/-- The body of the loop of normalisation, lib/dynamicParticles.cpp:800-801, with `k` trajectories. A division by zero
gives `none`. -/
def normBody (radius : G) (k t : Nat) : List (Instr FilmCell (G × G × G) (Option G)) :=
  [.load (.nb t) (fun m r => (m.getD 0, r.2.1, r.2.2)), .load (.msd t) (fun m r => (r.1, m.getD 0, r.2.2)),
   .load (.ngp t) (fun m r => (r.1, r.2.1, m.getD 0)),
   .store (.ngp t) (fun r => (Dyn.quot (r.1 * k) (3 * r.2.1 * r.2.1)).map (r.2.2 * ·)),
   .store (.msd t) (fun r => Dyn.quot r.2.1 (r.1 * (2 * radius) ^ 2 * k))]

end Parallel

end Colloids
