import Verif.Parallel.Model
import Verif.Dyn.Model

/-!
# Averages over a film with several threads: lib/dynamicParticles.cpp

The loops of `getDrift`, of `getMSD` (with `t3` not null) and of `get_MSD_NGP` (with `t3` null) add to shared variables
without protection.
-/

namespace Colloids

namespace Parallel

open Dyn

variable {G : Type} [Field G] [LinearOrder G]

/-- `drift += getDiff(..)` for each trajectory, lib/dynamicParticles.cpp:519-521: `std::valarray` adds the coordinates
one after the other. -/
def driftIters (D : DynParts G) (sel : List Nat) (t0 t1 : Nat) : R (List (List (Fin 3 × G))) :=
  sel.mapM (fun tr => do
    let diff ← getDiff D tr t0 tr t1
    pure [(0, diff 0), (1, diff 1), (2, diff 2)])

/-- `d` is a possible result of `getDrift(selection, t0, t1)`, lib/dynamicParticles.cpp:514-525. -/
def DriftEnds (D : DynParts G) (sel : List Nat) (t0 t1 : Nat) (d : Coord G) : Prop :=
  if sel.length < 2 then d = 0 else
    ∃ iters mem, driftIters D sel t0 t1 = .ok iters ∧ Ends 0 (iters.map incrs) (fun _ => 0) mem ∧
      d = fun a => mem a / (sel.length : G)

/-- `sumSD[Dt] += getSD(..)` for each start, lib/dynamicParticles.cpp:673-675. -/
def msdIters (D : DynParts G) (sel : List Nat) (t0 t3 Dt : Nat) : R (List (List (Unit × G))) :=
  (List.range t3).mapM (fun start => do
    let sd ← getSD D sel (t0 + start) (t0 + start + Dt)
    pure [((), sd)])

/-- `l` is a possible result of `getMSD(selection, t0, t1, t3)` with `t3` not null and a selection that is not empty,
lib/dynamicParticles.cpp:651-656, 670-679. -/
def MsdEnds (D : DynParts G) (sel : List Nat) (t0 t1 t3 : Nat) (l : List G) : Prop :=
  l.length = t1 - t0 + 1 ∧ l[0]? = some 0 ∧ ∀ Dt, 1 ≤ Dt → Dt ≤ t1 - t0 →
    ∃ iters mem, msdIters D sel t0 t3 Dt = .ok iters ∧ Ends 0 (iters.map incrs) (fun _ => 0) mem ∧
      l[Dt]? = some (mem () / (t3 * sel.length))

/-- The shared arrays of `get_MSD_NGP`, before the normalisation. -/
inductive FilmCell
  | msd (lag : Nat)
  | ngp (lag : Nat)
  | nb (lag : Nat)
  deriving DecidableEq

/-- The body of the loop on `start` of `get_MSD_NGP`, lib/dynamicParticles.cpp:785-796. -/
def ngpIter (D : DynParts G) (sel : List Nat) (t0 t1 start : Nat) : R (List (FilmCell × G)) := do
  let rows ← (List.range' (start + 1) (t1 - start)).mapM (fun stop => do
    let l ← sel.mapM (fun tr => do
      let diff ← getDiff D tr t0 tr t1
      let sd := dot3 diff diff
      pure [(FilmCell.msd (stop - start), sd), (FilmCell.ngp (stop - start), sd * sd)])
    pure (l.flatten ++ [(FilmCell.nb (stop - start), 1)]))
  pure rows.flatten

/-- `l` is a possible result of `get_MSD_NGP(selection, MSD, NGP, t0, t1, 0)` with a selection that is not empty,
lib/dynamicParticles.cpp:769-804. The loop of normalisation has private cells: it is written as a function. -/
def NgpEnds (D : DynParts G) (sel : List Nat) (t0 t1 : Nat) (l : List (Option G × Option G)) : Prop :=
  ∃ iters mem, (List.range' t0 (t1 - t0)).mapM (ngpIter D sel t0 t1) = .ok iters ∧
    Ends 0 (iters.map incrs) (fun c => if c = .nb 0 then 1 else 0) mem ∧
    l = (List.range (t1 - t0 + 1)).map (fun d =>
      (quot (mem (.msd d)) (mem (.nb d) * (2 * D.radius) ^ 2 * sel.length),
       (quot (mem (.nb d) * sel.length) (3 * mem (.msd d) * mem (.msd d))).map (mem (.ngp d) * ·)))

end Parallel

end Colloids
