import Verif.Traj.Model

/-!
# Model of `lib/fields.hpp`: time averaged fields

The values live in an arbitrary type `V` with a zero and an addition; the test for a null value
and the division by a count are parameters. Nothing is assumed about them, so that what is
proved holds for the sums and divisions of machine numbers as well.
-/

namespace Colloids

/-- What `DynamicField<V>` needs to know about its values: `isNull` (lib/fields.hpp:173-177,
187-191) and the division by a `double` holding a count (lib/fields.hpp:147). -/
structure FieldOps (V : Type) where
  isNull : V → Bool
  div : V → Nat → V

/-- `DynamicField<V>` lib/fields.hpp:64-71 (the name is left out). -/
structure DynField (V : Type) where
  values : List (List V)
  divisors : List (List Nat)
  trajectories : TrajIndex
  averaging : Nat
  actualTime : Nat

namespace DynField

variable {V : Type} [Add V] [Zero V]

/-- Constructor lib/fields.hpp:74-81. `getNull` (180-184, 194-198) is the zero of `V`. -/
def new (ti : TrajIndex) (averaging : Nat) : DynField V where
  values := ti.inverse.map (fun row => List.replicate row.length 0)
  divisors := (ti.inverse.take (averaging / 2 + 1)).map (fun row => List.replicate row.length 0)
  trajectories := ti
  averaging := averaging
  actualTime := 0

/-- The body of the parallel loop over the positions, lib/fields.hpp:130-135: the new value and
the new divisor of position `p`, whose trajectory number is `trn`. The loop bodies touch disjoint
elements. The old value and divisor are read even if they are not changed (the code reads
them only when it changes them; both rows have one element per position). -/
def binOne (ops : FieldOps V) (ti : TrajIndex) (now : Nat) (frame : List V) (trn : Nat)
    (v : V) (n : Nat) : R (V × Nat) := do
  let tr ← getR ti.trajs trn
  if tr.exist now then
    let x ← getR frame (← tr.at_ now)
    if ops.isNull x then pure (v, n) else pure (v + x, n + 1)
  else pure (v, n)

/-- The parallel loop over the positions of frame `t`, lib/fields.hpp:127-136. -/
def binRow (ops : FieldOps V) (ti : TrajIndex) (now : Nat) (frame : List V) (inv : List Nat)
    (row : List V) (div : List Nat) : R (List (V × Nat)) :=
  (List.range inv.length).mapM fun p => do
    let trn ← getR inv p
    let v ← getR row p
    let n ← getR div p
    binOne ops ti now frame trn v n

/-- One turn of the loop over the time steps of the window, lib/fields.hpp:124-137. -/
def binTime (ops : FieldOps V) (ti : TrajIndex) (now t0 : Nat) (frame : List V)
    (s : List (List V) × List (List Nat)) (t : Nat) : R (List (List V) × List (List Nat)) := do
  let inv ← getR ti.inverse t
  let row ← getR s.1 t
  let div ← getR s.2 (t - t0)
  let rd ← binRow ops ti now frame inv row div
  let vs ← setR s.1 t (rd.map Prod.fst)
  let ds ← setR s.2 (t - t0) (rd.map Prod.snd)
  pure (vs, ds)

/-- One turn of the division loop, lib/fields.hpp:144-150. -/
def divide (ops : FieldOps V) (s : List (List V) × List (List Nat)) (front : Nat) :
    R (List (List V) × List (List Nat)) := do
  let row ← getR s.1 front
  let d ← getR s.2 0
  let row' ← (List.range row.length).mapM fun p => do
    let v ← getR row p
    let n ← getR d p
    pure (ops.div v (max 1 n))
  let vs ← setR s.1 front row'
  pure (vs, s.2.drop 1)

/-- How many turns the `do ... while` loop of lib/fields.hpp:142-153 makes starting at `front`. -/
def divTurns (now front total : Nat) : Nat := if now + 1 = total then max 1 (total - front) else 1

/-- The division of the frames that are totally binned, lib/fields.hpp:140-154. -/
def flush (ops : FieldOps V) (now half : Nat) (s : List (List V) × List (List Nat)) :
    R (List (List V) × List (List Nat)) :=
  if half ≤ now then
    (List.range' (now - half) (divTurns now (now - half) s.1.length)).foldlM (divide ops) s
  else pure s

/-- `std::copy` of a frame at the beginning of a row, lib/fields.hpp:120: writing past the end
of the row is undefined behaviour. -/
def copyInto (frame row : List V) : R (List V) :=
  if frame.length ≤ row.length then .ok (frame ++ row.drop frame.length) else .error .ub

/-- `DynamicField::push_back` lib/fields.hpp:116-162. -/
def pushBack (ops : FieldOps V) (f : DynField V) (frame : List V) : R (DynField V) :=
  let half := f.averaging / 2
  let now := f.actualTime
  if half = 0 then do
    let row ← getR f.values now
    let row' ← copyInto frame row
    let vs ← setR f.values now row'
    pure { f with values := vs, actualTime := now + 1 }
  else do
    let t0 := max now half - half
    let t1 := min (now + half + 1) f.values.length
    let s ← (List.range' t0 (t1 - t0)).foldlM (binTime ops f.trajectories now t0 frame)
      (f.values, f.divisors)
    let s ← flush ops now half s
    let ds ← if 1 + now + half < f.values.length then do
        let inv ← getR f.trajectories.inverse (1 + now + half)
        pure (s.2 ++ [List.replicate inv.length 0])
      else pure s.2
    pure { f with values := s.1, divisors := ds, actualTime := now + 1 }

/-- Pushing frames one after the other in a new field. -/
def pushAll (ops : FieldOps V) (ti : TrajIndex) (averaging : Nat) (frames : List (List V)) :
    R (DynField V) :=
  frames.foldlM (pushBack ops) (new ti averaging)

/-- `DynamicField::operator[]` lib/fields.hpp:164-168: a view of frame `t`. -/
def view (f : DynField V) (t : Nat) : R (List V) := getR f.values t

end DynField

end Colloids
