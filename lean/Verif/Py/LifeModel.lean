import Mathlib.Algebra.Order.Field.Basic
import Verif.Py.BrokenModel
import Verif.Py.StatModel
import Verif.Py.TrackDrawModel

/-!
# Lives of bonds and selections of trajectories: rest of `python/colloids/experiment.py`

Files are not modelled: their contents are given.  Indices are not negative.  `ValueError` is `invalidArgument`, `IndexError` is `outOfRange`.
-/

namespace Colloids
namespace Py
namespace Life

open Colloids.Py.Broken

/-! ### Lives of bonds -/

/-- `np.sort(self.p2tr(t)[np.loadtxt(name, int)], 1)`: a file of less than two lines is read as an array of one dimension, that cannot be sorted.
experiment.py:553, 563 -/
def framePairs (f : Broken.Frame) : R (List (Nat × Nat)) :=
  if f.bonds.length ≤ 1 then .error .invalidArgument
  else do
    let l ← translate f
    .ok (l.map sortPair)

/-- `m[a,b] = v` of a `dok_matrix` of scipy: zeros are not stored -/
def dokSet (d : Dict) (k : Nat × Nat) (v : Nat) : Dict := if v = 0 then d.pop k else d.put k v

/-- `m.has_key(k)` -/
def hasKey (d : Dict) (k : Nat × Nat) : Bool := d.any fun x => x.1 == k

/-- `m[k]` of a `dok_matrix` -/
def dokGet (d : Dict) (k : Nat × Nat) : Nat := ((d.find? fun x => x.1 == k).map Prod.snd).getD 0

/-- the body of the loop over bonds of `bond_life`.  experiment.py:554-557 -/
def lifeOne (t : Nat) (st : Dict × Dict) (k : Nat × Nat) : Dict × Dict :=
  (if hasKey st.1 k then st.1 else dokSet st.1 k t, dokSet st.2 k t)

/-- the body of the loop over time of `bond_life`.  experiment.py:552-557 -/
def lifeFrame (st : Dict × Dict) (x : Broken.Frame × Nat) : R (Dict × Dict) := do
  let ps ← framePairs x.1
  .ok (ps.foldl (lifeOne x.2) st)

/-- `Experiment.bond_life`; trajectories are lower than their number.  experiment.py:548-558 -/
def bondLife (offset : Nat) (frames : List Broken.Frame) : R (Dict × Dict) := (frames.zipIdx offset).foldlM lifeFrame ([], [])

/-- one time of `bond_last`: the dictionary that is kept, and the one that is yielded.  experiment.py:563-572 -/
def lastFrame (persistence : Nat) (blast : Dict) (x : Broken.Frame × Nat) : R (Dict × Dict) := do
  let ps ← framePairs x.1
  let b := ps.foldl (fun d k => d.put k x.2) blast
  .ok (b.filter fun y => !decide (y.2 + persistence < x.2), b.filter fun y => decide (y.2 + persistence < x.2))

/-- `Experiment.bond_last`: all that is yielded, in order.  experiment.py:560-573 -/
def bondLast (persistence offset : Nat) (frames : List Broken.Frame) : R (List Dict) := do
  let r ← (frames.zipIdx offset).foldlM (fun (st : Dict × List Dict) x => do
    let q ← lastFrame persistence st.1 x
    .ok (q.1, st.2 ++ [q.2])) (([], []) : Dict × List Dict)
  .ok (r.2 ++ [r.1])

/-! ### Selections of trajectories -/

section Sel

variable {F : Type} [Field F] [LinearOrder F]

/-- the selection of `Txp.z_slab`; `z t p` is the last coordinate of trajectory `p < n` at time `t < T`.  Sorted indices without repetition are those
of a range.  experiment.py:805-822 -/
def zSlab (T n : Nat) (z : Nat → Nat → F) (bottom top : F) (allTimes : Bool) : R (List Nat) :=
  if allTimes then .ok ((List.range n).filter fun p => (List.range T).any fun t => decide (bottom < z t p) && decide (z t p < top))
  else match T with
    | 0 => .error .invalidArgument
    | T + 1 => .ok ((List.range n).filter fun p =>
        decide (bottom < ((List.range (T + 1)).map fun t => z t p).foldl max (z 0 p)) &&
        decide (((List.range (T + 1)).map fun t => z t p).foldl min (z 0 p) < top))

/-- a line of `field`.  The times of the files are `offset`, `offset + 1`...; other lines stay null.
experiment.py:825-828 -/
def nullRow (T offset : Nat) (files : List (List F)) (trajs : List (List Nat)) (t : Nat) : R (List F) :=
  if offset ≤ t ∧ t < offset + files.length ∧ t < T then trajs.mapM fun tr => do
    let p ← idx tr t
    let f ← idx files (t - offset)
    idx f p
  else .ok (trajs.map fun _ => 0)

/-- the selection of `Txp.exclude_null`: `T` is the length of trajectories, `trajs` their positions.  The minimum of no line is an error.
experiment.py:823-831 -/
def excludeNull (T offset : Nat) (files : List (List F)) (trajs : List (List Nat)) : R (List Nat) := do
  let field ← (List.range T).mapM (nullRow T offset files trajs)
  match field with
  | [] => .error .invalidArgument
  | r :: rest => .ok ((List.range trajs.length).filter fun p =>
      decide ((rest.map fun row => row.getD p 0).foldl min (r.getD p 0) ≠ 0))

/-! ### Time correlation -/

/-- `(b*a).mean()` -/
def meanProd (a b : List F) : F := (List.zipWith (· * ·) b a).sum / (a.length : F)

/-- `Txp.time_correlation` after the reading of the files and `data -= data.mean()`.  The size of `c` cannot be negative; with `av = 0` the
loop that normalises asks for the second dimension of `c`, that has one.  `none` is not a number (division by zero).
experiment.py:1007-1021 -/
def timeCorr (data : List (List F)) (av : Nat) : R (Option (List F)) :=
  if data.length + 1 < av then .error .invalidArgument
  else if av = 0 then .error .outOfRange
  else do
    let c ← ((data.take av).zipIdx).foldlM (fun c x =>
      ((Stat.slice data x.2 (1 - (av : Int) + x.2)).zipIdx).foldlM (fun c y => upd c y.2 (· + meanProd x.1 y.1)) c)
      (List.replicate (data.length + 1 - av) 0)
    let c := c.map (· / (av : F))
    let c0 ← idx c 0
    .ok (if c0 = 0 then none else some (c.map (· / c0)))

/-! ### Fields on bonds -/

/-- one line of `dilate`, for one column of the field: the value whose absolute value is the largest.  Without neighbour, the index is an array of floats:
an error.  experiment.py:1166-1168 -/
def dilateLine (field : List F) (ngb : List Nat) : R F := do
  let a ← ngb.mapM (idx field)
  match a with
  | [] => .error .outOfRange
  | x :: rest => .ok (Track.argmaxBy (fun v => |v|) x rest)

/-- `dilate`, for one column of the field.  experiment.py:1163-1169 -/
def dilate (field : List F) (bonds : List (Nat × Nat)) : R (List F) := do
  let ngb ← Bonds.bonds2ngbsList bonds field.length
  ngb.mapM (dilateLine field)

/-- one line of `average`, for one column of the field.  experiment.py:1174-1175 -/
def averageLine (field : List F) (x : List Nat × Nat) : R F := do
  let a ← x.1.mapM (idx field)
  let v ← idx field x.2
  match a with
  | [] => .error .outOfRange
  | _ => .ok ((v + a.sum / (a.length : F)) / 2)

/-- `average`, for one column of the field.  experiment.py:1171-1176 -/
def average (field : List F) (bonds : List (Nat × Nat)) : R (List F) := do
  let ngb ← Bonds.bonds2ngbsList bonds field.length
  ngb.zipIdx.mapM (averageLine field)

end Sel

end Life
end Py
end Colloids
