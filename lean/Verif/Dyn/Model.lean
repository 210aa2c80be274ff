import Verif.Traj.Model
import Verif.Particles.Model
import Verif.Boo.FieldModel
import Verif.Dat.Model
import Mathlib.Analysis.SpecialFunctions.Trigonometric.Basic

/-! # Dynamics of particles: lib/dynamicParticles.{hpp,cpp}

Exact arithmetic. Loops that the code declares parallel are sequential here; those of `getDrift`, `getMSD`
(with `t3 ≠ 0`), `getNonGaussian`, `get_MSD_NGP` and `getISF` update shared variables without protection
(see `Verif/Parallel/FilmModel.lean`).
A division by zero, that gives an infinite or undefined `double`, gives `none` where it can happen
(`quot`). -/

namespace Colloids
namespace Dyn

/-- The answers of the spatio-temporal index: `operator()(Interval)` and `getSpanningInside`. -/
structure STIndex (G : Type) where
  spanning : Nat → Nat → R (List Nat)
  spanningInside : Nat → Nat → G → R (List Nat)

/-- `DynamicParticles`, lib/dynamicParticles.hpp:37-61. The neighbour lists that `Particles` store are
kept here, one per frame. -/
structure DynParts (G : Type) where
  positions : List (Particles G)
  trajectories : TrajIndex
  radius : G
  index : Option (STIndex G)
  ngbs : List NgbList

variable {G : Type} [Field G] [LinearOrder G]

/-- `DynamicParticles::operator()`, lib/dynamicParticles.hpp:162-187. Accessing a trajectory or a frame
that is not in the containers is undefined; a time out of the trajectory throws. -/
def at_ (D : DynParts G) (tr t : Nat) : R (Coord G) := do
  let T ← getR D.trajectories.trajs tr
  let p ← T.at_ t
  let ps ← getR D.positions t
  getR ps.pos p

/-- `DynamicParticles::getDiff`, lib/dynamicParticles.cpp:506-511. -/
def getDiff (D : DynParts G) (trFrom tFrom trTo tTo : Nat) : R (Coord G) := do
  let y ← at_ D trTo tTo
  let x ← at_ D trFrom tFrom
  pure (y - x)

/-- `DynamicParticles::selectSpanning`, lib/dynamicParticles.cpp:464-494. -/
def selectSpanning (D : DynParts G) (t0 t1 : Nat) : R (List Nat) :=
  match D.index with
  | some ix => ix.spanning t0 t1
  | none => do
    let a ← getR D.trajectories.inverse t0
    let b ← getR D.trajectories.inverse t1
    pure (Boo.setIntersection (sortUnique a) (sortUnique b))

/-! ## Drift -/

/-- `getDrift(selection, t0, t1)`, lib/dynamicParticles.cpp:514-525. -/
def getDriftOf (D : DynParts G) (sel : List Nat) (t0 t1 : Nat) : R (Coord G) :=
  if sel.length < 2 then pure 0 else do
    let drift ← sel.foldlM (fun (drift : Coord G) tr => do
      let diff ← getDiff D tr t0 tr t1
      pure (drift + diff)) 0
    pure (fun a => drift a / (sel.length : G))

/-- The trajectories used by `getDrift(t0, t1)`, lib/dynamicParticles.cpp:529-532: whatever `t1`. -/
def driftSelection (D : DynParts G) (t0 : Nat) : R (List Nat) :=
  match D.index with
  | some ix => ix.spanningInside t0 (t0 + 1) (2 * D.radius)
  | none => selectSpanning D t0 (t0 + 1)

/-- `getDrift(t0, t1)`, lib/dynamicParticles.cpp:527-533. -/
def getDrift (D : DynParts G) (t0 _t1 : Nat) : R (Coord G) := do
  let sel ← driftSelection D t0
  getDriftOf D sel t0 (t0 + 1)

/-- `std::partial_sum` after a first element. -/
def partialSumFrom {V : Type} [Add V] (acc : V) : List V → List V
  | [] => []
  | x :: l => (acc + x) :: partialSumFrom (acc + x) l

/-- `std::partial_sum`. -/
def partialSum {V : Type} [Add V] : List V → List V
  | [] => []
  | x :: l => x :: partialSumFrom x l

/-- `removeDrift()`, lib/dynamicParticles.cpp:537-569. -/
def removeDrift (D : DynParts G) : R (DynParts G) := do
  let relative ← (List.range D.positions.length).mapM (fun t =>
    if t = 0 then pure (0 : Coord G) else do
      let d ← getDrift D (t - 1) t
      pure (-d))
  let drifts := partialSum relative
  let maxNeg := (drifts.drop 1).foldl
    (fun (m : Coord G) d => fun a => if d a < m a then d a else m a) 0
  pure { D with
    positions := List.zipWith (fun ps d => ps.translate (d - maxNeg)) D.positions drifts
    index := none }

/-- Reading `k` lines of two numbers, lib/dynamicParticles.cpp:583-584. The third coordinate stays null. -/
def readDispl [NatCast G] : Nat → Dat.In G → List (Coord G)
  | 0, _ => []
  | k + 1, s =>
    let x := s.readDbl 0
    let y := x.2.readDbl 0
    ![x.1, y.1, 0] :: readDispl k y.2

/-- Skipping `k` lines of two numbers, lib/dynamicParticles.cpp:581-582. -/
def skipDispl [NatCast G] : Nat → Dat.In G → Dat.In G
  | 0, s => s
  | k + 1, s => skipDispl k ((s.readDbl 0).2.readDbl 0).2

/-- `removeDrift(displFile, t_offset)`, lib/dynamicParticles.cpp:572-607. `file` is `none` when it cannot
be opened. `t+t_offset<getNbTimeSteps()` bounds the number of lines read. -/
def removeDriftFile (D : DynParts G) (file : Option (List (Dat.Num G))) (offset : Nat) : DynParts G :=
  match file with
  | none => D
  | some l =>
    let n := D.positions.length
    let displ := readDispl (n - offset) (skipDispl offset ⟨l, false⟩)
      ++ List.replicate (n - (n - offset)) 0
    let displ := partialSum displ
    let maxd := displ.foldl (fun (m : Coord G) d => ![max (m 0) (d 0), max (m 1) (d 1), m 2]) 0
    { D with positions := List.zipWith (fun ps d => ps.translate (d - maxd)) D.positions displ }

/-! ## Mean square displacement -/

/-- `getSD(selection, t0, t1)`, lib/dynamicParticles.cpp:612-624. -/
def getSD (D : DynParts G) (sel : List Nat) (t0 t1 : Nat) : R G :=
  sel.foldlM (fun result tr => do
    let diff ← getDiff D tr t0 tr t1
    pure (result + dot3 diff diff)) 0

/-- The two loops `for(start=t0;start<t1;++start) for(stop=start+1;stop<=t1;++stop)` in which
`sum[stop-start] += w` and `nb[stop-start] += 1.0`, common to lib/dynamicParticles.cpp:660-665, 732-744,
784-796, 853-862 and 920-926. -/
def lagSums {V : Type} [Add V] (t0 t1 : Nat) (w : Nat → Nat → R V) (s : List V × List Nat) :
    R (List V × List Nat) :=
  (List.range' t0 (t1 - t0)).foldlM (fun s start =>
    (List.range' (start + 1) (t1 - start)).foldlM (fun (s : List V × List Nat) stop => do
      let v ← w start stop
      let sum ← modifyR s.1 (stop - start) (· + v)
      let nb ← modifyR s.2 (stop - start) (· + 1)
      pure (sum, nb)) s) s

/-- The number of intervals per lag before the loops: `nb(n,0.0); nb[0]=1.0;`. -/
def nbStart (n : Nat) : R (List Nat) := setR (List.replicate n 0) 0 1

/-- `getMSD(selection, t0, t1, t3)`, lib/dynamicParticles.cpp:649-680. For `t1 < t0` the sizes wrap, which
is not modelled. -/
def getMSDOf (D : DynParts G) (sel : List Nat) (t0 t1 t3 : Nat) : R (List G) :=
  let n := t1 - t0 + 1
  if sel.isEmpty then pure (List.replicate n 0) else do
    let nb ← nbStart n
    if t3 = 0 then do
      let s ← lagSums t0 t1 (getSD D sel) (List.replicate n 0, nb)
      pure (List.zipWith (fun (x : G) (k : Nat) => x / (k * sel.length)) s.1 s.2)
    else
      (List.range' 1 (n - 1)).foldlM (fun (sum : List G) Dt => do
        let x ← (List.range t3).foldlM (fun (x : G) start => do
          let sd ← getSD D sel (t0 + start) (t0 + start + Dt)
          pure (x + sd)) 0
        setR sum Dt (x / (t3 * sel.length))) (List.replicate n 0)

/-- A quotient of `double`s; `none` when it is infinite or undefined. -/
def quot (x y : G) : Option G := if y = 0 then none else some (x / y)

/-- `getMSD(t0, t1, t2)`, lib/dynamicParticles.cpp:694-718. -/
def getMSD (D : DynParts G) (t0 t1 t2 : Nat) : R (List (Option G)) := do
  let longest ← D.trajectories.longestSpan
  if longest < t1 - t0 + 1 then throw .invalidArgument
  else if t2 = 0 then do
    let sel ← selectSpanning D t0 (t1 + t2)
    let l ← getMSDOf D sel t0 t1 t2
    pure (l.map some)
  else do
    let s ← (List.range' t0 (t2 - t0)).foldlM (fun (s : List G × Nat) start => do
      let sel ← selectSpanning D start (start + t1 - t0)
      let single ← getMSDOf D sel start (start + t1 - t0) 1
      pure (List.zipWith (fun x y => x + sel.length * y) s.1 single, s.2 + sel.length))
      (List.replicate (t1 - t0 + 1) 0, 0)
    pure (s.1.map (fun x => quot x s.2))

/-! ## Non Gaussian parameter -/

/-- The sums over the selection of the square and quartic displacements, lib/dynamicParticles.cpp:735-742,
787-794: between `t0` and `t1`. -/
def squareQuartic (D : DynParts G) (sel : List Nat) (t0 t1 : Nat) : R (G × G) :=
  sel.foldlM (fun (s : G × G) tr => do
    let diff ← getDiff D tr t0 tr t1
    let sd := dot3 diff diff
    pure (s.1 + sd, s.2 + sd * sd)) (0, 0)

/-- `getNonGaussian(selection, t0, t1, 0)`, lib/dynamicParticles.cpp:721-747. -/
def getNonGaussian (D : DynParts G) (sel : List Nat) (t0 t1 : Nat) : R (List (Option G)) :=
  let n := t1 - t0 + 1
  if sel.isEmpty then pure (List.replicate n (some 0)) else do
    let nb ← nbStart n
    let s ← lagSums t0 t1 (fun _ _ => squareQuartic D sel t0 t1) (List.replicate n 0, nb)
    pure (List.zipWith (fun (x : G × G) (k : Nat) =>
      (quot (k * sel.length / 3 * x.2) x.1).bind (fun y => quot y x.1)) s.1 s.2)

/-- `get_MSD_NGP(selection, MSD, NGP, t0, t1, t3)`, lib/dynamicParticles.cpp:769-823: the pairs of MSD
and NGP. -/
def getMsdNgp (D : DynParts G) (sel : List Nat) (t0 t1 t3 : Nat) :
    R (List (Option G × Option G)) :=
  let n := t1 - t0 + 1
  if sel.isEmpty then pure (List.replicate n (some 0, some 0)) else do
    let nb ← nbStart n
    if t3 = 0 then do
      let s ← lagSums t0 t1 (fun _ _ => squareQuartic D sel t0 t1) (List.replicate n 0, nb)
      pure (List.zipWith (fun (x : G × G) (k : Nat) =>
        (quot x.1 (k * (2 * D.radius) ^ 2 * sel.length),
         (quot ((k : G) * sel.length) (3 * x.1 * x.1)).map (x.2 * ·))) s.1 s.2)
    else
      (List.range' 1 (n - 1)).foldlM (fun (l : List (Option G × Option G)) Dt => do
        let x ← (List.range t3).foldlM (fun (x : G × G) _ => do
          let s ← squareQuartic D sel t0 t1
          pure (x + s)) 0
        setR l Dt (quot x.1 (t3 * sel.length * (2 * D.radius) ^ 2 * sel.length),
          (quot ((t3 : G) * sel.length) (3 * x.1 * x.1)).map (x.2 * ·)))
        (List.replicate n (some 0, some 0))

/-! ## Scattering functions -/

/-- `getISF(selection, q, t0, t1)`, lib/dynamicParticles.cpp:828-867. The loop on the trajectories of
lines 857-858 adds the same term `selection.size()` times. -/
noncomputable def getISF (D : DynParts ℝ) (sel : List Nat) (q : Coord ℝ) (t0 t1 : Nat) : R (List ℝ) :=
  let n := t1 - t0 + 1
  if sel.isEmpty then pure (List.replicate n 0) else do
    let ab ← (List.range' t0 n).foldlM (fun (ab : List ℝ × List ℝ) t =>
      sel.foldlM (fun (ab : List ℝ × List ℝ) tr => do
        let x ← at_ D tr t
        let a ← modifyR ab.1 t (· + Real.cos (dot3 x q))
        let b ← modifyR ab.2 t (· + Real.sin (dot3 x q))
        pure (a, b)) ab) (List.replicate n 0, List.replicate n 0)
    let nb ← nbStart n
    let s ← lagSums t0 t1 (fun start stop => do
      let a1 ← getR ab.1 stop
      let a0 ← getR ab.1 start
      let b1 ← getR ab.2 stop
      let b0 ← getR ab.2 start
      pure (sel.length * (a1 * a0 + b1 * b0))) (List.replicate n 0, nb)
    setR (List.zipWith (fun (x : ℝ) (k : Nat) => x / (k * sel.length)) s.1 s.2) 0 1

/-- The tables of cosines and sines, lib/dynamicParticles.cpp:903-914. -/
noncomputable def isfTables (D : DynParts ℝ) (sel : List Nat) (q : Coord ℝ) (t0 rows : Nat) :
    R (List (List (ℝ × ℝ))) :=
  (List.range rows).mapM (fun t => sel.mapM (fun tr => do
    let x ← at_ D tr (t + t0)
    pure (Real.cos (dot3 x q), Real.sin (dot3 x q))))

/-- `Σ_p A[i][p]*A[j][p]+B[i][p]*B[j][p]`. -/
def isfProduct (ab : List (List (ℝ × ℝ))) (i j : Nat) : R ℝ := do
  let x ← getR ab i
  let y ← getR ab j
  pure ((List.zipWith (fun (x y : ℝ × ℝ) => x.1 * y.1 + x.2 * y.2) x y).sum)

/-- `getSelfISF(selection, q, t0, t1, t3)`, lib/dynamicParticles.cpp:896-942. For an empty selection the
quotients are undefined, here null. With an empty selection the rows of the tables are not read, so that
an access to a row out of range is not: the model is for selections that are not empty. -/
noncomputable def getSelfISF (D : DynParts ℝ) (sel : List Nat) (q : Coord ℝ) (t0 t1 t3 : Nat) :
    R (List ℝ) := do
  let ab ← isfTables D sel q t0 (t1 + t3 - t0)
  let n := t1 - t0
  if t3 = 0 then do
    let nb ← nbStart n
    let s ← lagSums t0 t1 (fun start stop => isfProduct ab (stop - t0) (start - t0))
      (List.replicate n 0, nb)
    setR (List.zipWith (fun (x : ℝ) (k : Nat) => x / (k * sel.length)) s.1 s.2) 0 1
  else do
    let sum ← (List.range' 1 (n - 1)).foldlM (fun (sum : List ℝ) Dt => do
      let x ← (List.range t3).foldlM (fun (x : ℝ) start => do
        let y ← isfProduct ab (start + Dt) start
        pure (x + y)) 0
      setR sum Dt (x / (t3 * sel.length))) (List.replicate n 0)
    setR sum 0 1

/-! ## Velocities and neighbours -/

/-- First time of the centered scheme, lib/dynamicParticles.cpp:1129, 1183: the subtraction wraps and
its conversion to `int` is negative. -/
def firstTime (T : Traj) (t half : Nat) : Nat := (max ((t : Int) - half) (T.start : Int)).toNat

/-- Last time of the centered scheme, lib/dynamicParticles.cpp:1130, 1184. -/
def stopTime (T : Traj) (t half : Nat) : Nat := min (t + half) T.lastTime

/-- `velocities(t, halfInterval)`, lib/dynamicParticles.cpp:1120-1135. `none` when the duration is
null. -/
def velocities (D : DynParts G) (t half : Nat) : R (List (Option (Coord G))) := do
  let inv ← getR D.trajectories.inverse t
  inv.mapM (fun tr => do
    let T ← getR D.trajectories.trajs tr
    if 1 < T.steps.length then do
      let start := firstTime T t half
      let stop := stopTime T t half
      let p1 ← T.at_ stop
      let f1 ← getR D.positions stop
      let x1 ← getR f1.pos p1
      let p0 ← T.at_ start
      let f0 ← getR D.positions start
      let x0 ← getR f0.pos p0
      pure (if stop - start = 0 then none else some (fun a => (x1 a - x0 a) / ((stop - start : Nat) : G)))
    else pure (some 0))

/-- `getSD(t, halfInterval)`, lib/dynamicParticles.cpp:630-645. -/
def getSDCentered (D : DynParts G) (t half : Nat) : R (List (Option G)) := do
  let vel ← velocities D t half
  pure (vel.map (fun v => v.map (fun v => dot3 v v * ((half * 2 + 1 : Nat) : G))))

/-- `std::set_difference` of two sorted ranges (with the number of steps as fuel). -/
def setDifferenceAux : Nat → List Nat → List Nat → List Nat
  | 0, _, _ => []
  | _ + 1, [], _ => []
  | _ + 1, l, [] => l
  | fuel + 1, a :: l, b :: l' =>
    if a < b then a :: setDifferenceAux fuel l (b :: l')
    else if b < a then setDifferenceAux fuel (a :: l) l'
    else setDifferenceAux fuel l l'

/-- `std::set_difference` of two sorted ranges. -/
def setDifference (l l' : List Nat) : List Nat := setDifferenceAux (l.length + l'.length) l l'

/-- The trajectories of the neighbours of `tr` at `t`, lib/dynamicParticles.cpp:1145-1156. -/
def ngbTrajs (D : DynParts G) (tr t : Nat) : R (List Nat) := do
  let ngbs ← getR D.ngbs t
  let T ← getR D.trajectories.trajs tr
  let p ← T.at_ t
  let row ← getR ngbs p
  let l ← row.mapM (fun q => D.trajectories.invert t q)
  pure (sortUnique l)

/-- `getLostNgbs(tr, t_from, t_to)`, lib/dynamicParticles.cpp:1140-1168. -/
def getLostNgbs (D : DynParts G) (tr tFrom tTo : Nat) : R (List Nat) :=
  if tFrom = tTo then pure [] else do
    let a ← ngbTrajs D tr tFrom
    let b ← ngbTrajs D tr tTo
    pure (setDifference a b)

/-- `getNbLostNgbs(t, halfInterval)`, lib/dynamicParticles.cpp:1174-1189. -/
def getNbLostNgbs (D : DynParts G) (t half : Nat) : R (List Nat) := do
  let inv ← getR D.trajectories.inverse t
  inv.mapM (fun tr => do
    let T ← getR D.trajectories.trajs tr
    if 1 < T.steps.length then do
      let l ← getLostNgbs D tr (firstTime T t half) (stopTime T t half)
      pure l.length
    else pure 0)

/-! ## Linking -/

/-- The candidate tables of `link`, lib/dynamicParticles.cpp:1492-1500, for all the frames. In the code
each table is made just before it is used. -/
def linkHist (range : G) : List (Particles G) → R (List (Followers G × Nat))
  | p :: q :: l => do
    let fol ← p.pos.mapM (fun x => Particles.getEuclidianNeighboursBySqDist Particles.geometry q x range)
    let rest ← linkHist range (q :: l)
    pure ((fol, q.pos.length) :: rest)
  | _ => pure []

/-- The spatial indexing of `link`, lib/dynamicParticles.cpp:1482-1485. -/
def indexAll (P : RParams G) (H : Heur 3 G) (positions : List (Particles G)) : R (List (Particles G)) :=
  positions.mapM (fun ps => match ps.index with
    | none => Particles.makeRTreeIndex P H ps
    | some _ => pure ps)

/-- `link`, lib/dynamicParticles.cpp:1477-1512. Without any frame `positions[0]` is undefined. -/
def link (P : RParams G) (H : Heur 3 G) (D : DynParts G) : R (DynParts G) := do
  let positions ← indexAll P H D.positions
  let first ← getR positions 0
  let hist ← linkHist (D.radius * 2) positions
  let tm ← TrajMap.run first.pos.length hist
  let ti ← TrajIndex.ofMap tm
  pure { D with positions := positions, trajectories := ti }

end Dyn
end Colloids
