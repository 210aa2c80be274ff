import Verif.Dyn.Model

/-! # The self scattering function of an interval, and `makeDynamics`: lib/dynamicParticles.cpp:944-1045 -/

namespace Colloids
namespace Dyn

noncomputable section

/-- `getSelfISF(selection, q, start, stop, 1)`, lib/dynamicParticles.cpp:896-942, for any selection. For an empty one
the quotients of line 937 are `0/0`: `none`. -/
def selfSingle (D : DynParts ℝ) (sel : List Nat) (q : Coord ℝ) (start stop : Nat) : R (List (Option ℝ)) :=
  if sel.isEmpty then setR (List.replicate (stop - start) none) 0 (some 1)
  else do
    let l ← getSelfISF D sel q start stop 1
    pure (l.map some)

/-- `ISF[t] += coef * singleISF[t]`, lib/dynamicParticles.cpp:960-961, 999-1000. A sum with a number that is not one
is not a number. -/
def isfAdd (D : DynParts ℝ) (sel : List Nat) (start stop : Nat) (acc : List (Option ℝ)) (q : Coord ℝ) :
    R (List (Option ℝ)) := do
  let single ← selfSingle D sel q start stop
  pure (List.zipWith (fun x y => x.bind fun x => y.map fun y => x + sel.length * y) acc single)

/-- The loop over the starts, lib/dynamicParticles.cpp:953-963, 986-1003: the sum and the number of trajectories. `qs`
are the wave vectors. -/
def pooledISF (D : DynParts ℝ) (qs : List (Coord ℝ)) (t0 t1 t2 : Nat) : R (List (Option ℝ) × Nat) :=
  (List.range' t0 (t2 - t0)).foldlM (fun (s : List (Option ℝ) × Nat) start => do
    let sel ← selectSpanning D start (start + t1 - t0)
    let acc ← qs.foldlM (isfAdd D sel start (start + t1 - t0)) s.1
    pure (acc, s.2 + sel.length)) (List.replicate (t1 - t0) (some 0), 0)

/-- `getSelfISF(q, t0, t1, t2)`, lib/dynamicParticles.cpp:945-967, for `t0 ≤ t1`. -/
def getSelfISFAlong (D : DynParts ℝ) (q : Coord ℝ) (t0 t1 t2 : Nat) : R (List (Option ℝ)) := do
  let longest ← D.trajectories.longestSpan
  if longest < t1 - t0 + 1 then throw .invalidArgument
  else if t2 = 0 then do
    let sel ← selectSpanning D t0 (t1 + t2)
    let l ← getSelfISF D sel q t0 t1 t2
    pure (l.map some)
  else do
    let s ← pooledISF D [q] t0 t1 t2
    pure (s.1.map fun x => x.bind fun x => quot x s.2)

/-- `q[d][d] = M_PI/radius`, lib/dynamicParticles.cpp:975-977, 1023-1025. -/
def waveVectors (radius : ℝ) : List (Coord ℝ) :=
  [0, 1, 2].map fun d : Fin 3 => fun i => if i = d then Real.pi / radius else 0

/-- `getSelfISF(t0, t1, t2)`, lib/dynamicParticles.cpp:970-1007, for `t0 ≤ t1`. -/
def getSelfISFMean (D : DynParts ℝ) (t0 t1 t2 : Nat) : R (List (Option ℝ)) := do
  let longest ← D.trajectories.longestSpan
  if longest < t1 - t0 + 1 then throw .invalidArgument
  else if t2 = 0 then do
    let sel ← selectSpanning D t0 (t1 + t2)
    let l ← (waveVectors D.radius).foldlM (fun acc q => do
      let single ← getSelfISF D sel q t0 t1 t2
      pure (List.zipWith (fun x y => x + y / 3) acc single)) (List.replicate (t1 - t0) 0)
    pure (l.map some)
  else do
    let s ← pooledISF D (waveVectors D.radius) t0 t1 t2
    pure (s.1.map fun x => x.bind fun x => quot x (s.2 * 3))

/-- What `makeDynamics` computes for a set of trajectories: the pairs of MSD and NGP, and the four functions. -/
structure SetDynamics where
  msdNgp : List (Option ℝ × Option ℝ)
  isf : List (List ℝ)

/-- The body of the loop of `makeDynamics`, lib/dynamicParticles.cpp:1029-1039. The fourth function is that of the loop
1034-1039: `nbSteps` values, read in the three others. -/
def setDynamics (D : DynParts ℝ) (sel : List Nat) : R SetDynamics := do
  let stop := D.positions.length - 1
  let mn ← getMsdNgp D sel 0 stop 0
  let axes ← (waveVectors D.radius).mapM fun q => getSelfISF D sel q 0 stop 0
  let av ← (List.range (stop + 1)).mapM fun t => do
    let l ← axes.mapM fun a => getR a t
    pure (l.sum / 3)
  pure { msdNgp := mn, isf := axes ++ [av] }

/-- `makeDynamics(sets, MSD, ISF, NGP)`, lib/dynamicParticles.cpp:1014-1041. -/
def makeDynamics (D : DynParts ℝ) (sets : List (List Nat)) : R (List SetDynamics) := sets.mapM (setDynamics D)

/-- `makeDynamics(MSD, ISF, NGP)` and `exportDynamics(inputPath)`, lib/dynamicParticles.cpp:1044-1062, 1110-1115: for
all the trajectories that span the film. -/
def makeDynamicsAll (D : DynParts ℝ) : R (List SetDynamics) := do
  let sel ← selectSpanning D 0 (D.positions.length - 1)
  makeDynamics D [sel]

end

end Dyn
end Colloids
