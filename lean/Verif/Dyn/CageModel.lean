import Verif.Dyn.Model
import Mathlib.Analysis.Real.Sqrt

/-! # Cages: lib/dynamicParticles.cpp:1191-1282

Exact arithmetic, on real numbers because of the square roots. -/

namespace Colloids
namespace Dyn

/-- `norm2`, lib/index.hpp:64. -/
noncomputable def norm2 (x : Coord ℝ) : ℝ := Real.sqrt (dot3 x x)

/-- `separation[t-in.first]` in `splitByCageJump`, lib/dynamicParticles.cpp:1198-1214. The sum of the second
center of mass starts from the first center of mass, line 1201. -/
noncomputable def separationAt (pos : List (Coord ℝ)) (first second t : Nat) : R ℝ := do
  let l1 ← (List.range' first (t + 1 - first)).mapM (getR pos)
  let l2 ← (List.range' (t + 1) (second - t)).mapM (getR pos)
  let c1 : Coord ℝ := fun a => (l1.foldl (· + ·) 0 : Coord ℝ) a / ((t + 1 - first : Nat) : ℝ)
  let c2 : Coord ℝ := fun a => (l2.foldl (· + ·) c1 : Coord ℝ) a / ((second - t : Nat) : ℝ)
  let d1 := (l1.map (fun x => norm2 (x - c1))).sum / ((t + 1 - first : Nat) : ℝ)
  let d2 := (l2.map (fun x => norm2 (x - c2))).sum / ((second - t : Nat) : ℝ)
  let f := ((t - first : Nat) : ℝ) / second
  pure (Real.sqrt (f * (1 - f) * d1 * d2))

/-- The scan of `std::max_element` after `i` elements, the largest being `m` at `best`. -/
noncomputable def argmaxFrom (best : Nat) (m : ℝ) (i : Nat) : List ℝ → Nat
  | [] => best
  | x :: l => if m < x then argmaxFrom i x (i + 1) l else argmaxFrom best m (i + 1) l

/-- Rank of `std::max_element`; 0 for an empty range. -/
noncomputable def argmax : List ℝ → Nat
  | [] => 0
  | x :: l => argmaxFrom 0 x 1 l

/-- `splitByCageJump`, lib/dynamicParticles.cpp:1192-1227: the ranks pushed in `jumps`, in order. `fuel` bounds
the depth of the recursion. When `second` is `first-1` the table of separations is empty and reading it is
undefined. The length of line 1224 wraps when `tc = second`; it is then larger than any resolution (but
`SIZE_MAX`). -/
noncomputable def splitByCageJump (pos : List (Coord ℝ)) (threshold : ℝ) (resolution : Nat) :
    (fuel : Nat) → (first second : Nat) → R (List Nat)
  | 0, _, _ => throw .diverge
  | fuel + 1, first, second =>
    if second < first then throw .ub
    else do
      let s ← (List.range' first (second - first)).mapM (separationAt pos first second)
      let separation := s ++ [0]
      let tc := argmax separation + first
      let m ← getR separation (tc - first)
      if threshold ≤ m then do
        let l1 ← (if tc - first > resolution then splitByCageJump pos threshold resolution fuel first tc
          else pure [])
        let l2 ← (if second < tc + 1 ∨ second - (tc + 1) > resolution then
          splitByCageJump pos threshold resolution fuel (tc + 1) second else pure [])
        pure (tc :: (l1 ++ l2))
      else pure []

/-- The loop of lib/dynamicParticles.cpp:1268-1275. -/
def cutAt (T : Traj) : List Nat → R (List Traj)
  | i :: j :: l => do
    let c ← T.subtraj (i + T.start) (j + T.start - 1)
    let rest ← cutAt T (j :: l)
    pure (c :: rest)
  | _ => pure []

/-- The cages of a trajectory given its jumps, lib/dynamicParticles.cpp:1256-1275; `n` is the number of
positions. The assertion of line 1264 is not modelled. -/
def cutTraj (T : Traj) (n : Nat) (jumps : List Nat) : R (List Traj) :=
  match jumps.mergeSort with
  | [] => pure [T]
  | j :: l => do
    let c ← T.subtraj T.start (j + T.start - 1)
    let rest ← cutAt T (j :: l ++ [n - 1])
    pure (c :: rest)

/-- The cages of a trajectory, lib/dynamicParticles.cpp:1241-1276. -/
noncomputable def cagesOf (D : DynParts ℝ) (resolution : Nat) (T : Traj) : R (List Traj) :=
  if T.lastTime + 1 - T.start < resolution then pure [T]
  else do
    let pos ← (TrajIndex.times T).mapM (fun t => do
      let ps ← getR D.positions t
      let p ← T.at_ t
      getR ps.pos p)
    let jumps ← splitByCageJump pos ((D.radius * (1 / 2)) ^ 2) resolution (pos.length + 1) 0 (pos.length - 1)
    cutTraj T pos.length jumps

/-- `getCages(resolution)`, lib/dynamicParticles.cpp:1234-1282. -/
noncomputable def getCages (D : DynParts ℝ) (resolution : Nat) : R TrajIndex := do
  let parts ← D.trajectories.trajs.mapM (cagesOf D resolution)
  let inverse ← TrajIndex.makeInverse parts.flatten (D.positions.map (fun ps => ps.pos.length))
  pure ⟨parts.flatten, inverse⟩

end Dyn
end Colloids
