import Verif.Boo.RotModel
import Verif.Bonds.Model

/-! # Coarse graining with half turns: lib/particles.cpp:520-538 -/

namespace Colloids
namespace Boo

/-- `at`, which throws when there is no such particle. -/
def posAt (pos : List (Fin 3 → ℝ)) (p : Nat) : R (Fin 3 → ℝ) :=
  match pos[p]? with
  | some x => .ok x
  | none => .error .outOfRange

/-- `Particles::getDiff`, lib/particles.hpp:285-290: the vector from the first to the
second particle; not the periodic version. -/
noncomputable def partDiff (pos : List (Fin 3 → ℝ)) (p q : Nat) : R (Fin 3 → ℝ) := do
  let y ← posAt pos q
  let x ← posAt pos p
  pure (fun i => y i - x i)

/-- Body of the loop over the bonds, lib/particles.cpp:527-535. The second test is done only if the
first fails. -/
noncomputable def flipStep (pos : List (Fin 3 → ℝ)) (B : List BooData)
    (acc : List BooData × List Nat) (b : Bond) : R (List BooData × List Nat) := do
  let lo ← getR B b.low
  let zl ← getR lo 0
  if zl = 0 then pure acc
  else do
    let hi ← getR B b.high
    let zh ← getR hi 0
    if zh = 0 then pure acc
    else do
      let diff ← partDiff pos b.low b.high
      let rh ← rotateByPi hi diff
      let f ← modifyR acc.1 b.low (fun q => List.zipWith (· + ·) q rh)
      let rl ← rotateByPi lo diff
      let f ← modifyR f b.high (fun q => List.zipWith (· + ·) q rl)
      let nb ← modifyR acc.2 b.low (· + 1)
      let nb ← modifyR nb b.high (· + 1)
      pure (f, nb)

/-- `Particles::getFlipBOOs`, lib/particles.cpp:522-538. -/
noncomputable def getFlipBOOs (pos : List (Fin 3 → ℝ)) (B : List BooData) (bonds : List Bond) :
    R (List BooData) := do
  let acc ← bonds.foldlM (flipStep pos B) (B, List.replicate B.length 1)
  (List.range B.length).mapM (fun p => do
    let q ← getR acc.1 p
    let k ← getR acc.2 p
    pure (q.map (fun z => z / (k : ℂ))))

end Boo
end Colloids
