import Verif.Boo.FlipModel

/-! # The similarities of the program `boo_flip`: mains/boo_flip.cpp:135-200

Exact real arithmetic, without periodic boundaries. The tensors are those of `getBOOs` and `removeOutside` (C57, C130). -/

namespace Colloids
namespace Mains

open Boo

/-- `std::binary_search`: the first element not less than `v` is looked for by dichotomy. -/
def binarySearch (l : List Nat) (v : Nat) : Bool :=
  match fromLowerBound l v with
  | x :: _ => !(decide (v < x))
  | [] => false

/-- What the loop fills, mains/boo_flip.cpp:135-136 (the arrays `_rot` are never written nor exported). `none` is not a
number. -/
structure Sims where
  sim : List (Option ℝ)
  ref : List (Option ℝ)
  nb : List Nat
  nbRef : List Nat

noncomputable section

/-- `normedProduct(.., 6)`, lib/boo_data.cpp:174-177: not a number when one of the tensors is null at this degree. -/
def sim6 (a b : BooData) : R (Option ℝ) := do
  let na ← sumNorm a 6
  let nb ← sumNorm b 6
  let x ← normedProduct a b 6
  pure (if na * nb = 0 then none else some x)

/-- `sim[c]>0.5`: false if it is not a number. -/
def above : Option ℝ → Prop
  | some x => x > 0.5
  | none => False

open Classical in
/-- mains/boo_flip.cpp:157-161, 167-171. -/
def countBond (nb : List Nat) (b : Bond) (x : Option ℝ) : R (List Nat) :=
  if above x then do
    let nb ← modifyR nb b.low (· + 1)
    modifyR nb b.high (· + 1)
  else pure nb

/-- mains/boo_flip.cpp:149-171: the bond number `c`, once it is accepted. -/
def simBond (pos : List (Fin 3 → ℝ)) (lo hi : BooData) (s : Sims) (c : Nat) (b : Bond) : R Sims := do
  let diff ← partDiff pos b.low b.high
  let reflected ← rotateByPi hi diff
  let x ← sim6 lo hi
  let sim ← setR s.sim c x
  let y ← sim6 lo reflected
  let ref ← setR s.ref c y
  let nb ← countBond s.nb b x
  let nbRef ← countBond s.nbRef b y
  pure ⟨sim, ref, nb, nbRef⟩

/-- Body of the loop over the bonds, mains/boo_flip.cpp:141-192. -/
def simStep (pos : List (Fin 3 → ℝ)) (B : List BooData) (inside : List Nat) (sc : Sims × Nat) (b : Bond) :
    R (Sims × Nat) := do
  let lo ← getR B b.low
  let zl ← getR lo 0
  if zl = 0 then pure (sc.1, sc.2 + 1)
  else do
    let hi ← getR B b.high
    let zh ← getR hi 0
    if zh = 0 then pure (sc.1, sc.2 + 1)
    else if binarySearch inside b.low = false ∨ binarySearch inside b.high = false then pure (sc.1, sc.2 + 1)
    else do
      let s ← simBond pos lo hi sc.1 sc.2 b
      pure (s, sc.2 + 1)

/-- mains/boo_flip.cpp:135-200. -/
def similarities (pos : List (Fin 3 → ℝ)) (B : List BooData) (inside : List Nat) (bonds : List Bond) : R Sims := do
  let z := List.replicate pos.length 0
  let m := List.replicate bonds.length (some (-2))
  let s ← bonds.foldlM (simStep pos B inside) (⟨m, m, z, z⟩, 0)
  pure s.1

end

end Mains
end Colloids
