import Verif.Rdf.Model
import Verif.Boo.FieldModel

/-! # The program `g6` (without periodic boundaries): mains/g6.cpp

`V` stands for `BooData`; `null` is `isnull`, `prod` is `innerProduct` at the degree given on the command line. Exact
real arithmetic. -/

namespace Colloids
namespace Mains

noncomputable section
variable {V : Type}

/-- A turn of the selection, mains/g6.cpp:112-114, 118-120. The tensor is read only if the particle is in the interval. -/
def g6SlabStep (null : V → Bool) (pos : List (Coord ℝ)) (boo : List V) (z : Option (ℝ × ℝ)) (slab : List Nat) (p : Nat) :
    R (List Nat) := do
  let x ← getR pos p
  match z with
  | some i =>
    if i.1 < x 2 ∧ x 2 < i.2 then do
      let b ← getR boo p
      pure (if null b then slab else slab ++ [p])
    else pure slab
  | none => do
    let b ← getR boo p
    pure (if null b then slab else slab ++ [p])

/-- The selection of mains/g6.cpp:103-120; `z` is the interval given on the command line. -/
def g6Slab (null : V → Bool) (pos : List (Coord ℝ)) (boo : List V) (z : Option (ℝ × ℝ)) : R (List Nat) :=
  (List.range pos.length).foldlM (g6SlabStep null pos boo z) []

/-- A pair of the double loop, mains/g6.cpp:141-149. The conversion to `size_t` is the integer part. -/
def g6Pair (prod : V → V → ℝ) (pos : List (Coord ℝ)) (boo : List V) (nbins : Nat) (range : ℝ) (p : Nat)
    (s : List Nat × List ℝ) (q : Nat) : R (List Nat × List ℝ) := do
  let x ← getR pos p
  let y ← getR pos q
  let distsq := dot3 (y - x) (y - x)
  if distsq < (2 * range) ^ 2 then do
    let r := ⌊√distsq / (2 * range) * nbins⌋₊
    let nb ← modifyR s.1 r (· + 1)
    let a ← getR boo p
    let b ← getR boo q
    let gl ← modifyR s.2 r (· + prod a b)
    pure (nb, gl)
  else pure s

/-- The double loop, mains/g6.cpp:135-150. -/
def g6Hist (prod : V → V → ℝ) (pos : List (Coord ℝ)) (boo : List V) (nbins : Nat) (range : ℝ) :
    R (List Nat × List ℝ) :=
  (List.range pos.length).foldlM (fun s p =>
    (List.range' (p + 1) (pos.length - (p + 1))).foldlM (g6Pair prod pos boo nbins range p) s)
    (List.replicate nbins 0, List.replicate nbins 0)

/-- A line of the file: abscissa, product, number of pairs, mains/g6.cpp:157-158. -/
structure G6Row where
  r : ℝ
  gl : ℝ
  nb : Nat

/-- The program from the reading of the tensors on, mains/g6.cpp:104-158. The radius of the particles is not used. -/
def g6Program (null : V → Bool) (prod : V → V → ℝ) (ps : Particles ℝ) (boo : List V) (nbins : Nat) (range : ℝ)
    (z : Option (ℝ × ℝ)) : R (List G6Row) := do
  let slab ← g6Slab null ps.pos boo z
  let cen ← slab.mapM (getR ps.pos)
  let b ← slab.mapM (getR boo)
  let s ← g6Hist prod cen b nbins range
  (List.range nbins).mapM fun r => do
    let gl ← getR s.2 r
    let nb ← getR s.1 r
    pure ⟨(r : ℝ) / nbins * range, gl, nb⟩

/-- Mode 1: the particles whose neighbours all have a tensor, mains/g6.cpp:86-97. -/
def g6SecondInside (null : V → Bool) (ngbs : NgbList) (boo : List V) : R (List Nat) :=
  (List.range ngbs.length).foldlM (fun l p => do
    let row ← getR ngbs p
    let hasNull ← row.foldlM (fun h n => if h then pure true else do
      let b ← getR boo n
      pure (null b)) false
    pure (if hasNull then l else l ++ [p])) []

/-- Mode 1: the tensors that are then correlated, mains/g6.cpp:83-100. -/
def g6Coarse [AddCommGroup V] [Module ℝ V] (null : V → Bool) (n : Nat) (ngbs : NgbList) (boo : List V) : R (List V) := do
  let sel ← g6SecondInside null ngbs boo
  Boo.getCgBOOs n ngbs sel boo []

end

end Mains
end Colloids
