import Verif.Bonds.Model
import Verif.Boo.FieldModel

/-! # The pairs of bonded particles sharing a ring of five neighbours: mains/sp5c.cpp

The reading of the coordinates (only their number matters) and the writing of the two files are not
modelled; `loadBonds` and `makeNgbList` are in `Verif.Bonds.Model`. -/

namespace Colloids
namespace Mains

/-- `list::front()`: undefined behaviour on an empty container. -/
def frontR : List α → R α
  | [] => .error .ub
  | a :: _ => .ok a

/-- `ringngb[x]` on a `map<size_t, list<size_t> >` (mains/sp5c.cpp:66): a missing key gives an empty
list. -/
def ringAt (ring : List (Nat × List Nat)) (x : Nat) : List Nat := (ring.lookup x).getD []

/-- The particle pushed by one turn of the loop, mains/sp5c.cpp:95-106. -/
def ringNext [DecidableEq α] (ngb : α → List α) (previous cur : α) : R α := do
  let f ← frontR (ngb cur)
  if f ≠ previous then pure f else backR (ngb cur)

/-- The loop mains/sp5c.cpp:92-107: what it pushes in `sp5c`, in order. `cur` is `sp5c.back()`. `fuel`
bounds the number of turns. -/
def ringWalk [DecidableEq α] (ngb : α → List α) (last : α) : (fuel : Nat) → (previous cur : α) →
    R (List α)
  | 0, _, _ => .error .diverge
  | fuel + 1, previous, cur => do
    let next ← ringNext ngb previous cur
    if cur ≠ last then do
      let rest ← ringWalk ngb last fuel cur next
      pure (next :: rest)
    else pure [next]

/-- The sorting of the common neighbours, mains/sp5c.cpp:90-108: the first one, what the loop pushes,
minus the last element (`pop_back`). -/
def ringOrder [DecidableEq α] (fuel : Nat) (ngb : α → List α) (common : List α) : R (List α) := do
  let c ← frontR common
  let last ← backR (ngb c)
  let pushed ← ringWalk ngb last fuel last c
  pure (c :: pushed).dropLast

/-- `ringngb`, mains/sp5c.cpp:66-74: for each common neighbour, its neighbours among them. -/
def ringNgbs (ngbs : NgbList) (common : List Nat) : R (List (Nat × List Nat)) :=
  common.mapM fun c => do
    let row ← getR ngbs c
    pure (c, Boo.setIntersection row common)

/-- Body of the loop on the bonds, mains/sp5c.cpp:53-115. The state is `(sp5c, spindle)`. -/
def sp5cStep (fuel : Nat) (ngbs : NgbList) (st : List Nat × List Nat) (b : Bond) :
    R (List Nat × List Nat) := do
  let l ← getR ngbs b.low
  let h ← getR ngbs b.high
  let common := Boo.setIntersection l h
  if common.length = 5 then do
    let ring ← ringNgbs ngbs common
    if ring.all (fun r => r.2.length = 2) then do
      let s1 ← modifyR st.2 b.low (· + 1)
      let s2 ← modifyR s1 b.high (· + 1)
      let o ← ringOrder fuel (ringAt ring) common
      pure (st.1 ++ b.low :: b.high :: o, s2)
    else pure st
  else pure st

/-- mains/sp5c.cpp:44-116 for `n` particles: the content of the files `.sp5c` and `.n7a`. -/
def sp5c (fuel n : Nat) (bonds : List Bond) : R (List Nat × List Nat) := do
  let ngbs ← makeNgbListFromBonds n bonds
  bonds.foldlM (sp5cStep fuel ngbs) ([], List.replicate n 0)

end Mains
end Colloids
