import Verif.Boo.FieldModel
import Verif.Index.Model
import Verif.Dyn.Model

/-! # Local structures found from the neighbour lists: lib/particles.cpp:650-773 -/

namespace Colloids
namespace Structure
open Boo (setIntersection)
open Dyn (setDifference)

/-- The loop of `Particles::is_ring`, lib/particles.cpp:653-663. -/
def isRingLoop (ngbs : NgbList) (common : List Nat) : List Nat → R Bool
  | [] => pure true
  | c :: cs => do
    let row ← getR ngbs c
    if (setIntersection row common).length ≠ 2 then pure false else isRingLoop ngbs common cs

/-- `Particles::is_ring`, lib/particles.cpp:651-665. -/
def isRing (ngbs : NgbList) (common : List Nat) : R Bool := isRingLoop ngbs common common

/-- `Particles::getSP5c`, lib/particles.cpp:672-691; `acc` is the content of the output argument, to
which the clusters are appended. -/
def getSP5c (ngbs : NgbList) (acc : List (List Nat)) : R (List (List Nat)) :=
  (List.range ngbs.length).foldlM (fun (acc : List (List Nat)) (p : Nat) => do
    let row ← getR ngbs p
    (fromLowerBound row (p + 1)).foldlM (fun (acc : List (List Nat)) (q : Nat) => do
      let rowq ← getR ngbs q
      let common := p :: q :: setIntersection row rowq
      pure (if common.length = 7 then acc ++ [common] else acc)) acc) acc

/-- `if(common.size()!=k || !is_ring(common)) continue; ret.insert(ret.end(), Bond(p,*q))`,
lib/particles.cpp:707-709 and 746-748. -/
def insertRing (ngbs : NgbList) (k p q : Nat) (common : List Nat) (ret : List Bond) : R (List Bond) :=
  if common.length ≠ k then pure ret
  else do
    let ring ← isRing ngbs common
    pure (if ring then bondInsert (Bond.mk' p q) ret else ret)

/-- `Particles::get1551pairs`, lib/particles.cpp:694-712. -/
def get1551pairs (ngbs : NgbList) : R (List Bond) :=
  (List.range ngbs.length).foldlM (fun (ret : List Bond) (p : Nat) => do
    let row ← getR ngbs p
    (fromLowerBound row (p + 1)).foldlM (fun (ret : List Bond) (q : Nat) => do
      let rowq ← getR ngbs q
      insertRing ngbs 5 p q (setIntersection row rowq) ret) ret) []

/-- The sorted list of the neighbours of the neighbours, lib/particles.cpp:722-729 and 760-768. -/
def secondNgb (ngbs : NgbList) (row : List Nat) : R (List Nat) := do
  let l ← row.mapM (fun c => getR ngbs c)
  pure (sortUnique l.flatten)

/-- `Particles::get2331pairs`, lib/particles.cpp:715-752. -/
def get2331pairs (ngbs : NgbList) : R (List Bond) :=
  (List.range ngbs.length).foldlM (fun (ret : List Bond) (p : Nat) => do
    let row ← getR ngbs p
    let second ← secondNgb ngbs row
    let notFirst := setDifference second row
    (fromLowerBound notFirst (p + 1)).foldlM (fun (ret : List Bond) (q : Nat) => do
      let rowq ← getR ngbs q
      insertRing ngbs 3 p q (setIntersection row rowq) ret) ret) []

/-- `Particles::getSecondShell`, lib/particles.cpp:755-773. -/
def getSecondShell (ngbs : NgbList) : R (List Bond) :=
  (List.range ngbs.length).foldlM (fun (ret : List Bond) (p : Nat) => do
    let row ← getR ngbs p
    let second ← secondNgb ngbs row
    pure ((fromLowerBound second (p + 1)).foldl
      (fun (ret : List Bond) (q : Nat) => bondInsert (Bond.mk' p q) ret) ret)) []

end Structure
end Colloids
