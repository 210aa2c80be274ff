import Verif.Common

/-! # The files of `exportDynamics`: lib/dynamicParticles.cpp:1066-1107 -/

namespace Colloids
namespace DynExport

/-- What is sent to a file: a text, a number, a tabulation or the end of a line. The digits of the numbers are not modelled. -/
inductive Cell (F : Type) where
  | text (s : String)
  | num (x : F)
  | tab
  | nl

/-- The heads of the three files: `msd`, `isf`, `ngp`, lib/dynamicParticles.cpp:1075-1089. -/
def heads {F : Type} (names : List String) (nsets : Nat) : R (List (Cell F) × List (Cell F) × List (Cell F)) :=
  (List.range nsets).foldlM (fun (h : List (Cell F) × List (Cell F) × List (Cell F)) s => do
    let name ← getR names s
    pure (h.1 ++ [.tab, .text name],
      h.2.1 ++ (["x", "y", "z"].flatMap fun d => [.tab, .text name, .text "_", .text d]) ++ [.tab, .text name, .text "_av"],
      h.2.2 ++ [.tab, .text name])) ([.text "#t"], [.text "#t"], [.text "#t"])

/-- The values of a set at a time, lib/dynamicParticles.cpp:1096-1102. -/
def setCells {F : Type} (MSD ISF NGP : List (List F)) (t : Nat) (row : List (Cell F) × List (Cell F) × List (Cell F)) (s : Nat) :
    R (List (Cell F) × List (Cell F) × List (Cell F)) := do
  let m ← getR (← getR MSD s) t
  let n ← getR (← getR NGP s) t
  let i ← (List.range 4).foldlM (fun (c : List (Cell F)) d => do
    let x ← getR (← getR ISF (4 * s + d)) t
    pure (c ++ [.tab, .num x])) row.2.1
  pure (row.1 ++ [.tab, .num m], i, row.2.2 ++ [.tab, .num n])

/-- The body of the loop over the times, lib/dynamicParticles.cpp:1091-1106. -/
def timeCells {F : Type} [Mul F] [NatCast F] (dt : F) (nsets : Nat) (MSD ISF NGP : List (List F))
    (f : List (Cell F) × List (Cell F) × List (Cell F)) (t : Nat) : R (List (Cell F) × List (Cell F) × List (Cell F)) := do
  let c := Cell.num ((t : F) * dt)
  let r ← (List.range nsets).foldlM (setCells MSD ISF NGP t) (f.1 ++ [c], f.2.1 ++ [c], f.2.2 ++ [c])
  pure (r.1 ++ [.nl], r.2.1 ++ [.nl], r.2.2 ++ [.nl])

/-- `exportDynamics(sets, setsNames, inputPath)`, lib/dynamicParticles.cpp:1066-1107: the contents of the files `.msd`, `.isf` and `.ngp`. What
`makeDynamics` computes is given: as it stands this function is always undefined (C125), so that the theorems on the files are about a `makeDynamics` that returns. The files are supposed to open. -/
def exportDynamics {F : Type} [Mul F] [NatCast F] (dt : F) (names : List String) (nsets : Nat) (MSD ISF NGP : List (List F)) :
    R (List (Cell F) × List (Cell F) × List (Cell F)) := do
  let h ← heads names nsets
  let front ← getR MSD 0
  (List.range front.length).foldlM (timeCells dt nsets MSD ISF NGP) h

end DynExport
end Colloids
