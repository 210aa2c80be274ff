import Verif.Rdf.Model
import Verif.Boo.FieldModel
import Verif.Files.Model

/-! # The program `boo` (without periodic boundaries): mains/boo.cpp

`V` stands for `BooData`, `sph` for the spherical harmonics of a bond. Exact real arithmetic. The invariants written in
the `.cloud` files are those of `Verif.Boo.Model`, they are not repeated here. -/

namespace Colloids
namespace Mains

noncomputable section
variable {V : Type} [AddCommGroup V] [Module ℝ V]

/-- The three arrays of tensors, mains/boo.cpp:68. -/
structure BooTensors (V : Type) where
  qlm : List V
  sf : List V
  cg : List V

/-- `if(!empty) removeOutside`, mains/boo.cpp:78-82. -/
def keepInside (n : Nat) (inside : List Nat) (l : List V) : R (List V) :=
  if inside.isEmpty then .ok l else Rdf.removeOutside 0 n inside l

/-- The tensors, mains/boo.cpp:59-91: a selection that is empty is replaced by all the particles. -/
def booTensors (n : Nat) (ngbs : NgbList) (sph : Nat → Nat → V) (inside second : List Nat) : R (BooTensors V) := do
  let s ← Boo.getBOOsSurfBOOs n ngbs sph [] []
  let qlm ← keepInside n inside s.1
  let sf ← keepInside n inside s.2
  let cg ← Boo.getCgBOOs n ngbs (if second.isEmpty then List.range n else second) qlm []
  pure ⟨qlm, sf, cg⟩

/-- `Particles::selectInside`, lib/particles.hpp:302-305: throws without index. -/
def selectInside (ps : Particles ℝ) (margin : ℝ) (noZ : Bool) : R (List Nat) :=
  match ps.index with
  | none => .error .logicError
  | some t => RStarIndex.getInside t margin noZ

/-- The two selections, `select` being with or without index, mains/boo.cpp:41-42, 55-56. -/
def booSelections (select : ℝ → R (List Nat)) (radius : ℝ) : R (List Nat × List Nat) := do
  let inside ← select (1.3 * radius)
  let second ← select (2.0 * 1.3 * radius)
  pure (inside, second)

/-- `calculateBoo`, mains/boo.cpp:29-134. `file` is the content of the file of bonds before, if there is one; the result is
its content after, and the tensors. Only `loadBonds` throws `invalid_argument` within the `try`. -/
def calculateBoo (P : RParams ℝ) (H : Heur 3 ℝ) (sph : Nat → Nat → V) (ps : Particles ℝ) (noZ : Bool)
    (file : Option (List Char)) : R (List Char × BooTensors V) :=
  match file with
  | some text => do
    let bonds ← loadBonds (some text)
    let ngbs ← makeNgbListFromBonds ps.pos.length bonds
    let s ← booSelections (fun m => Particles.selectInsideNoIndex ps m noZ) ps.radius
    let out ← booTensors ps.pos.length ngbs sph s.1 s.2
    pure (text, out)
  | none => do
    let ps ← Particles.makeRTreeIndex P H ps
    let ngbs ← Particles.makeNgbList Particles.geometry ps 1.3
    let s ← booSelections (fun m => selectInside ps m noZ) ps.radius
    let out ← booTensors ps.pos.length ngbs sph s.1 s.2
    pure (writeBonds (ngb2bonds ngbs), out)

/-- `std::set_difference` of two sorted ranges (with the number of steps as fuel). -/
def setDifferenceAux : Nat → List Nat → List Nat → List Nat
  | 0, l, _ => l
  | _ + 1, [], _ => []
  | _ + 1, l, [] => l
  | fuel + 1, a :: l, b :: l' =>
    if a < b then a :: setDifferenceAux fuel l (b :: l')
    else if b < a then setDifferenceAux fuel (a :: l) l'
    else setDifferenceAux fuel l l'

/-- `std::set_difference` of two sorted ranges. -/
def setDifference (l l' : List Nat) : List Nat := setDifferenceAux (l.length + l'.length) l l'

/-- The tensors of `linkboo`, mains/linkboo.cpp:212-216: an empty selection is left empty. -/
def linkbooTensors (n : Nat) (ngbs : NgbList) (sph : Nat → Nat → V) (inside second : List Nat) : R (BooTensors V) := do
  let s ← Boo.getBOOsSurfBOOs n ngbs sph [] []
  let qlm ← Rdf.removeOutside 0 n inside s.1
  let sf ← Rdf.removeOutside 0 n inside s.2
  let cg ← Boo.getCgBOOs n ngbs second qlm []
  pure ⟨qlm, sf, cg⟩

/-- The selections of `linkboo` from the lists of outsides, mains/linkboo.cpp:176-195. -/
def linkbooVoro (n : Nat) (ngbs : NgbList) (sph : Nat → Nat → V) (outside outside2 : List Nat) : R (BooTensors V) :=
  linkbooTensors n ngbs sph (setDifference (List.range n) outside) (setDifference (List.range n) outside2)

/-- A time step of `linkboo` without lists of outsides, mains/linkboo.cpp:199-216. The particles have the default radius
of 1 (82-87) and an index (95). -/
def linkbooStep (sph : Nat → Nat → V) (ps : Particles ℝ) (bondLength : ℝ) : R (BooTensors V) := do
  let ngbs ← Particles.makeNgbList Particles.geometry ps bondLength
  let inside ← selectInside ps bondLength false
  let second ← selectInside ps (2.0 * bondLength) false
  linkbooTensors ps.pos.length ngbs sph inside second

end

/-- The names `head` and `neck`, mains/boo.cpp:31-34. `substr` from the end of the string is empty; the length
`inputPath.size()-head.size()` wraps, all the rest is then taken. -/
def booNames (filename : List Char) : List Char × List Char × List Char :=
  let inputPath := match Files.rfind filename ['.'] with | some i => filename.take i | none => filename
  let head := match Files.rfind filename ['_', 't'] with | some i => filename.take i | none => filename
  let rest := filename.drop head.length
  let neck := if head.length ≤ inputPath.length then rest.take (inputPath.length - head.length) else rest
  (inputPath, head, neck)

/-- The file of the coarse grained tensors, mains/boo.cpp:100. -/
def booSpaceName (filename : List Char) : List Char :=
  let (_, head, neck) := booNames filename
  head ++ "_space".toList ++ neck ++ ".qlm".toList

/-- The file of the tensors, mains/boo.cpp:93. -/
def booOwnName (filename : List Char) : List Char := (booNames filename).1 ++ ".qlm".toList

end Mains
end Colloids
