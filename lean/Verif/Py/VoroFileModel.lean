import Mathlib.Analysis.SpecialFunctions.Pow.Real
import Verif.Py.VoroModel

/-! # Volumes, faces and network of bonds through voro++: python/colloids/voro.py -/

namespace Colloids
namespace Py
namespace VoroFile

/-- A position. -/
abbrev Pos := Fin 3 → ℝ

/-- `dat.min(axis=0)[d]` for the positions `a :: l`. -/
def colMin (a : Pos) (l : List Pos) (d : Fin 3) : ℝ := l.foldl (fun m p => min m (p d)) (a d)

/-- `dat.max(axis=0)[d]` for the positions `a :: l`. -/
def colMax (a : Pos) (l : List Pos) (d : Fin 3) : ℝ := l.foldl (fun m p => max m (p d)) (a d)

/-- `bb`, voro.py:36 and 64: a row for each dimension. `loadtxt` gives a vector for one position only, `bb` is then a single row; there is no
minimum without position. -/
def box (dat : List Pos) : R (List (List ℝ)) :=
  match dat with
  | [] => .error .invalidArgument
  | [a] => .ok [[a 0 - 0.1, a 0 + 0.1]]
  | a :: l => .ok ([0, 1, 2].map fun d => [colMin a l d - 0.1, colMax a l d + 0.1])

/-- `saveVoroFormat`, voro.py:24-30: number and coordinates of each particle. `g` is the rounding of `%g`. With one position the three numbers
make three lines of two columns, and the format has four. -/
def saveVoro (g : ℝ → ℝ) (dat : List Pos) : R (List (Nat × Pos)) :=
  if dat.length = 1 then .error .invalidArgument
  else .ok ((List.range dat.length).zip dat |>.map fun x => (x.1, fun d => g (x.2 d)))

/-- `'10 %g %g %g %g %g %g' % tuple(l)`, voro.py:40: the six numbers after `10`. -/
def sixArgs (g : ℝ → ℝ) (l : List ℝ) : R (List ℝ) := if l.length = 6 then .ok (l.map g) else .error .invalidArgument

/-- Order on the records: `id`, then the other field. -/
noncomputable def recLE (a b : Nat × ℝ) : Bool := decide (a.1 < b.1 ∨ (a.1 = b.1 ∧ a.2 ≤ b.2))

/-- The lines read back, sorted, voro.py:43-49. An array without dimension, from a single line, is not sorted. -/
noncomputable def sortVol (lines : List (Nat × ℝ)) : R (List ℝ) :=
  if lines.length = 1 then .error .invalidArgument else .ok ((lines.mergeSort recLE).map Prod.snd)

/-- `volume`, voro.py:32-52. `voro` is voro++: the box and the particles it gets, the lines `%i %v` that it prints. Names and removal of files
are not modelled, nor the rounding of what is saved in the end. -/
noncomputable def volume (g : ℝ → ℝ) (voro : List ℝ → List (Nat × Pos) → List (Nat × ℝ)) (dat : List Pos) : R (List ℝ) := do
  let bb ← box dat
  let file ← saveVoro g dat
  let args ← sixArgs g bb.flatten
  sortVol (voro args file)

/-- `'%g' % x` for an array: it must have one item. -/
def fmtArray (g : ℝ → ℝ) (x : List ℝ) : R ℝ :=
  match x with
  | [a] => .ok (g a)
  | _ => .error .invalidArgument

/-- `'10 5 %g 5 %g 5 %g' % tuple(bb)`, voro.py:69: the three formatted items. -/
def threeArgs (g : ℝ → ℝ) (bb : List (List ℝ)) : R (List ℝ) := if bb.length = 3 then bb.mapM (fmtArray g) else .error .invalidArgument

/-- `faces`, voro.py:54-73, until voro++ is called: the three numbers. -/
noncomputable def facesArgs (g : ℝ → ℝ) (dat : List Pos) : R (List ℝ) := do
  let bb ← box dat
  let _ ← saveVoro g dat
  threeArgs g bb

/-- A particle: position and radius, columns 0 to 3 of the array, voro.py:138. -/
structure Part where
  x : Pos
  r : ℝ

/-- The box of `make_bond_network`, voro.py:150-153: a lower and an upper bound for each dimension. -/
def partBox (parts : List Part) : R (List ℝ) :=
  match parts with
  | [] => .error .invalidArgument
  | a :: l => .ok ([0, 1, 2].flatMap fun d => [l.foldl (fun m p => min m (p.x d - p.r)) (a.x d - a.r),
      l.foldl (fun m p => max m (p.x d + p.r)) (a.x d + a.r)])

/-- `bondlengths<2.26` for a bond, voro.py:157-160. A division by zero is infinite or not a number, and no comparison is then true. -/
noncomputable def shortBond (p q : Part) : Bool :=
  decide (p.r + q.r ≠ 0 ∧ Real.sqrt ((q.x 0 - p.x 0) ^ 2 + (q.x 1 - p.x 1) ^ 2 + (q.x 2 - p.x 2) ^ 2) / (p.r + q.r) < 2.26)

/-- Whether a bond is short, for two numbers of particles, voro.py:157-160. -/
noncomputable def shortOf (parts : List Part) (b : Nat × Nat) : R Bool :=
  match parts[b.1]?, parts[b.2]? with
  | some p, some q => .ok (shortBond p q)
  | _, _ => .error .outOfRange

/-- `bonds[bondlengths<2.26]`, voro.py:157-160. -/
noncomputable def keepShort (parts : List Part) (bonds : List (Nat × Nat)) : R (List (Nat × Nat)) := do
  let keep ← bonds.mapM (shortOf parts)
  pure (((bonds.zip keep).filter Prod.snd).map Prod.fst)

/-- `make_bond_network`, voro.py:136-162: what is saved in `.bonds`, `.outside` and `.outside2`. `voro` is voro++: box and particles, cells
`%i %s %n`. The file `.dat` and the rounding of the numbers given to voro++ are not modelled. Numbers of particles are not negative after the
walls have been removed. -/
noncomputable def network (uniq : List Int → List Int) (voro : List ℝ → List Part → List Voro.Cell) (parts : List Part) :
    R (List (Nat × Nat) × List Nat × List Nat) := do
  let bb ← partBox parts
  let loaded ← Voro.loadVorobonds uniq (voro bb parts)
  let bonds := loaded.1.map fun b => (b.1.toNat, b.2.toNat)
  let outside := loaded.2.map Int.toNat
  let outside2 ← Voro.secondOutside bonds outside
  let short ← keepShort parts bonds
  pure (short, outside, outside2)

end VoroFile
end Py
end Colloids
