import Mathlib.Analysis.SpecialFunctions.Pow.Real
import Mathlib.Algebra.Order.Field.Basic
import Verif.Common

/-!
# `python/colloids/vtk.py`

Files of the legacy format and averages over bonds.  The text of a number is a single token (the digits lost by `%g` are not
modelled); names of fields are a single word; `export_structured_points` is in GridVtkModel; `Dynamo2vtk` and `clustersize` are not modelled.
-/

namespace Colloids
namespace Py
namespace Vtk

/-! ### Averages over bonds -/

section Cg

variable {F : Type} [Field F] [LinearOrder F]

/-- `a[idx] += vals` of numpy: everything is read first, then assigned in order; an index that is repeated keeps the last -/
def fancyAdd {α : Type} [Add α] (a : List α) (idx : List Nat) (vals : List α) : R (List α) :=
  (idx.zip vals).foldlM (fun acc iv =>
    match a[iv.1]? with
    | some x => .ok (acc.set iv.1 (x + iv.2))
    | none => .error .outOfRange) a

/-- `field[idx]` -/
def takeIdx {α : Type} (field : List α) (idx : List Nat) : R (List α) :=
  idx.mapM fun i => match field[i]? with
    | some x => .ok x
    | none => .error .outOfRange

/-- `Polydata.coarseGrainField`; the maximum of no bond is an error.  vtk.py:153-161 -/
def coarseGrain (bonds : List (Nat × Nat)) (field : List F) : R (List F) :=
  if bonds = [] then .error .invalidArgument
  else do
    let v1 ← takeIdx field (bonds.map Prod.snd)
    let cg ← fancyAdd field (bonds.map Prod.fst) v1
    let v0 ← takeIdx field (bonds.map Prod.fst)
    let cg ← fancyAdd cg (bonds.map Prod.snd) v0
    .ok ((List.range field.length).map fun p =>
      cg.getD p 0 / (1 + ((bonds.map Prod.fst).count p : F) + ((bonds.map Prod.snd).count p : F)))

/-- one turn of the loop of `dilateField`.  vtk.py:166-167 -/
def dilateOne (field : List F) (dil : List F) (b : Nat × Nat) : R (List F) :=
  match field[b.1]?, field[b.2]? with
  | some x, some y => .ok ((dil.set b.2 (max x y)).set b.1 (max x y))
  | _, _ => .error .outOfRange

/-- `Polydata.dilateField`.  vtk.py:163-168 -/
def dilate (bonds : List (Nat × Nat)) (field : List F) : R (List F) :=
  bonds.foldlM (dilateOne field) (List.replicate field.length 0)

end Cg

/-! ### Spatial correlation -/

noncomputable section

/-- distance of two points of `d` coordinates -/
def dist (d : Nat) (pos : Nat → Nat → ℝ) (p q : Nat) : ℝ := √(((List.range d).map fun c => (pos q c - pos p c) ^ 2).sum)

open Classical in
/-- `inside_id`; `lo` and `hi` are the extrema of the coordinates.  vtk.py:277-282 -/
def insideId (N d : Nat) (pos : Nat → Nat → ℝ) (lo hi : Nat → ℝ) (maxDist : ℝ) : List Nat :=
  (List.range N).filter fun p => (List.range d).all fun c =>
    decide (lo c + maxDist / 2 ≤ pos p c) && decide (pos p c ≤ hi c - maxDist / 2)

/-- the bin of a pair.  vtk.py:291-295 -/
def binOf (d Nbins : Nat) (maxDist : ℝ) (pos : Nat → Nat → ℝ) (p q : Nat) : Nat := ⌊dist d pos p q * Nbins / maxDist⌋₊

/-- one turn of the loop on particles; `query p` is what the tree returns for `p`.  vtk.py:289-297 -/
def corrOne (d Nbins : Nat) (maxDist : ℝ) (pos : Nat → Nat → ℝ) (f : Nat → ℝ) (query : Nat → List Nat)
    (st : List Nat × List ℝ) (p : Nat) : R (List Nat × List ℝ) :=
  let qs := (query p).erase p
  let rs := qs.map (binOf d Nbins maxDist pos p)
  do
    let nb ← fancyAdd st.1 rs (rs.map fun _ => 1)
    let coord ← fancyAdd st.2 rs (qs.map fun q => f q * f p)
    .ok (nb, coord)

/-- `spatialCorelation` of a scalar field (one column; the columns of a vector are added): first column and correlation of each bin.
vtk.py:277-300 -/
def spatialCor (N d Nbins : Nat) (maxDist : ℝ) (pos : Nat → Nat → ℝ) (lo hi : Nat → ℝ) (f : Nat → ℝ)
    (query : Nat → List Nat) : R (List (ℝ × ℝ)) := do
  let st ← (insideId N d pos lo hi maxDist).foldlM (corrOne d Nbins maxDist pos f query)
    (List.replicate Nbins 0, List.replicate Nbins 0)
  .ok ((List.range Nbins).map fun (b : Nat) =>
    ((b : ℝ) / maxDist, if st.1.getD b 0 = 0 then st.2.getD b 0 else st.2.getD b 0 / (st.1.getD b 0 : ℝ)))

end

/-! ### Files -/

section File

variable {F : Type} [Field F] [LinearOrder F]

/-- a token of a text file -/
inductive Tok (F : Type) where
  | key (s : String)
  | num (x : F)
  | int (n : Nat)
  | nl

/-- `Polydata` -/
structure Polydata (F : Type) where
  name : String
  points : List (F × F × F)
  bonds : List (Nat × Nat)
  scalars : List (String × List F)
  vectors : List (String × List (F × F × F))
  bondsScalars : List (String × List F)

/-- `Polydata()` -/
def Polydata.empty : Polydata F := ⟨"", [], [], [], [], []⟩

open Tok

/-- a line of three numbers -/
def line3 (p : F × F × F) : List (Tok F) := [num p.1, num p.2.1, num p.2.2, nl]

/-- the values of a scalar field: one by line, and the end of the last line -/
def column (field : List F) : List (Tok F) := if field = [] then [nl] else field.flatMap fun x => [num x, nl]

/-- a scalar field.  vtk.py:118-127, 137-146 -/
def saveScalar (s : String × List F) : List (Tok F) :=
  [key "SCALARS", key s.1, key "double", nl, key "LOOKUP_TABLE", key "default", nl] ++ column s.2

/-- `Polydata.save` (fields of floats; those of integers only differ by a word).  vtk.py:91-146 -/
def save (d : Polydata F) : List (Tok F) :=
  [key "#", key "vtk", key "DataFile", key "Version", key "3.0", nl, key d.name, nl, key "ASCII", nl,
    key "DATASET", key "POLYDATA", nl] ++
  ([key "POINTS", int d.points.length, key "double", nl] ++ d.points.flatMap line3) ++
  ([key "LINES", int d.bonds.length, int (3 * d.bonds.length), nl] ++
    d.bonds.flatMap fun b => [int 2, int b.1, int b.2, nl]) ++
  [key "POINT_DATA", int d.points.length, nl] ++
  d.scalars.flatMap saveScalar ++
  (d.vectors.flatMap fun v => [key "VECTORS", key v.1, key "double", nl] ++ v.2.flatMap line3) ++
  (if d.bondsScalars = [] then [] else [key "CELL_DATA", int d.bonds.length, nl] ++ d.bondsScalars.flatMap saveScalar)

/-- `f.readline()` -/
def readline : List (Tok F) → List (Tok F) × List (Tok F)
  | [] => ([], [])
  | nl :: r => ([], r)
  | t :: r => let q := readline r; (t :: q.1, q.2)

/-- the spaces after a number are read too -/
def skipNl : List (Tok F) → List (Tok F)
  | nl :: r => skipNl r
  | r => r

/-- `np.fromfile(f, count=count, sep=" ")`: it stops at a word that is not a number, or at the end of the file -/
def fromfile : Nat → List (Tok F) → List F × List (Tok F)
  | 0, r => ([], r)
  | n + 1, num x :: r => let q := fromfile n (skipNl r); (x :: q.1, q.2)
  | n + 1, int i :: r => let q := fromfile n (skipNl r); ((i : F) :: q.1, q.2)
  | _ + 1, r => ([], r)

/-- the same with integers -/
def fromfileI : Nat → List (Tok F) → List Nat × List (Tok F)
  | 0, r => ([], r)
  | n + 1, int i :: r => let q := fromfileI n (skipNl r); (i :: q.1, q.2)
  | _ + 1, r => ([], r)

/-- `reshape((size, 3))` -/
def triples {α : Type} : List α → List (α × α × α)
  | a :: b :: c :: r => (a, b, c) :: triples r
  | _ => []

/-- one turn of the loop of `Polydata.load`, after `line = f.readline().split()`; `size` is a variable that is not set at the
beginning.  vtk.py:60-88 -/
def loadStep (st : Polydata F × Option Nat) (toks : List (Tok F)) : R ((Polydata F × Option Nat) × List (Tok F)) :=
  let l := readline toks
  match l.1 with
  | [] => .error .outOfRange
  | key "#" :: _ =>
    let q := readline l.2
    match q.1 with
    | [key s] => .ok (({ st.1 with name := s }, st.2), q.2)
    | _ => .ok (({ st.1 with name := "" }, st.2), q.2)
  | key "POINTS" :: int n :: _ =>
    let q := fromfile (n * 3) l.2
    if q.1.length = n * 3 then .ok (({ st.1 with points := triples q.1 }, some n), q.2) else .error .invalidArgument
  | key "LINES" :: int n :: _ =>
    let q := fromfileI (n * 3) l.2
    if q.1.length = n * 3 then
      .ok (({ st.1 with bonds := (triples q.1).map fun t => (t.2.1, t.2.2) }, some n), q.2)
    else .error .invalidArgument
  | key "POINT_DATA" :: int n :: _ => .ok ((st.1, some n), l.2)
  | key "SCALARS" :: key s :: _ =>
    let q := readline l.2
    match st.2 with
    | none => .error .logicError
    | some n =>
      let v := fromfile n q.2
      .ok (({ st.1 with scalars := st.1.scalars ++ [(s, v.1)] }, st.2), v.2)
  | key "VECTORS" :: key s :: _ =>
    match st.2 with
    | none => .error .logicError
    | some n =>
      let v := fromfile (n * 3) l.2
      if v.1.length = n * 3 then
        .ok (({ st.1 with vectors := st.1.vectors ++ [(s, triples v.1)] }, st.2), v.2)
      else .error .invalidArgument
  | _ => .ok (st, l.2)

/-- the loop of `Polydata.load`; each turn reads a line or more -/
def loadLoop : Nat → Polydata F × Option Nat → List (Tok F) → R (Polydata F)
  | _, st, [] => .ok st.1
  | 0, _, _ => .error .diverge
  | k + 1, st, toks =>
    match loadStep st toks with
    | .error e => .error e
    | .ok r => loadLoop k r.1 r.2

/-- `Polydata.load` in an empty object.  vtk.py:54-89 -/
def load (toks : List (Tok F)) : R (Polydata F) := loadLoop toks.length (Polydata.empty, none) toks

end File

end Vtk
end Py
end Colloids
