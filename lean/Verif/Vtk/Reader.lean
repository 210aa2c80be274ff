import Verif.Vtk.Model

/-! # A reader of the VTK legacy format (the part of it that describes points, lines and data of the points)

This is not code of the project but the specification of its output: "The VTK User's Guide", file formats. -/

namespace Colloids
namespace Vtk

variable {G : Type}

/-- The words of a text, `cur` being the beginning of the current one. -/
def words (cur : List Char) : List Char → List (List Char)
  | [] => if cur = [] then [] else [cur]
  | c :: s =>
    if isSpace c then (if cur = [] then words [] s else cur :: words [] s)
    else words (cur ++ [c]) s

/-- A number without sign. -/
def natOf (w : List Char) : Option Nat :=
  if w ≠ [] ∧ w.all Char.isDigit = true then some (Nat.ofDigitChars 10 w 0) else none

/-- `n` numbers. -/
def numbers (scan : List Char → Option G) : Nat → List (List Char) → Option (List G × List (List Char))
  | 0, ws => some ([], ws)
  | n + 1, a :: ws => do
    let x ← scan a
    let r ← numbers scan n ws
    pure (x :: r.1, r.2)
  | _ + 1, [] => none

/-- `n` points or vectors. -/
def triples (scan : List Char → Option G) : Nat → List (List Char) →
    Option (List (G × G × G) × List (List Char))
  | 0, ws => some ([], ws)
  | n + 1, a :: b :: c :: ws => do
    let x ← scan a
    let y ← scan b
    let z ← scan c
    let r ← triples scan n ws
    pure ((x, y, z) :: r.1, r.2)
  | _ + 1, _ => none

/-- `n` lines of two points. -/
def segments : Nat → List (List Char) → Option (List (Nat × Nat) × List (List Char))
  | 0, ws => some ([], ws)
  | n + 1, k :: a :: b :: ws => do
    let k ← natOf k
    let x ← natOf a
    let y ← natOf b
    let r ← segments n ws
    if k = 2 then pure ((x, y) :: r.1, r.2) else none
  | _ + 1, _ => none

/-- Data of the points. -/
inductive Data (G : Type)
  | scalars (name : List Char) (values : List G)
  | vectors (name : List Char) (values : List (G × G × G))

/-- The data of the `n` points; `fuel` is not less than the number of words. -/
def allData (scan : List Char → Option G) (n : Nat) : (fuel : Nat) → List (List Char) → Option (List (Data G))
  | _, [] => some []
  | 0, _ :: _ => none
  | fuel + 1, k :: name :: t :: ws =>
    if t ≠ kwDouble then none
    else if k = kwScalars then
      match ws with
      | l :: d :: ws =>
        if l = kwLookup ∧ d = kwDefault then do
          let v ← numbers scan n ws
          let r ← allData scan n fuel v.2
          pure (.scalars name v.1 :: r)
        else none
      | _ => none
    else if k = kwVectors then do
      let v ← triples scan n ws
      let r ← allData scan n fuel v.2
      pure (.vectors name v.1 :: r)
    else none
  | _ + 1, _ :: _ => none

/-- What a file contains. -/
structure Contents (G : Type) where
  title : List Char
  points : List (G × G × G)
  lines : List (Nat × Nat)
  data : List (Data G)

/-- The words after the title. -/
def body (scan : List Char → Option G) (title : List Char) (ws : List (List Char)) : Option (Contents G) :=
  match ws with
  | a :: d :: t :: p :: n :: f :: ws =>
    if a = kwAscii ∧ d = kwDataset ∧ t = kwPolydata ∧ p = kwPoints ∧ f = kwDouble then do
      let n ← natOf n
      let pts ← triples scan n ws
      match pts.2 with
      | l :: k :: s :: ws => do
        let k ← natOf k
        let s ← natOf s
        let segs ← segments k ws
        match segs.2 with
        | pd :: m :: ws => do
          let m ← natOf m
          let data ← allData scan n ws.length ws
          if l = kwLines ∧ s = 3 * k ∧ pd = kwPointData ∧ m = n then
            pure { title := title, points := pts.1, lines := segs.1, data := data }
          else none
        | _ => none
      | _ => none
    else none
  | _ => none

/-- The reader. `scan` reads a number from a word. -/
def read (scan : List Char → Option G) (text : List Char) : Option (Contents G) :=
  let l1 := text.takeWhile (· ≠ '\n')
  let r1 := (text.dropWhile (· ≠ '\n')).drop 1
  let l2 := r1.takeWhile (· ≠ '\n')
  let r2 := (r1.dropWhile (· ≠ '\n')).drop 1
  if l1 = version then body scan l2 (words [] r2) else none

end Vtk
end Colloids
