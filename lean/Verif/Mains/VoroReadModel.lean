import Verif.Mains.VoroModel

/-! # Reading back the text of voro++: `VoroContainer::get_volumes`, mains/cgVoro.cpp:60-83

The text is given as its words. A word is a whole number (`%i`, `%s`, `%n`) or a volume (`%v`): that a volume may be written without dots is not modelled, as
only texts that have the words in the right order are considered. -/

namespace Colloids
namespace Mains

/-- A word of the text. -/
inductive Word (G : Type)
  | int : Int → Word G
  | vol : G → Word G

/-- A `stringstream`: the words that are left, if something (a newline) follows the last word, and the bits `eofbit` and `failbit`. -/
structure Stream (G : Type) where
  words : List (Word G)
  newline : Bool
  eof : Bool
  fail : Bool

variable {G : Type}

/-- `buffer.good()`. -/
def Stream.good (b : Stream G) : Bool := !b.eof && !b.fail

/-- The stream after a word is taken: the end is seen if nothing follows the word. -/
def Stream.next (b : Stream G) (ws : List (Word G)) : Stream G := { b with words := ws, eof := ws.isEmpty && !b.newline }

/-- `buffer >> x` with an `int`. If the stream is not good, or has only spaces left, nothing is written to `x` (the sentry fails). `none` is a variable that was
not given a value. -/
def Stream.readInt (b : Stream G) (x : Option Int) : Option Int × Stream G :=
  if b.good then
    match b.words with
    | [] => (x, { b with eof := true, fail := true })
    | .int i :: ws => (some i, b.next ws)
    | .vol _ :: ws => (some 0, { b.next ws with fail := true })
  else (x, { b with fail := true })

/-- `buffer >> x` with a `double`. -/
def Stream.readVol (zero : G) (b : Stream G) (x : G) : G × Stream G :=
  if b.good then
    match b.words with
    | [] => (x, { b with eof := true, fail := true })
    | .vol v :: ws => (v, b.next ws)
    | .int _ :: ws => (zero, { b.next ws with fail := true })
  else (x, { b with fail := true })

/-- The variables of `get_volumes`. -/
structure Reading (G : Type) where
  buffer : Stream G
  p : Option Int
  s : Option Int
  volumes : List G
  neighbours : List (List Int)

/-- The use of an `int` that may have no value. -/
def useInt (x : Option Int) : R Int :=
  match x with
  | some i => .ok i
  | none => .error .ub

/-- `resize`, for a size converted to `size_t`: a negative number is too large and an exception is thrown. -/
def resizeI (l : List Int) (s : Int) : R (List Int) :=
  if 0 ≤ s then .ok (l.take s.toNat ++ List.replicate (s.toNat - l.length) 0) else .error .logicError

/-- `for(int i=0; i<s; ++i) buffer >> neighbours[p][i];`, mains/cgVoro.cpp:76-77: the row is read in place. -/
def readRow : Stream G → List Int → List Int × Stream G
  | b, [] => ([], b)
  | b, a :: row =>
    let r := b.readInt (some a)
    let rest := readRow r.2 row
    (r.1.getD a :: rest.1, rest.2)

/-- Body of the loop, mains/cgVoro.cpp:72-77. -/
def readCell (zero : G) (x : Reading G) : R (Reading G) := do
  let rp := x.buffer.readInt x.p
  let p ← useInt rp.1
  let v ← getI x.volumes p
  let rv := rp.2.readVol zero v
  let volumes ← modifyI x.volumes p (fun _ => rv.1)
  let rs := rv.2.readInt x.s
  let row ← getI x.neighbours p
  let s ← useInt rs.1
  let row ← resizeI row s
  let rr := readRow rs.2 row
  let neighbours ← modifyI x.neighbours p (fun _ => rr.1)
  pure ⟨rr.2, some p, some s, volumes, neighbours⟩

/-- The loop, mains/cgVoro.cpp:70-78. `fuel` bounds the number of turns. -/
def readCells (zero : G) : Nat → Reading G → R (Reading G)
  | 0, _ => .error .diverge
  | fuel + 1, x =>
    if x.buffer.good then do
      let x ← readCell zero x
      readCells zero fuel x
    else pure x

/-- `get_volumes`, mains/cgVoro.cpp:60-83, for a container that is used for the first time; `sort` is `std::sort`. -/
def getVolumes (sort : List Int → List Int) (zero : G) (words : List (Word G)) (newline : Bool) (volumes : List G) : R (List G × List (List Int)) := do
  let x ← readCells zero (words.length + 2) ⟨⟨words, newline, false, false⟩, none, none, volumes, List.replicate volumes.length []⟩
  pure (x.volumes, x.neighbours.map sort)

end Mains
end Colloids
