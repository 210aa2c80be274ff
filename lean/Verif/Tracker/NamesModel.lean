import Verif.Files.Model

/-! # The names of the images of a `SerieTracker`: graphic/serieTracker.cpp:160-269

Strings are lists of characters, as in `Verif.Files.Model`. -/

namespace Colloids
namespace Tracker

open Files (Piece rfind findNonDigit dec pad isDig value)

/-- The character that `string::resize` appends and that ends a C string. -/
def nul : Char := Char.ofNat 0

/-- `string::resize`. -/
def resizeStr (s : List Char) (n : Nat) : List Char := s.take n ++ List.replicate (n - s.length) nul

/-- `c_str()` as a file name. -/
def cStr (s : List Char) : List Char := s.takeWhile (fun c => c != nul)

/-- What the constructor makes of the name: `hasTime`, `hasDepth` and `namePattern`. -/
structure Pattern where
  hasTime : Bool
  hasDepth : Bool
  format : List Char
  deriving DecidableEq, Repr

/-- The part on time, graphic/serieTracker.cpp:177-190: head, tail, `tdigits`; `none` without time.
`substr(npos)` throws. -/
def parseTime (name : List Char) (nt : Nat) : R (Option Nat × List Char × List Char) :=
  match rfind name ['_', 't'] with
  | some tpos =>
    match findNonDigit name (tpos + 2) with
    | none => .error .outOfRange
    | some d => .ok (some (d - (tpos + 2)), name.take tpos, name.drop d)
  | none => if nt > 1 then .error .invalidArgument else .ok (none, name, [])

/-- The part on depth, graphic/serieTracker.cpp:191-206: from head and tail. If there is no character after the
digits `zdigits` is the difference of `npos` and a position. -/
def parseDepth (name : List Char) (nz : Nat) (head tail : List Char) :
    R (Option Nat × List Char × List Char) :=
  match rfind name ['_', 'z'] with
  | some zpos =>
    match findNonDigit name (zpos + 2) with
    | none => if tail.isEmpty then .error .outOfRange
        else .ok (some (2 ^ 64 - 1 - (zpos + 2)), resizeStr head zpos, tail)
    | some d => .ok (some (d - (zpos + 2)), resizeStr head zpos, if tail.isEmpty then name.drop d else tail)
  | none => if nz > 1 then .error .invalidArgument else .ok (none, head, tail)

/-- `"_z%|0" << digits << "d|"`, or nothing. -/
def directive (letter : Char) : Option Nat → List Char
  | none => []
  | some w => ['_', letter, '%', '|', '0'] ++ dec w ++ ['d', '|']

/-- The constructor of `SerieTracker`, the part on the name, graphic/serieTracker.cpp:171-217. `nz` and `nt` are
`xyzt[2]` and `xyzt[3]`. -/
def parseName (name : List Char) (nz nt : Nat) : R Pattern := do
  let (tdigits, head, tail) ← parseTime name nt
  let (zdigits, head, tail) ← parseDepth name nz head tail
  pure ⟨tdigits.isSome, zdigits.isSome, head ++ directive 'z' zdigits ++ directive 't' tdigits ++ tail⟩

/-- `boost::format::parse`, see `Files.parseFmt`, with the directive `%|0wd|`. -/
def parseFmtD : Nat → List Char → R (List Piece)
  | _, [] => .ok []
  | 0, _ :: _ => .error .diverge
  | fuel + 1, c :: s =>
    if c = '%' then
      match s with
      | '%' :: s => do
        let l ← parseFmtD fuel s
        pure (Piece.lit '%' :: l)
      | '|' :: '0' :: s =>
        match s.dropWhile isDig with
        | 'd' :: '|' :: s' => do
          let l ← parseFmtD fuel s'
          pure (Piece.arg (value (s.takeWhile isDig)) :: l)
        | _ => .error .logicError
      | _ => .error .logicError
    else do
      let l ← parseFmtD fuel s
      pure (Piece.lit c :: l)

/-- `(format % a % b).str()`: the directives get the arguments in order. Other numbers of arguments than
directives throw. -/
def renderArgs : List Piece → List Nat → R (List Char)
  | [], [] => .ok []
  | [], _ :: _ => .error .logicError
  | .lit c :: l, args => do
    let r ← renderArgs l args
    pure (c :: r)
  | .arg _ :: _, [] => .error .logicError
  | .arg w :: l, a :: args => do
    let r ← renderArgs l args
    pure (pad w a ++ r)

/-- The file that `SerieTracker::setTimeStep(t)` loads for the slice `z`, graphic/serieTracker.cpp:240-266. -/
def fileName (p : Pattern) (z t : Nat) : R (List Char) := do
  let l ← parseFmtD p.format.length p.format
  let s ← renderArgs l ((if p.hasDepth then [z] else []) ++ if p.hasTime then [t] else [])
  pure (cStr s)

end Tracker
end Colloids
