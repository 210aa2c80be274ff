import Verif.Common

/-! # File series: lib/files_series.{hpp,cpp}

Strings are lists of characters. `size_t` overflow of `step + offset` is not modelled. -/

namespace Colloids
namespace Files

/-- Decimal digits as `operator<<` prints them. -/
def decDigit (n : Nat) : Char := Char.ofNat ('0'.toNat + n)

/-- A natural number in decimal, as printed by `operator<<`. -/
def dec (n : Nat) : List Char :=
  if n < 10 then [decDigit n] else dec (n / 10) ++ [decDigit (n % 10)]

/-- A number padded with zeros to the width `w`, as printed by the boost::format directive `%|0w|`. -/
def pad (w n : Nat) : List Char := List.replicate (w - (dec n).length) '0' ++ dec n

/-- Whether a character is among `"0123456789"`, lib/files_series.cpp:37. -/
def isDig (c : Char) : Bool := '0' ≤ c && c ≤ '9'

/-- The number read in a sequence of decimal digits. -/
def value (d : List Char) : Nat := d.foldl (fun n c => 10 * n + (c.toNat - '0'.toNat)) 0

/-- `std::string::rfind`: position of the last occurrence, `none` for `npos`. -/
def rfind (s t : List Char) : Option Nat :=
  (List.range (s.length + 1)).reverse.find? (fun i => t.isPrefixOf (s.drop i))

/-- `s.find_first_not_of("0123456789", p)`. -/
def findNonDigit (s : List Char) (p : Nat) : Option Nat :=
  ((s.drop p).findIdx? (fun c => !isDig c)).map (p + ·)

/-- Elements of a parsed boost::format string. -/
inductive Piece
  | lit (c : Char)
  | arg (width : Nat)
  deriving DecidableEq, Repr

/-- `boost::format::parse`. Modelled: plain characters, the escape `%%` and the directive `%|0w|`
(which leading zeros of `w` do not change). Any other use of `%` is another directive or an error, given
here the outcome `logicError`, on which no theorem relies. The fuel is the length of the string. -/
def parseFmt : Nat → List Char → R (List Piece)
  | _, [] => .ok []
  | 0, _ :: _ => .error .diverge
  | fuel + 1, c :: s =>
    if c = '%' then
      match s with
      | '%' :: s => do
        let l ← parseFmt fuel s
        pure (Piece.lit '%' :: l)
      | '|' :: '0' :: s =>
        match s.dropWhile isDig with
        | '|' :: s' => do
          let l ← parseFmt fuel s'
          pure (Piece.arg (value (s.takeWhile isDig)) :: l)
        | _ => .error .logicError
      | _ => .error .logicError
    else do
      let l ← parseFmt fuel s
      pure (Piece.lit c :: l)

/-- Whether an element is a directive. -/
def Piece.isArg : Piece → Bool
  | .lit _ => false
  | .arg _ => true

/-- What an element prints. -/
def Piece.print (n : Nat) : Piece → List Char
  | .lit c => [c]
  | .arg w => pad w n

/-- Printing one number: `(format % n).str()`. Without a directive, or with more than one,
boost::format throws (too many or too few arguments). -/
def render (l : List Piece) (n : Nat) : R (List Char) :=
  if (l.filter Piece.isArg).length = 1 then
    .ok (l.flatMap (Piece.print n))
  else .error .logicError

/-- `FileSerie`, lib/files_series.hpp:43-47. -/
structure FileSerie where
  pattern : List Piece
  token : List Char
  length : Nat
  offset : Nat
  deriving DecidableEq, Repr

/-- The format string built by the constructor, lib/files_series.cpp:42. -/
def formatString (head token tail : List Char) (digits : Nat) : List Char :=
  head ++ token ++ ['%', '|', '0'] ++ dec digits ++ ['|'] ++ tail

/-- Constructor, lib/files_series.cpp:27-55. `substr(npos)` throws `out_of_range`. -/
def make (name token : List Char) (size offset : Nat) : R FileSerie :=
  match rfind name token with
  | none => .error .invalidArgument
  | some pos =>
    match findNonDigit name (pos + token.length) with
    | none => .error .outOfRange
    | some digits => do
      let str := formatString (name.take pos) token (name.drop digits)
        (digits - (pos + token.length))
      let p ← parseFmt str.length str
      pure ⟨p, token, size, offset⟩

/-- `FileSerie::operator%`, lib/files_series.hpp:51. -/
def FileSerie.name (f : FileSerie) (step : Nat) : R (List Char) := render f.pattern (step + f.offset)

/-- `pat.substr(0, pat.rfind(".")) + ext`, lib/files_series.cpp:63; `substr(0, npos)` is the whole
string. -/
def replaceExt (pat ext : List Char) : List Char :=
  (match rfind pat ['.'] with
  | some i => pat.take i
  | none => pat) ++ ext

/-- `FileSerie::changeExt`, lib/files_series.cpp:58-65. -/
def FileSerie.changeExt (f : FileSerie) (ext : List Char) : R FileSerie := do
  let pat ← render f.pattern 0
  make (replaceExt pat ext) f.token f.length f.offset

/-- `pat.insert(pat.rfind(token), post)`, lib/files_series.cpp:73; throws if not found. -/
def insertBefore (pat token post : List Char) : R (List Char) :=
  match rfind pat token with
  | some i => .ok (pat.take i ++ post ++ pat.drop i)
  | none => .error .outOfRange

/-- `FileSerie::addPostfix(post)`, lib/files_series.cpp:68-75. -/
def FileSerie.addPostfix (f : FileSerie) (post : List Char) : R FileSerie := do
  let pat ← render f.pattern 0
  let pat ← insertBefore pat f.token post
  make pat f.token f.length f.offset

/-- `FileSerie::addPostfix(post, ext)`, lib/files_series.cpp:78-86. -/
def FileSerie.addPostfixExt (f : FileSerie) (post ext : List Char) : R FileSerie := do
  let pat ← render f.pattern 0
  let pat ← insertBefore pat f.token post
  make (replaceExt pat ext) f.token f.length f.offset

/-- `FileSerie::head`, lib/files_series.cpp:89-96; `erase(npos)` throws. -/
def FileSerie.head (f : FileSerie) : R (List Char) := do
  let pat ← render f.pattern 0
  match rfind pat f.token with
  | some i => pure (pat.take i)
  | none => .error .outOfRange

/-- `FileSerie::get0th`, lib/files_series.cpp:99-109. The token is not used. `size-1` wraps for an
empty series, which is not modelled. -/
def get0th (pre : List Char) (size : Nat) (_token : List Char) : List Char :=
  pre ++ ['_', 't'] ++ List.replicate (max (dec (size - 1)).length 1) '0'

end Files
end Colloids
