import Verif.Files.Model

/-! # Series of images named after one of them: python/colloids/track_orange.py:28-49, also count_nuclei.py:17-31, spectrum.py:17-35 and track_droplet.py:49-99

Names are lists of characters without ends of lines. -/

namespace Colloids
namespace Py
namespace ImSeries

/-- What is before and after the last underscore -/
def lastUnderscore : List Char → Option (List Char × List Char)
  | [] => none
  | c :: s =>
    match lastUnderscore s with
    | some (a, b) => some (c :: a, b)
    | none => if c = '_' then some ([], s) else none

/-- `re.match('(.*)_([0-9]*)(.*)', filename)`, track_orange.py:30: the stars take as much as possible, first the first one. -/
def groups (name : List Char) : Option (List Char × List Char × List Char) :=
  match lastUnderscore name with
  | some (a, b) => some (a, b.takeWhile Files.isDig, b.dropWhile Files.isDig)
  | none => none

/-- `pattern`, track_orange.py:30-32; without match the assertion fails. -/
def pattern (name : List Char) : R (List Char) :=
  match groups name with
  | some (a, d, r) => .ok (a ++ ['_', '%'] ++ (['0'] ++ Files.dec d.length ++ ['d']) ++ r)
  | none => .error .logicError

/-- A number converted by `%` and the width `w`: padded with zeros if the width begins with zero, with spaces otherwise -/
def convert (w : List Char) (t : Nat) : List Char :=
  if w.head? = some '0' then Files.pad (Files.value w) t else List.replicate (Files.value w - (Files.dec t).length) ' ' ++ Files.dec t

/-- A conversion with the width `w` -/
def convNum (w s : List Char) (arg : Option Nat) : R (List Char × List Char × Option Nat) :=
  match s, arg with
  | 'd' :: s', some t => .ok (convert w t, s', none)
  | _, _ => .error .invalidArgument

/-- What is after a percent sign: what is written, what is left of the format and of the arguments -/
def conv (s : List Char) (arg : Option Nat) : R (List Char × List Char × Option Nat) :=
  if s.head? = some '%' then .ok (['%'], s.tail, arg) else convNum (s.takeWhile Files.isDig) (s.dropWhile Files.isDig) arg

/-- `format % t` of python, for plain characters, `%%` and conversions to decimal numbers with a width. `arg` is the number, if it is not used yet; one that is
missing or left is a `TypeError`. Anything else after a percent sign is an error here, as it is for what is not a conversion (`ValueError`): other conversions are
not modelled. The fuel is the length of the format. -/
def format : Nat → List Char → Option Nat → R (List Char)
  | _, [], none => .ok []
  | _, [], some _ => .error .invalidArgument
  | 0, _ :: _, _ => .error .diverge
  | fuel + 1, c :: s, arg =>
    if c = '%' then do
      let x ← conv s arg
      let l ← format fuel x.2.1 x.2.2
      pure (x.1 ++ l)
    else do
      let l ← format fuel s arg
      pure (c :: l)

/-- `pattern%t`, track_orange.py:46 -/
def nameOf (p : List Char) (t : Nat) : R (List Char) := format p.length p (some t)

/-- The loop on the files of the series, track_orange.py:45-48, from the number `t`: the names of the images that are read. `fuel` bounds the number of turns. -/
def frames (isfile : List Char → Bool) (p : List Char) : Nat → Nat → R (List (List Char))
  | 0, _ => .error .diverge
  | fuel + 1, t => do
    let n ← nameOf p t
    if isfile n then do
      let l ← frames isfile p fuel (t + 1)
      pure (n :: l)
    else pure []

end ImSeries
end Py
end Colloids
