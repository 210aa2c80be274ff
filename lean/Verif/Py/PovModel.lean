import Verif.Common

/-! # Files for povray: classes `File`, `Vector` and `Item`, python/colloids/povray.py:8-102

The texts of numbers and objects, `str(x)`, are given. A file is the list of its lines: the texts are supposed without ends of lines. -/

namespace Colloids
namespace Py
namespace Pov

/-- An argument or the value of a keyword: a text or number, or a tuple or list -/
inductive Val
  | text (s : List Char)
  | vec (l : List (List Char))
  deriving DecidableEq

/-- `Item`, povray.py:55-64, or an option without `write` -/
inductive Item
  | text (s : List Char)
  | block (name : List Char) (args : List Val) (opts : List Item) (kwargs : List (List Char × Val))

/-- `", ".join`, povray.py:47 and 71 -/
def join : List (List Char) → List Char
  | [] => []
  | [a] => a
  | a :: b :: l => a ++ [',', ' '] ++ join (b :: l)

/-- `Vector.__str__`, povray.py:46-47 -/
def vecText (l : List (List Char)) : List Char := ['<'] ++ join l ++ ['>']

/-- An argument; lists are made `Vector`s with a single argument, povray.py:58-62. -/
def argText : Val → List Char
  | .text s => s
  | .vec l => vecText l

/-- The value of a keyword, povray.py:77-82. `Vector(*val)` of one number is a vector with a number for elements, on which `__str__` cannot iterate: `TypeError`. -/
def kwText : Val → R (List Char)
  | .text s => .ok s
  | .vec [_] => .error .invalidArgument
  | .vec l => .ok (vecText l)

/-- `File`, povray.py:8-38 -/
structure File where
  indent : Nat
  lines : List (List Char)

namespace File

/-- povray.py:36-38 -/
def writeln (f : File) (s : List Char) : File := ⟨f.indent, f.lines ++ [List.replicate (2 * f.indent) ' ' ++ s]⟩

/-- povray.py:13-15 -/
def incl (f : File) (name : List Char) : File := (f.writeln ("#include \"".toList ++ name ++ ['"'])).writeln []

/-- povray.py:21-23 -/
def blockBegin (f : File) : File := ⟨f.indent + 1, (f.writeln ['{']).lines⟩

/-- A blank line at the top level, povray.py:27-29 -/
def blank (f : File) : File := if f.indent = 0 then f.writeln [] else f

/-- povray.py:18-20 and 24-29 -/
def blockEnd (f : File) : R File :=
  if f.indent = 0 then .error .logicError
  else .ok (blank (writeln ⟨f.indent - 1, f.lines⟩ ['}']))

end File

/-- A keyword, povray.py:77-82 -/
def writeKw (f : File) (kv : List Char × Val) : R File := do
  let t ← kwText kv.2
  pure (f.writeln (kv.1 ++ [' '] ++ t))

/-- The arguments, povray.py:70-71 -/
def writeArgs (f : File) (args : List Val) : File := if args = [] then f else f.writeln (join (args.map argText))

mutual
/-- `Item.write`, povray.py:67-83, and texts in options, povray.py:75-76 -/
def writeItem : Item → File → R File
  | .text s, f => .ok (f.writeln s)
  | .block name args opts kwargs, f => do
    let f ← writeOpts opts (writeArgs (f.writeln name).blockBegin args)
    let f ← kwargs.foldlM writeKw f
    f.blockEnd

/-- The options, povray.py:72-76 -/
def writeOpts : List Item → File → R File
  | [], f => .ok f
  | o :: l, f => do
    let f ← writeItem o f
    writeOpts l f
end

/-- An item of `File.write`, povray.py:30-35 -/
def writeTop (f : File) : Item → R File
  | .text s => .ok (f.incl s)
  | .block name args opts kwargs => writeItem (.block name args opts kwargs) f

/-- `File(fnam, *items)`, povray.py:9-12 and 30-35 -/
def writeFile (items : List Item) : R File := items.foldlM writeTop ⟨0, []⟩

/-- The options of an item: the list of the default, that all the items without options share, povray.py:56, or the tuple of the arguments of a constructor,
povray.py:103-192 -/
inductive Opts
  | default
  | tuple (l : List Item)

/-- The options, when the list of the default is `d` -/
def options (d : List Item) : Opts → List Item
  | .default => d
  | .tuple l => l

/-- `Item.append`, povray.py:65-66: the new list of the default. A tuple has no `append`: `AttributeError`. -/
def append (d : List Item) (o : Opts) (x : Item) : R (List Item) :=
  match o with
  | .default => .ok (d ++ [x])
  | .tuple _ => .error .logicError

end Pov
end Py
end Colloids
