import Verif.Files.Model

/-! # Names of the files of `boo` and `boo_flip`: mains/boo.cpp:30-33, mains/boo_flip.cpp:46-50 -/

namespace Colloids
namespace Mains
namespace BooNames

/-- `"_t"`. -/
def token : List Char := ['_', 't']

/-- `inputPath`, mains/boo.cpp:30. -/
def inputPath (filename : List Char) : List Char := Files.replaceExt filename []

/-- `head`, mains/boo.cpp:32: the whole name without `_t`. -/
def head (filename : List Char) : List Char :=
  match Files.rfind filename token with
  | some k => filename.take k
  | none => filename

/-- `neck`, mains/boo.cpp:33. A difference below zero wraps to a large number: up to the end. -/
def neck (filename : List Char) : List Char :=
  let h := (head filename).length
  let n := (inputPath filename).length
  if h ≤ n then (filename.drop h).take (n - h) else filename.drop h

/-- The names of the files with a postfix, mains/boo.cpp:100, 117 and 126, mains/boo_flip.cpp:340, 349 and 358. -/
def postfixed (filename post ext : List Char) : List Char := head filename ++ post ++ neck filename ++ ext

/-- The name of the file with a postfix that `dat2vtk` loads, mains/dat2vtk.cpp:33, 35 and 43-45; `substr` throws without `_t`. -/
def wanted (filename post ext : List Char) : R (List Char) :=
  match Files.rfind (inputPath filename) token with
  | none => .error .outOfRange
  | some k => .ok ((inputPath filename).take k ++ post ++ (inputPath filename).drop k ++ ext)

end BooNames
end Mains
end Colloids
