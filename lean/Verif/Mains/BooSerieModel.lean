import Verif.Files.Model

/-! # Names of the files of a series in `periodic_boo`: mains/boo.cpp:171-197 -/

namespace Colloids
namespace Mains
namespace BooSerie

/-- The name up to its last digit, `filename.substr(0,filename.find_last_of("0123456789")+1)`, mains/boo.cpp:173; `npos+1` is 0. -/
def upTo (s : List Char) : List Char := (s.reverse.dropWhile fun c => !Files.isDig c).reverse

/-- `head`, mains/boo.cpp:173. -/
def head (s : List Char) : List Char := ((upTo s).reverse.dropWhile Files.isDig).reverse

/-- `tail`, mains/boo.cpp:174. -/
def tail (s : List Char) : List Char := s.drop (upTo s).length

/-- `(f%t).str()`, mains/boo.cpp:178 and 190. Another `%` in the name is a directive or an escape for `boost::format`: the outcome is then `logicError`,
on which no theorem relies. -/
def fileName (s : List Char) (t : Nat) : R (List Char) :=
  if '%' ∈ head s ++ tail s then .error .logicError else .ok (head s ++ Files.dec t ++ tail s)

/-- The files that are treated for a time span `n`, mains/boo.cpp:184-195; the order depends on the threads. -/
def files (s : List Char) (n : Nat) : R (List (List Char)) := (List.range n).mapM (fileName s)

end BooSerie
end Mains
end Colloids
