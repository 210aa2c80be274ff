import Verif.Clusters.Model
import Verif.Traj.Model

/-!
# Model of bonds and of the conversions between neighbour lists and bond sets

`lib/particles.hpp` lines 57-88 and 259-272, `lib/particles.cpp` lines 337-346 and 990-1020.
-/

namespace Colloids

/-- `struct Bond : private std::pair<size_t,size_t>` lib/particles.hpp:59-84. -/
structure Bond where
  first : Nat
  second : Nat
  deriving DecidableEq, Repr

namespace Bond

/-- `Bond::assign` lib/particles.hpp:65-77, also `Bond(x, y)` (61) and `Bond(pair)` (62). -/
def mk' (x y : Nat) : Bond := if x < y then ⟨x, y⟩ else ⟨y, x⟩

/-- `Bond::low` lib/particles.hpp:78. -/
def low (b : Bond) : Nat := b.first

/-- `Bond::high` lib/particles.hpp:79. -/
def high (b : Bond) : Nat := b.second

/-- `Bond::operator<` lib/particles.hpp:80-83. -/
def lt (a b : Bond) : Bool :=
  decide (a.first < b.first) || (decide (a.first = b.first) && decide (a.second < b.second))

/-- `operator<<(ostream&, const Bond&)` lib/particles.hpp:261-265. -/
def write (b : Bond) : List Char := showNat b.low ++ [' '] ++ showNat b.high

/-- `operator>>(istream&, Bond&)` lib/particles.hpp:266-272 (`x` and `y` are not initialised; 0 and 0
here, the values are not used when the extraction fails). -/
def read (s : IStream) : IStream × Bond :=
  let (s1, x) := s.readNat 0
  let (s2, y) := s1.readNat 0
  (s2, mk' x y)

end Bond

/-- `std::set<Bond>` (lib/particles.hpp:86): the list of its elements in increasing order of
`Bond.lt`. Insertion, with or without hint: an element equivalent to an element of the set is not
inserted. -/
def bondInsert (b : Bond) : List Bond → List Bond
  | [] => [b]
  | c :: cs => if b.lt c then b :: c :: cs else if c.lt b then c :: bondInsert b cs else c :: cs

/-- `std::lower_bound` on a vector: binary search for the first element not less than `v`
(libstdc++ `__lower_bound`); returns the index. `fuel` is any number not less than `len`. -/
def lowerBoundAux (l : List Nat) (v : Nat) : Nat → Nat → Nat → Nat
  | 0, first, _ => first
  | fuel + 1, first, len =>
    if len = 0 then first
    else
      let half := len / 2
      if l.getD (first + half) 0 < v then lowerBoundAux l v fuel (first + half + 1) (len - half - 1)
      else lowerBoundAux l v fuel first half

/-- The range from `lower_bound(l.begin(), l.end(), v)` to `l.end()`. -/
def fromLowerBound (l : List Nat) (v : Nat) : List Nat :=
  l.drop (lowerBoundAux l v l.length 0 l.length)

/-- `ngb2bonds` lib/particles.cpp:990-997. -/
def ngb2bonds (ngbs : NgbList) : List Bond :=
  ngbs.zipIdx.foldl (fun bonds rp =>
    (fromLowerBound rp.1 (rp.2 + 1)).foldl (fun bonds q => bondInsert (Bond.mk' rp.2 q) bonds) bonds)
    []

/-- Body of the loop of `makeNgbList(BondSet)` lib/particles.cpp:341-344. Indexing the neighbour list
out of range is undefined behaviour. -/
def addBond (ngbs : NgbList) (b : Bond) : R NgbList := do
  let n1 ← modifyR ngbs b.low (fun row => row ++ [b.high])
  modifyR n1 b.high (fun row => row ++ [b.low])

/-- `Particles::makeNgbList(const BondSet&)` lib/particles.cpp:337-346 for `n` particles. -/
def makeNgbListFromBonds (n : Nat) (bonds : List Bond) : R NgbList :=
  bonds.foldlM addBond (List.replicate n [])

/-- Writing a bond set as the programs do (`copy(bonds.begin(), bonds.end(),
ostream_iterator<Bond>(bondFile, "\n"))` mains/all_bonds.cpp:141, mains/linkboo.cpp:204). -/
def writeBonds (bonds : List Bond) : List Char := (bonds.map fun b => b.write ++ ['\n']).flatten

/-- The `copy` from `istream_iterator<Bond>` of `loadBonds` lib/particles.cpp:1006-1009: a bond is
read, inserted if the extraction succeeded, until the stream fails. `fuel`: each success consumes a
character. -/
def loadBondsLoop : (fuel : Nat) → IStream → List Bond → R (List Bond)
  | 0, _, _ => .error .diverge
  | fuel + 1, s, acc =>
    let (s', b) := Bond.read s
    if s'.fail then .ok acc else loadBondsLoop fuel s' (bondInsert b acc)

/-- `loadBonds` lib/particles.cpp:1000-1011 on the content of the file, `none` when it cannot be
opened. -/
def loadBonds (file : Option (List Char)) : R (List Bond) :=
  match file with
  | none => .error .invalidArgument
  | some text => loadBondsLoop (text.length + 1) { rest := text } []

/-- `toVTKstream` lib/particles.cpp:1014-1020. -/
def bondsToVTK (bonds : List Bond) : List Char :=
  "LINES ".toList ++ showNat bonds.length ++ [' '] ++ showNat (bonds.length * 3) ++ ['\n'] ++
    (bonds.map fun b => ['2', ' '] ++ b.write ++ ['\n']).flatten

end Colloids
