import Verif.Common

/-!
# Model of `lib/traj.hpp`, `lib/traj.cpp` (trajectories, linking, trajectory index)
-/

namespace Colloids

/-- Number of values of `size_t` (64-bit platform). -/
@[irreducible] def szMod : Nat := 2 ^ 64

/-- `class Traj` : start time and position index at each successive time step.
lib/traj.hpp:66-84. -/
structure Traj where
  start : Nat
  steps : List Nat
  deriving DecidableEq, Repr

namespace Traj

/-- `Traj::Traj(start)` lib/traj.hpp:167-172. -/
def empty (start : Nat) : Traj := ⟨start, []⟩

/-- `Traj::Traj(start, first_step)` lib/traj.hpp:175-180. -/
def single (start first : Nat) : Traj := ⟨start, [first]⟩

/-- `Traj::last_time` : `start_time+steps.size()-1` in `size_t` arithmetic.
lib/traj.hpp:183-186. -/
def lastTime (tr : Traj) : Nat := (tr.start + tr.steps.length + (szMod - 1)) % szMod

/-- `Traj::exist` lib/traj.hpp:207-211. -/
def exist (tr : Traj) (t : Nat) : Bool :=
  if t < tr.start || t > tr.lastTime then false else true

/-- `Traj::span` lib/traj.hpp:214-218. -/
def span (tr : Traj) (t0 t1 : Nat) : Bool :=
  if t0 < tr.start || t1 > tr.lastTime then false else true

/-- `Traj::operator[]` (debug build: existence is checked) lib/traj.hpp:189-204. -/
def at_ (tr : Traj) (t : Nat) : R Nat :=
  if !tr.exist t then .error .trajError
  else getR tr.steps (t - tr.start)

/-- `Traj::push_back` lib/traj.hpp:221-224. -/
def pushBack (tr : Traj) (pos : Nat) : Traj := { tr with steps := tr.steps ++ [pos] }

/-- `Traj::subtraj` lib/traj.cpp:109-115: `for(t=t0; t<=t1; ++t) tr.push_back((*this)[t])`
(the case `t1 = SIZE_MAX`, an infinite loop, is not represented). -/
def subtraj (tr : Traj) (t0 t1 : Nat) : R Traj :=
  (List.range' t0 (t1 + 1 - t0)).foldlM (fun acc t => do return acc.pushBack (← tr.at_ t)) (empty t0)

end Traj

/-! ## `TrajMap` -/

/-- `TrajMap::Frame`, a `boost::bimap` between positions (`Coord`, first component) and
trajectories (second component), as the list of its links in insertion order.
lib/traj.hpp:93-97. -/
abbrev Frame := List (Nat × Nat)

namespace Frame

/-- `bimap::insert`: the link is ignored when its position or its trajectory is already
used by another link of the frame (semantics of `boost::bimap`, relied on by the comment
lib/traj.cpp:59). -/
def link (f : Frame) (l : Nat × Nat) : Frame :=
  if f.any (fun x => x.1 == l.1 || x.2 == l.2) then f else f ++ [l]

/-- View `by<Coord>()` : links in increasing position order. -/
def byCoord (f : Frame) : List (Nat × Nat) := f.mergeSort (fun a b => decide (a.1 ≤ b.1))

/-- View `by<Traj>()` : links in increasing trajectory order. -/
def byTraj (f : Frame) : List (Nat × Nat) := f.mergeSort (fun a b => decide (a.2 ≤ b.2))

end Frame

/-- `struct TrajMap` lib/traj.hpp:90-112. -/
structure TrajMap where
  bm : List Frame
  nbTraj : Nat
  deriving DecidableEq, Repr

/-- A candidate table: for each position of the last frame, its possible followers with
their distance, in the iteration order of the `multimap<double,size_t>`.
Distances are any linearly ordered type (doubles without NaN). -/
abbrev Followers (D : Type) := List (List (D × Nat))

namespace TrajMap

/-- Constructor lib/traj.cpp:33-39. -/
def init (firstFrameSize : Nat) : TrajMap :=
  { bm := [(List.range firstFrameSize).foldl (fun f i => Frame.link f (i, i)) []]
    nbTraj := firstFrameSize }

/-- The `potential_links` multimap, lib/traj.cpp:50-53: for each link of the last frame in
position order, for each follower, insert `(distance, (follower, trajectory))`.
`followersByDist[p]` is undefined behaviour when the table is too short. -/
def potentialLinks [LE D] [DecidableLE D] (last : Frame) (fol : Followers D) :
    R (List (D × (Nat × Nat))) :=
  last.byCoord.foldlM (fun m ptr => do
      let row ← getR fol ptr.1
      return mmInsertAll m (row.map fun df => (df.1, (df.2, ptr.2)))) []

/-- Flags of the linked positions, lib/traj.cpp:64-66; `linked[p]=true` is undefined behaviour
when `p` is not a position of the new frame. -/
def linkedFlags (frame : Frame) (frameSize : Nat) : R (List Bool) :=
  frame.byCoord.foldlM (fun l p => setR l p.1 true) (List.replicate frameSize false)

/-- lib/traj.cpp:67-69: create a trajectory for each position that is not linked. -/
def startNew (linked : List Bool) (frame : Frame) (nbTraj : Nat) : Frame × Nat :=
  (List.range linked.length).foldl
    (fun (s : Frame × Nat) p =>
      if linked[p]? = some false then (Frame.link s.1 (p, s.2), s.2 + 1) else s)
    (frame, nbTraj)

/-- `TrajMap::push_back` lib/traj.cpp:47-70. -/
def pushBack [LE D] [DecidableLE D] (tm : TrajMap) (fol : Followers D) (frameSize : Nat) :
    R TrajMap := do
  let last ← backR tm.bm
  let pot ← potentialLinks last fol
  let frame := pot.foldl (fun f dl => Frame.link f dl.2) []
  let linked ← linkedFlags frame frameSize
  let (frame', nb) := startNew linked frame tm.nbTraj
  return { bm := tm.bm ++ [frame'], nbTraj := nb }

/-- `TrajMap::getFrameSizes` lib/traj.cpp:73-81. -/
def getFrameSizes (tm : TrajMap) : List Nat := tm.bm.map List.length

/-- A history of `push_back` calls on a fresh map. -/
def run [LE D] [DecidableLE D] (n : Nat) (hist : List (Followers D × Nat)) : R TrajMap :=
  hist.foldlM (fun tm fs => tm.pushBack fs.1 fs.2) (init n)

end TrajMap

/-! ## `TrajIndex` -/

/-- `class TrajIndex` lib/traj.hpp:114-161: the trajectories and the inverse index
(position → trajectory, for each time). -/
structure TrajIndex where
  trajs : List Traj
  inverse : List (List Nat)
  deriving DecidableEq, Repr

namespace TrajIndex

/-- One iteration (time `t`) of the loop of the constructor from a `TrajMap`,
lib/traj.cpp:138-152. `upper_bound(size()-1)` splits the links sorted by trajectory number
between existing trajectories and new ones. -/
def addFrame (trajs : List Traj) (t : Nat) (f : Frame) : R (List Traj) := do
  let v := f.byTraj
  let old := if trajs.isEmpty then [] else v.takeWhile (fun l => decide (l.2 ≤ trajs.length - 1))
  let new := if trajs.isEmpty then v else v.dropWhile (fun l => decide (l.2 ≤ trajs.length - 1))
  let trajs ← old.foldlM (fun ts l => modifyR ts l.2 (fun tr => tr.pushBack l.1)) trajs
  return new.foldl (fun ts l => ts ++ [Traj.single t l.1]) trajs

/-- The times visited by `for(t=start_time; t<=last_time(); ++t)`. -/
def times (tr : Traj) : List Nat := List.range' tr.start (tr.lastTime + 1 - tr.start)

/-- `TrajIndex::makeInverse` lib/traj.cpp:195-204. -/
def makeInverse (trajs : List Traj) (frameSizes : List Nat) : R (List (List Nat)) :=
  (List.range trajs.length).foldlM (fun inv i => do
      let tr ← getR trajs i
      (times tr).foldlM (fun inv t => do
        let row ← getR inv t
        let p ← tr.at_ t
        let row' ← setR row p i
        setR inv t row') inv)
    (frameSizes.map fun n => List.replicate n 0)

/-- Constructor from a `TrajMap` lib/traj.cpp:135-154. -/
def ofMap (tm : TrajMap) : R TrajIndex := do
  let trajs ← tm.bm.zipIdx.foldlM (fun ts ft => addFrame ts ft.2 ft.1) []
  let inverse ← makeInverse trajs tm.getFrameSizes
  return { trajs, inverse }

/-- `TrajIndex::getMaxTime` lib/traj.cpp:159-166. -/
def getMaxTime (ti : TrajIndex) : Nat :=
  ti.trajs.foldl (fun m tr => if m < tr.lastTime then tr.lastTime else m) 0

/-- `TrajIndex::longest_span` lib/traj.cpp:169-178 (`*max_element` of an empty range is
undefined behaviour). -/
def longestSpan (ti : TrajIndex) : R Nat :=
  match ti.trajs.map (fun tr => tr.steps.length) with
  | [] => .error .ub
  | x :: xs => .ok (xs.foldl (fun m y => if m < y then y else m) x)

/-- `TrajIndex::getFrameSizes` lib/traj.cpp:183-190. -/
def getFrameSizes (ti : TrajIndex) (length : Nat := 0) : R (List Nat) :=
  ti.trajs.foldlM (fun sizes tr =>
      (times tr).foldlM (fun s t => modifyR s t (· + 1)) sizes)
    (List.replicate (if length ≠ 0 then length else ti.getMaxTime + 1) 0)

/-- `Converter::operator()` : position of trajectory `tr` in frame `t`. lib/traj.hpp:137-148. -/
def convert (ti : TrajIndex) (t tr : Nat) : R Nat := do (← getR ti.trajs tr).at_ t

/-- `Inverser::operator()` : trajectory of position `p` in frame `t`. lib/traj.hpp:149-160. -/
def invert (ti : TrajIndex) (t p : Nat) : R Nat := do getR (← getR ti.inverse t) p

/-- `std::map<size_t,T>::insert` (ignored when the key is present); sorted association list. -/
def mapInsert (k : Nat) (v : T) : List (Nat × T) → List (Nat × T)
  | [] => [(k, v)]
  | x :: xs => if k < x.1 then (k, v) :: x :: xs else if k = x.1 then x :: xs
      else x :: mapInsert k v xs

/-- `TrajIndex::posToTraj` lib/traj.hpp:227-233. -/
def posToTraj (ti : TrajIndex) (t : Nat) (byPos : List (Nat × T)) (byTraj : List (Nat × T)) :
    R (List (Nat × T)) :=
  byPos.foldlM (fun acc kv => do return mapInsert (← ti.invert t kv.1) kv.2 acc) byTraj

/-- `TrajIndex::trajToPos` lib/traj.hpp:236-250. -/
def trajToPos (ti : TrajIndex) (t : Nat) (byTraj : List (Nat × T)) (byPos : List (Nat × T)) :
    R (List (Nat × T)) :=
  byTraj.foldlM (fun acc kv => do
    let tr ← getR ti.trajs kv.1
    if tr.exist t then return mapInsert (← tr.at_ t) kv.2 acc else return acc) byPos

end TrajIndex

/-! ## Text format of trajectory files -/

/-- State of a `std::istream` over characters: what remains to be read, `eofbit`, `failbit`. -/
structure IStream where
  rest : List Char
  eof : Bool := false
  fail : Bool := false
  deriving DecidableEq, Repr

/-- `isspace` on the characters that appear in these files. -/
def isSpace (c : Char) : Bool := c == ' ' || c == '\t' || c == '\n' || c == '\r'

namespace IStream

/-- `is.good()`. -/
def good (s : IStream) : Bool := !s.eof && !s.fail

/-- Formatted extraction `is >> n` of a `size_t`: skip white space, read digits; reaching the end
of the stream sets `eofbit`; no digit (or overflow) sets `failbit` and stores 0 (or SIZE_MAX).
Reading from a stream that is not good only sets `failbit` and leaves the value alone.
Signs (`+`, `-`) are not represented. Model of the standard library. -/
def readNat (s : IStream) (old : Nat) : IStream × Nat :=
  if !s.good then ({ s with fail := true }, old)
  else
    let r := s.rest.dropWhile isSpace
    if r.isEmpty then ({ rest := [], eof := true, fail := true }, old)
    else
      let ds := r.takeWhile Char.isDigit
      let r' := r.dropWhile Char.isDigit
      let v := Nat.ofDigitChars 10 ds 0
      if ds.isEmpty then ({ rest := r', eof := false, fail := true }, 0)
      else if v < szMod then ({ rest := r', eof := r'.isEmpty, fail := false }, v)
      else ({ rest := r', eof := r'.isEmpty, fail := true }, szMod - 1)

/-- `is.get()`: skip one character. -/
def get (s : IStream) : IStream :=
  match s.good, s.rest with
  | true, _ :: r => { s with rest := r }
  | true, [] => { s with eof := true, fail := true }
  | false, _ => { s with fail := true }

/-- `std::getline(is, line)`: the characters up to the next newline, which is consumed. -/
def getline (s : IStream) : IStream × List Char :=
  if !s.good then ({ s with fail := true }, [])
  else
    let line := s.rest.takeWhile (· != '\n')
    match s.rest.dropWhile (· != '\n') with
    | _ :: r => ({ s with rest := r }, line)
    | [] => ({ rest := [], eof := true, fail := line.isEmpty }, line)

end IStream

/-- Decimal printing of a `size_t` by `os << n`. -/
def showNat (n : Nat) : List Char := Nat.toDigits 10 n

/-- `operator<<(ostream&, const Traj&)` lib/traj.cpp:99-106. `tr.steps[0]` is undefined behaviour
when the trajectory is empty. -/
def Traj.write (tr : Traj) : R (List Char) := do
  let s0 ← getR tr.steps 0
  return showNat tr.start ++ ['\n'] ++ showNat s0 ++
    ((tr.steps.drop 1).map fun s => '\t' :: showNat s).flatten

/-- Loop of `operator>>(istream&, Traj&)` lib/traj.cpp:87-96:
`while(!is.eof()) { is >> index; tr.push_back(index); }`.
Once `failbit` is set without `eofbit` the loop pushes forever: `diverge`.
`fuel` bounds the number of iterations by the number of characters left (each successful read
consumes one); running out of it cannot happen, see `Traj.read`. -/
def Traj.readLoop : (fuel : Nat) → IStream → Nat → Traj → R Traj
  | 0, _, _, _ => .error .diverge
  | fuel + 1, s, old, tr =>
    if s.eof then .ok tr
    else
      let (s', v) := s.readNat old
      if s'.fail && !s'.eof then .error .diverge
      else Traj.readLoop fuel s' v (tr.pushBack v)

/-- `operator>>(istream&, Traj&)` lib/traj.cpp:87-96 (`index` is not initialised; 0 here). -/
def Traj.read (line : List Char) (tr : Traj) : R Traj :=
  Traj.readLoop (line.length + 2) { rest := line } 0 tr

/-- `operator<<(ostream&, const TrajIndex&)` lib/traj.cpp:230-237: every trajectory followed by a
newline. -/
def TrajIndex.write (trajs : List Traj) : R (List Char) :=
  trajs.foldlM (fun out tr => do return out ++ (← tr.write) ++ ['\n']) []

/-- Loop of `operator>>(istream&, TrajIndex&)` lib/traj.cpp:207-224. `fuel` as above. -/
def TrajIndex.readLoop : (fuel : Nat) → IStream → Nat → List Traj → R (List Traj)
  | 0, _, _, _ => .error .diverge
  | fuel + 1, s, start, acc =>
    if !s.good then .ok acc
    else do
      let s1 := s.get
      let (s2, line) := s1.getline
      let tr ← Traj.read line (Traj.empty start)
      let (s3, start') := s2.readNat start
      TrajIndex.readLoop fuel s3 start' (acc ++ [tr])

/-- `operator>>(istream&, TrajIndex&)` lib/traj.cpp:207-224 on a stream holding `text`. -/
def TrajIndex.read (text : List Char) : R (List Traj) :=
  let (s, start) := ({ rest := text } : IStream).readNat 0
  TrajIndex.readLoop (text.length + 1) s start []

end Colloids
