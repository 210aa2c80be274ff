import Verif.Traj.Model
import Verif.Files.Model
import Verif.Py.LinkerModel
import Mathlib.Data.Real.Basic
import Mathlib.Algebra.BigOperators.Fin

/-! # Trajectories of an experiment in python: python/colloids/experiment.py

Texts are lists of characters. `ValueError` is given as `invalidArgument`, `IndexError` as `outOfRange`, `UnboundLocalError` as
`logicError`. Exact real arithmetic. -/

namespace Colloids
namespace Py
namespace Exp

/-! ## Trajectory files -/

/-- The lines given by iterating on a file opened as a text: each line has its newline, but the last one if it has none. -/
def pyLines : List Char → List (List Char)
  | [] => []
  | c :: l =>
    if c = '\n' then [c] :: pyLines l
    else match pyLines l with
      | [] => [[c]]
      | a :: m => (c :: a) :: m

/-- `int(text)`: white spaces around are removed. Signs and underscores are not considered. -/
def pyInt (text : List Char) : R Nat :=
  let t := ((text.dropWhile isSpace).reverse.dropWhile isSpace).reverse
  if t ≠ [] ∧ t.all Char.isDigit then .ok (Nat.ofDigitChars 10 t 0) else .error .invalidArgument

/-- The words of a text, without white spaces. -/
def words : List Char → List (List Char)
  | [] => []
  | c :: l =>
    if isSpace c then words l
    else if l.head?.all isSpace then [c] :: words l
    else match words l with
      | [] => [[c]]
      | a :: m => (c :: a) :: m

/-- `np.fromstring(text, int, sep='\t')`: the numbers, until something that is not one. -/
def fromstring (text : List Char) : List Nat :=
  ((words text).takeWhile fun w => w.all Char.isDigit).map fun w => Nat.ofDigitChars 10 w 0

/-- The loop of `trajectory_stream` on the lines after the header, python/colloids/experiment.py:50-55. `line[:-1]` takes off the last
character, whatever it is. -/
def stream : List (List Char) → R (List (Nat × List Nat))
  | [] => .ok []
  | [a] => do
    let _ ← pyInt a.dropLast
    pure []
  | a :: b :: l => do
    let start ← pyInt a.dropLast
    let rest ← stream l
    pure ((start, fromstring b.dropLast) :: rest)

/-- `load_trajectories`, python/colloids/experiment.py:57-64, with `trajectory_stream`, 44-55. -/
def loadTrajectories (text : List Char) : R (List Nat × List (List Nat)) := do
  let l ← stream ((pyLines text).drop 4)
  pure (l.map (·.1), l.map (·.2))

/-- `Experiment.nb_trajs` when the trajectories are not loaded, python/colloids/experiment.py:132-146: `tr` is set before the fourth line, and
increased by `l % 2` for each of the lines after it. -/
def nbTrajs (text : List Char) : R Nat :=
  if pyLines text = [] then .error .logicError
  else .ok ((List.range ((pyLines text).drop 4).length).foldl (fun tr l => tr + l % 2) 0)

/-- `re.split("\t", text)`: the pieces between tabulations. -/
def splitTab : List Char → List (List Char)
  | [] => [[]]
  | c :: l =>
    if c = '\t' then [] :: splitTab l
    else match splitTab l with
      | [] => [[c]]
      | a :: m => (c :: a) :: m

/-- What `Experiment.read_traj` reads. -/
structure Header (G : Type) where
  radius : G
  dt : G
  pattern : List Char
  token : List Char
  offset : Nat
  size : Nat
  deriving DecidableEq, Repr

/-- `f.readline()[:-1]` for the line number `i`. -/
def lineOf (text : List Char) (i : Nat) : List Char := ((pyLines text).getD i []).dropLast

/-- `Experiment.read_traj`, python/colloids/experiment.py:102-112, before `read_pattern`. `float` is the parameter `parse`. A line with another
number of pieces cannot be unpacked. -/
def readTraj {G : Type} (parse : List Char → Option G) (text : List Char) : R (Header G) :=
  match splitTab (lineOf text 0), splitTab (lineOf text 1), splitTab (lineOf text 2), splitTab (lineOf text 3) with
  | [r, d], [pattern], [token], [o, s] =>
    match parse r, parse d with
    | some radius, some dt => do
      let offset ← pyInt o
      let size ← pyInt s
      pure ⟨radius, dt, pattern, token, offset, size⟩
    | _, _ => .error .invalidArgument
  | _, _, _, _ => .error .invalidArgument

/-- `os.path.splitext(name)[0]` of a name without folder: dots at the beginning are not those of an extension. -/
def splitext (name : List Char) : List Char :=
  match Files.rfind name ['.'] with
  | some i => if (name.take i).all (· = '.') then name else name.take i
  | none => name

/-- `Experiment.read_pattern`, python/colloids/experiment.py:187-190: the head and the number of digits. The token is supposed to have no special
character of regular expressions: the expression `(.*)token([0-9]*)` matches at the last token, as the star takes as much as possible. Without
token the result of `re.match` is `None`, that has no `group`. -/
def readPattern (pattern token : List Char) : R (List Char × Nat) :=
  match Files.rfind (splitext pattern) token with
  | none => .error .logicError
  | some i => .ok ((splitext pattern).take i, (((splitext pattern).drop (i + token.length)).takeWhile Files.isDig).length)

/-- `get_format_string(postfix, ext, absPath=False) % t`, python/colloids/experiment.py:227-232, 238. What percent signs in the names do is not
modelled and given as an error. -/
def fileName (head : List Char) (digits : Nat) (token post ext : List Char) (t : Nat) : R (List Char) :=
  if '%' ∈ head ++ post ++ token ++ ext then .error .logicError
  else .ok (head ++ post ++ token ++ Files.pad digits t ++ '.' :: ext)

/-- `enum`, python/colloids/experiment.py:224-225, 234-238: the times and the names of the files. -/
def enum {G : Type} (h : Header G) (head : List Char) (digits : Nat) (post ext : List Char) : R (List (Nat × List Char)) :=
  (List.range' h.offset h.size).mapM fun t => do
    let n ← fileName head digits h.token post ext t
    pure (t, n)

/-! ## From positions to trajectories -/

/-- `m[t][p] = v` -/
def put {α : Type} (m : List (List α)) (t p : Nat) (v : α) : R (List (List α)) := do
  let row ← idx m t
  let row' ← upd row p fun _ => v
  pure (m.set t row')

/-- The loop on the positions of a trajectory, python/colloids/experiment.py:155-156. -/
def putTraj (m : List (List Nat)) (tr start : Nat) (steps : List Nat) : R (List (List Nat)) :=
  steps.zipIdx.foldlM (fun m x => put m (start + x.2) x.1 tr) m

/-- All the arrays made by `Experiment.p2tr`, python/colloids/experiment.py:148-158, `nb` being the numbers of particles given by `get_nb`.
The array number `k` is saved in the file of the time `offset + k`; for that time `p2tr` reads it back. -/
def pos2tr (nb : List Nat) (trajs : List (Nat × List Nat)) : R (List (List Nat)) :=
  trajs.zipIdx.foldlM (fun m x => putTraj m x.2 x.1.1 x.1.2) (nb.map fun n => List.replicate n 0)

/-- `Experiment.p2tr`, python/colloids/experiment.py:148-159: the file of a time out of the range of the experiment does not exist. -/
def p2tr (offset : Nat) (nb : List Nat) (trajs : List (Nat × List Nat)) (t : Nat) : R (List Nat) := do
  let m ← pos2tr nb trajs
  if t < offset then .error .invalidArgument
  else match m[t - offset]? with
    | some a => pure a
    | none => .error .invalidArgument

noncomputable section

abbrev V := Fin 3 → ℝ

/-! ## All the positions -/

/-- The place in an array of `n` elements of a python index, that may be negative. -/
def pyIndex (n : Nat) (i : Int) : R Nat :=
  if 0 ≤ i then (if i < n then .ok i.toNat else .error .outOfRange)
  else if 0 ≤ i + n then .ok (i + n).toNat else .error .outOfRange

/-- `trajpos[tr][t - self.starts[tr]] = pos[p]`, python/colloids/experiment.py:170, for `x` made of `tr` and `p`. -/
def loadStep (starts : List Nat) (t : Nat) (pos : List V) (m : List (List V)) (x : Nat × Nat) : R (List (List V)) := do
  let v ← idx pos x.2
  let row ← idx m x.1
  let start ← idx starts x.1
  let i ← pyIndex row.length ((t : Int) - start)
  put m x.1 i v

/-- `Experiment.load_all`, python/colloids/experiment.py:161-172, `frames` being the positions in the files, as many as `self.size`. -/
def loadAll (offset : Nat) (nb : List Nat) (trajs : List (Nat × List Nat)) (frames : List (List V)) : R (List (List V)) :=
  frames.zipIdx.foldlM (fun m f => do
    let p2 ← p2tr offset nb trajs (offset + f.2)
    p2.zipIdx.foldlM (loadStep (trajs.map Prod.fst) (offset + f.2) f.1) m) (trajs.map fun T => List.replicate T.2.length 0)

/-- `l[a:a+len(xs)] += xs`. Arrays of other sizes are refused; that numpy repeats an array of one element is not modelled. -/
def sliceAdd {α : Type} [Add α] (l : List α) (a : Nat) (xs : List α) : R (List α) :=
  if xs = [] ∨ a + xs.length ≤ l.length then
    .ok (l.take a ++ List.zipWith (· + ·) ((l.drop a).take xs.length) xs ++ l.drop (a + xs.length))
  else .error .invalidArgument

/-- `tr[1:] - tr[:-1]` -/
def steps (tr : List V) : List V := List.zipWith (fun a b => a - b) (tr.drop 1) tr.dropLast

/-- The sums of the displacements and the numbers of trajectories, python/colloids/experiment.py:175-179. -/
def driftSums (size : Nat) (starts : List Nat) (trajpos : List (List V)) : R (List V × List Nat) :=
  (trajpos.zip starts).foldlM (fun s x => do
    let d ← sliceAdd s.1 (x.2 + 1) (steps x.1)
    let n ← sliceAdd s.2 (x.2 + 1) ((steps x.1).map fun _ => 1)
    pure (d, n)) (List.replicate size 0, List.replicate size 0)

/-- `np.cumsum(drift, axis=0)` -/
def cumsum (l : List V) : List V := (List.range l.length).map fun t => (l.take (t + 1)).sum

/-- The drift at each time, python/colloids/experiment.py:180-181. -/
def drift (size : Nat) (starts : List Nat) (trajpos : List (List V)) : R (List V) := do
  let s ← driftSums size starts trajpos
  pure (cumsum (List.zipWith (fun d n => (1 / ((max 1 n : Nat) : ℝ)) • d) s.1 s.2))

/-- The drift removed by `load_all`, python/colloids/experiment.py:173-185. -/
def removeDrift (size : Nat) (starts : List Nat) (trajpos : List (List V)) : R (List (List V)) := do
  let d ← drift size starts trajpos
  (trajpos.zip starts).mapM fun x => do
    let slice := (d.drop x.2).take x.1.length
    if slice.length = x.1.length then pure (List.zipWith (fun a b => a - b) x.1 slice) else .error .invalidArgument

/-! ## Density of a slab -/

/-- `np.amin` and `np.amax` of the last coordinates. -/
def amin : List ℝ → R ℝ
  | [] => .error .invalidArgument
  | a :: l => .ok (l.foldl min a)
def amax : List ℝ → R ℝ
  | [] => .error .invalidArgument
  | a :: l => .ok (l.foldl max a)

/-- `np.ptp(coords, axis=0).prod()`, the volume of the bounding box; an exception without particles. -/
def boxVolume (coords : List V) : R ℝ := do
  let lo ← (List.finRange 3).mapM fun k => amin (coords.map (· k))
  let hi ← (List.finRange 3).mapM fun k => amax (coords.map (· k))
  pure (List.zipWith (fun a b => b - a) lo hi).prod

/-- One time step of `Experiment.get_Nb_density`, python/colloids/experiment.py:296-302. -/
def nbDensity (coords : List V) : R (Nat × ℝ) := do
  let v ← boxVolume coords
  pure (coords.length, v)

open Classical in
/-- One time step of `Experiment.get_zPortion_Nbd`, python/colloids/experiment.py:308-318: the number of particles and the volume. -/
def zPortion (lowerMargin upperMargin : ℝ) (coords : List V) : R (Nat × ℝ) := do
  let lo ← amin (coords.map (· 2))
  let hi ← amax (coords.map (· 2))
  let m := lo + lowerMargin
  let M := hi - upperMargin
  let kept := coords.filter fun c => decide (m > c 2 ∧ c 2 < M)
  let v ← boxVolume kept
  pure (kept.length, v)

/-! ## Mean square displacement -/

/-- The last position that is in a trajectory: what the assignments `dx[p2tr[...]] = p[...]` keep. -/
def lastOf (p2tr : List Nat) (tr : Nat) : Option Nat :=
  (p2tr.zipIdx.filter fun x => x.1 = tr).getLast?.map (·.2)

/-- The displacement of a trajectory between two times, python/colloids/experiment.py:403-408. -/
def displacement (p0 p1 : List V) (p2tr0 p2tr1 : List Nat) (tr : Nat) : R V :=
  match lastOf p2tr0 tr, lastOf p2tr1 tr with
  | some i, some j => do
    let a ← idx p0 i
    let b ← idx p1 j
    pure (b - a)
  | _, _ => .error .outOfRange

/-- `np.mean` of all the elements of an array of vectors. -/
def meanAll (d : List V) : ℝ := (d.map fun v => ∑ k, v k).sum / (3 * d.length)

/-- `np.intersect1d`: the values in both arrays, once and sorted. -/
def common (a b : List Nat) : List Nat := (List.range (a.foldl max 0 + 1)).filter fun v => decide (v ∈ a ∧ v ∈ b)

/-- One interval of `Experiment.msd`, python/colloids/experiment.py:399-412. -/
def msd (p0 p1 : List V) (p2tr0 p2tr1 : List Nat) : R ℝ := do
  let dx ← (common p2tr0 p2tr1).mapM fun tr => displacement p0 p1 p2tr0 p2tr1 tr
  let m := meanAll dx
  pure (meanAll (dx.map fun v k => (v k - m) ^ 2))

end

end Exp
end Py
end Colloids
