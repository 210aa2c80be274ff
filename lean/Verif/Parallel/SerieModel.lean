import Verif.Parallel.Model

/-!
# Names of files given by a `FileSerie` in a parallel loop

`FileSerie::operator%` (lib/files_series.hpp:51) changes the `boost::format` of the series: it clears it, feeds it with a
number and asks for the string. The programs `cgVoro` (mains/cgVoro.cpp:248-320), `linkboo` (mains/linkboo.cpp:160-260),
`all_bonds` (mains/all_bonds.cpp:128-147), `cage2vtk` (mains/cage2vtk.cpp:258-264) and `traj2vtk`
(mains/traj2vtk.cpp:376-388) do it in parallel loops over the time steps, to write the result of a step in the file of
this step.
-/

namespace Colloids

namespace Parallel

/-- The exceptions of `boost::format`. -/
inductive FmtError
  | tooFew
  | tooMany
  deriving DecidableEq

/-- The state of a `boost::format` with one argument: the argument that was fed, how many were fed, whether the string
was asked for. -/
structure Fmt where
  arg : Option Nat
  cur : Nat
  dumped : Bool
  deriving DecidableEq

/-- `boost::format::clear`. -/
def Fmt.clear (_ : Fmt) : Fmt := ⟨none, 0, false⟩

/-- `boost::format::operator%`: what has been read out is cleared, a second argument is refused. -/
def Fmt.feed (f : Fmt) (n : Nat) : Except FmtError Fmt :=
  let g := if f.dumped then f.clear else f
  if 1 ≤ g.cur then .error .tooMany else .ok ⟨some n, g.cur + 1, g.dumped⟩

/-- `boost::format::str`: the number in the string, the head and the tail being constant. -/
def Fmt.str (f : Fmt) : Except FmtError (Option Nat × Fmt) :=
  if f.cur < 1 then .error .tooFew else .ok (f.arg, { f with dumped := true })

/-- `FileSerie::operator%`, lib/files_series.hpp:51, `n` being `step+offset`. -/
def Fmt.name (f : Fmt) (n : Nat) : Except FmtError (Option Nat × Fmt) := do
  let g ← f.clear.feed n
  g.str

/-- What a thread does: the three calls of `operator%`, the same in a critical section, the writing of the result of a
time step in the file of which it has the name. Each call of `boost::format` is supposed to be atomic. -/
inductive Op
  | clear
  | feed (n : Nat)
  | str
  | named (n : Nat)
  | write (step : Nat)
  deriving DecidableEq

/-- A thread: the number in the last name it got and what is left to do. -/
structure Writer where
  name : Option Nat
  todo : List Op
  deriving DecidableEq

/-- The formats, the files (the time step of which the file with a number holds the results), the threads and the
exception that ended the program. -/
structure Disk where
  fmts : Nat → Fmt
  files : Nat → Option Nat
  threads : List Writer
  error : Option FmtError

/-- How the loop uses the series: shared without protection, shared in a critical section, or `firstprivate`. -/
inductive Mode
  | shared
  | critical
  | firstprivate
  deriving DecidableEq

/-- The body of the loop for the time step `t`. -/
def Mode.prog (offset : Nat) (m : Mode) (t : Nat) : List Op :=
  match m with
  | .critical => [.named (t + offset), .write t]
  | _ => [.clear, .feed (t + offset), .str, .write t]

/-- The format that a thread uses. -/
def Mode.fmt (m : Mode) (k : Nat) : Nat := if m = .firstprivate then k else 0

/-- One call by the thread `k`. -/
def doOp (m : Mode) (k : Nat) (s : Disk) (w : Writer) (o : Op) (rest : List Op) : Disk :=
  let f := s.fmts (m.fmt k)
  let put (g : Fmt) : Nat → Fmt := Function.update s.fmts (m.fmt k) g
  match o with
  | .clear => { s with fmts := put f.clear, threads := s.threads.set k ⟨w.name, rest⟩ }
  | .feed n => match f.feed n with
    | .error e => { s with error := some e }
    | .ok g => { s with fmts := put g, threads := s.threads.set k ⟨w.name, rest⟩ }
  | .str => match f.str with
    | .error e => { s with error := some e }
    | .ok r => { s with fmts := put r.2, threads := s.threads.set k ⟨r.1, rest⟩ }
  | .named n => match f.name n with
    | .error e => { s with error := some e }
    | .ok r => { s with fmts := put r.2, threads := s.threads.set k ⟨r.1, rest⟩ }
  | .write t => match w.name with
    | none => { s with threads := s.threads.set k ⟨w.name, rest⟩ }
    | some n => { s with files := Function.update s.files n (some t), threads := s.threads.set k ⟨w.name, rest⟩ }

/-- The next call of the thread `k`. -/
def diskStep (m : Mode) (s : Disk) (k : Nat) : Disk :=
  match s.error, s.threads[k]? with
  | none, some ⟨nm, o :: rest⟩ => doOp m k s ⟨nm, o :: rest⟩ o rest
  | _, _ => s

/-- The threads are given the hand in the order of `sched`. -/
def diskRun (m : Mode) (sched : List Nat) (s : Disk) : Disk := sched.foldl (diskStep m) s

/-- The start of the loop over `size` time steps with `n` threads. The format is in any state. -/
def diskStart (m : Mode) (offset size n : Nat) (assign : Nat → Nat) (f : Fmt) (files : Nat → Option Nat) : Disk :=
  ⟨fun _ => f, files,
    (List.range n).map (fun k => ⟨none, ((List.range size).filter (fun t => decide (assign t = k))).flatMap (m.prog offset)⟩),
    none⟩

/-- The end of the loop: an exception or nothing left to do. -/
def Disk.over (s : Disk) : Prop := s.error ≠ none ∨ ∀ w ∈ s.threads, w.todo = []

/-- `files'` and `err` are a possible end of the loop. -/
def SerieEnds (m : Mode) (offset size : Nat) (f : Fmt) (files files' : Nat → Option Nat) (err : Option FmtError) : Prop :=
  ∃ (n : Nat) (assign : Nat → Nat) (sched : List Nat), (∀ t < size, assign t < n) ∧
    (diskRun m sched (diskStart m offset size n assign f files)).over ∧
    (diskRun m sched (diskStart m offset size n assign f files)).files = files' ∧
    (diskRun m sched (diskStart m offset size n assign f files)).error = err

end Parallel

end Colloids
