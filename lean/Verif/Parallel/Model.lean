import Verif.Common
import Mathlib.Logic.Function.Basic

/-!
# Parallel loops: `#pragma omp parallel for`

A body of a loop is a list of instructions on shared memory, what it reads in variables that no thread writes being
resolved before. A loop distributes the iterations among threads; each thread runs its iterations in order and the
instructions of the threads are interleaved in any way. Each load and each store of a number is supposed to be atomic
and to be seen at once by the other threads: the C++ standard gives no meaning to a program with a race, so this is the
least that can go wrong.
-/

namespace Colloids

namespace Parallel

/-- An instruction: a load of a shared cell in the private variables of the thread or a store of a value made from
them. -/
inductive Instr (κ L V : Type)
  | load (c : κ) (put : V → L → L)
  | store (c : κ) (get : L → V)

/-- The shared cell of an instruction. -/
def Instr.cell {κ L V : Type} : Instr κ L V → κ
  | .load c _ => c
  | .store c _ => c

/-- A thread: its private variables and what it still has to run. -/
structure Thread (κ L V : Type) where
  reg : L
  todo : List (Instr κ L V)

/-- The shared memory and the threads. -/
structure State (κ L V : Type) where
  mem : κ → V
  threads : List (Thread κ L V)

variable {κ L V : Type} [DecidableEq κ]

/-- One instruction. -/
def exec (x : (κ → V) × L) : Instr κ L V → (κ → V) × L
  | .load c put => (x.1, put (x.1 c) x.2)
  | .store c get => (Function.update x.1 c (get x.2), x.2)

/-- A sequence of instructions without another thread. -/
def execAll (l : List (Instr κ L V)) (x : (κ → V) × L) : (κ → V) × L := l.foldl exec x

/-- The next instruction of the thread `k`, if there is one. -/
def step (s : State κ L V) (k : Nat) : State κ L V :=
  match s.threads[k]? with
  | some ⟨r, i :: todo⟩ => ⟨(exec (s.mem, r) i).1, s.threads.set k ⟨(exec (s.mem, r) i).2, todo⟩⟩
  | _ => s

/-- The threads are given the hand in the order of `sched`. -/
def run (sched : List Nat) (s : State κ L V) : State κ L V := sched.foldl step s

/-- The barrier at the end of the loop: every thread has finished. -/
def Done (s : State κ L V) : Prop := ∀ th ∈ s.threads, th.todo = []

/-- The iterations of the thread `k`, in order. -/
def share {α : Type} (assign : Nat → Nat) (k : Nat) (iters : List α) : List α :=
  (iters.zipIdx.filter (fun x => decide (assign x.2 = k))).map Prod.fst

/-- The start of a loop with `n` threads: the iteration `p` is for the thread `assign p`. -/
def start (n : Nat) (assign : Nat → Nat) (r : L) (iters : List (List (Instr κ L V))) (mem : κ → V) : State κ L V :=
  ⟨mem, (List.range n).map (fun k => ⟨r, (share assign k iters).flatten⟩)⟩

/-- `mem'` is a possible memory at the end of a parallel loop which starts with `mem`: some number of threads, some
distribution of the iterations, some interleaving. -/
def Ends (r : L) (iters : List (List (Instr κ L V))) (mem mem' : κ → V) : Prop :=
  ∃ (n : Nat) (assign : Nat → Nat) (sched : List Nat), (∀ p < iters.length, assign p < n) ∧
    Done (run sched (start n assign r iters mem)) ∧ (run sched (start n assign r iters mem)).mem = mem'

/-- `x[c] += v` on a shared number: a load, an addition in a register, a store. -/
def incr [Add V] (cv : κ × V) : List (Instr κ V V) := [.load cv.1 (fun v _ => v), .store cv.1 (fun r => r + cv.2)]

/-- A sequence of `x[c] += v`. -/
def incrs [Add V] (l : List (κ × V)) : List (Instr κ V V) := l.flatMap incr

end Parallel

end Colloids
