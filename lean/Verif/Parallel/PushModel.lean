import Verif.Parallel.Model

/-!
# The centers found in a volume by several threads, multiscale/src/octavefinder.cpp:507-554

The loop over `j` of `OctaveFinder3D::initialize_binary` is parallel. Each center is pushed in two lists, each push being
in a critical section of its own.
-/

namespace Colloids

namespace Parallel

variable {α β : Type}

/-- A push, under the protection of a critical section. -/
inductive Push (α β : Type)
  | pixel (a : α)
  | center (b : β)

/-- The two lists and what the threads still have to push. -/
structure Lists (α β : Type) where
  pixels : List α
  centers : List β
  threads : List (List (Push α β))

/-- The pushes for the centers that an iteration finds, octavefinder.cpp:541-551. -/
def pushes (l : List (α × β)) : List (Push α β) := l.flatMap (fun x => [.pixel x.1, .center x.2])

/-- The next push of the thread `k`. -/
def pushStep (s : Lists α β) (k : Nat) : Lists α β :=
  match s.threads[k]? with
  | some (.pixel a :: rest) => ⟨s.pixels ++ [a], s.centers, s.threads.set k rest⟩
  | some (.center b :: rest) => ⟨s.pixels, s.centers ++ [b], s.threads.set k rest⟩
  | _ => s

/-- `pixels` (`centers_no_subpix`) and `centers` are a possible content of the two lists after the loop, of which the
iteration `p` finds the centers `iters[p]`; both lists were empty, lines 485-486. The loops over the planes and the layers,
which are not parallel, are taken as a single loop: this allows more interleavings than the code. -/
def PushEnds (iters : List (List (α × β))) (pixels : List α) (centers : List β) : Prop :=
  ∃ (n : Nat) (assign : Nat → Nat) (sched : List Nat), (∀ p < iters.length, assign p < n) ∧
    sched.foldl pushStep ⟨[], [], (List.range n).map (fun k => pushes (share assign k iters).flatten)⟩
      = ⟨pixels, centers, List.replicate n []⟩

end Parallel

end Colloids
