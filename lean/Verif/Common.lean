/-!
# Shared vocabulary of the model

Outcomes of a C++ call, checked element access, and the ordered associative
containers of the standard library that several source files rely on.
-/

namespace Colloids

/-- Ways in which a C++ call can fail to return a value.
`ub` is undefined behaviour (out-of-range access, dereferencing `end()`, ...),
`diverge` is a loop that can make no progress any more; the others are exceptions. -/
inductive Fault
  | ub
  | diverge
  | trajError
  | invalidArgument
  | outOfRange
  | logicError
  deriving DecidableEq, Repr

/-- Outcome of a C++ call returning `α`. -/
abbrev R (α : Type u) := Except Fault α

/-- `v[i]` on a `std::vector`/`std::deque`: undefined behaviour out of range. -/
def getR (l : List α) (i : Nat) : R α :=
  match l[i]? with
  | some a => .ok a
  | none => .error .ub

/-- `v[i] = a` on a `std::vector`/`std::deque`: undefined behaviour out of range. -/
def setR (l : List α) (i : Nat) (a : α) : R (List α) :=
  if i < l.length then .ok (l.set i a) else .error .ub

/-- `f(v[i])` in place on a `std::vector`/`std::deque`: undefined behaviour out of range. -/
def modifyR (l : List α) (i : Nat) (f : α → α) : R (List α) :=
  if i < l.length then .ok (l.modify i f) else .error .ub

/-- `v.back()`: undefined behaviour on an empty container. -/
def backR (l : List α) : R α :=
  match l.getLast? with
  | some a => .ok a
  | none => .error .ub

/-- `std::multimap::insert`: the new entry goes after all the entries whose key is
not greater (C++11 keeps equal keys in insertion order). The list is the iteration order. -/
def mmInsert [LE κ] [DecidableLE κ] (k : κ) (v : ν) : List (κ × ν) → List (κ × ν)
  | [] => [(k, v)]
  | x :: xs => if x.1 ≤ k then x :: mmInsert k v xs else (k, v) :: x :: xs

/-- Inserting a sequence of entries one after the other in a `std::multimap`. -/
def mmInsertAll [LE κ] [DecidableLE κ] (m : List (κ × ν)) (kvs : List (κ × ν)) : List (κ × ν) :=
  kvs.foldl (fun m kv => mmInsert kv.1 kv.2 m) m

end Colloids
