import Verif.Py.PeriodicModel
import Mathlib.Analysis.Complex.Trigonometric
import Mathlib.Analysis.SpecialFunctions.Trigonometric.Basic
import Mathlib.Analysis.SpecialFunctions.Complex.Circle

/-! # Structure factors of python/colloids/periodic.py:498-627 and windows of python/colloids/particles.py:404-413, 612-647

Exact arithmetic, in three dimensions. The code in C++ is given to `weave`; `blitz` arrays are not checked: reading out of them is undefined. -/

namespace Colloids
namespace Py
namespace Sq

noncomputable section
open Periodic (generateKvec isqrt)

/-- `std::polar(1.0, t)`, for example python/colloids/periodic.py:511. -/
def polar (t : ℝ) : ℂ := Complex.exp (t * Complex.I)

/-- The cache of a coordinate, python/colloids/periodic.py:504, 511-513: each element is the previous one times `e`. -/
def powers (N : Nat) (e : ℂ) : List ℂ := List.iterate (· * e) 1 N

/-- `cache(kv, i, j)`, python/colloids/periodic.py:532-533, with the cache of lines 511-513. -/
def cacheAt (N : Nat) (dims x : Fin 3 → ℝ) (a : Fin 3) (kv : Nat) : R ℂ := getR (powers N (polar (2 * Real.pi / dims a * x a))) kv

/-- `prod`, python/colloids/periodic.py:528-534. -/
def prodOf (N : Nat) (dims : Fin 3 → ℝ) (k : Nat × Nat × Nat) (x : Fin 3 → ℝ) (f : ℝ) : R ℂ := do
  let c0 ← cacheAt N dims x 0 k.1
  let c1 ← cacheAt N dims x 1 k.2.1
  let c2 ← cacheAt N dims x 2 k.2.2
  .ok ((f : ℂ) * c0 * c1 * c2)

/-- `sum_rho`, python/colloids/periodic.py:525-536. -/
def sumRho (N : Nat) (dims : Fin 3 → ℝ) (pf : List ((Fin 3 → ℝ) × ℝ)) (k : Nat × Nat × Nat) : R ℂ :=
  pf.foldlM (fun s x => do
    let p ← prodOf N dims k x.1 x.2
    .ok (s + p)) 0

/-- A bin, python/colloids/periodic.py:523-539. -/
def sqBin (N : Nat) (dims : Fin 3 → ℝ) (pf : List ((Fin 3 → ℝ) × ℝ)) (vs : List (Nat × Nat × Nat)) : R ℝ := do
  let s ← vs.foldlM (fun s k => do
    let r ← sumRho N dims pf k
    .ok (s + Complex.normSq r)) (0 : ℝ)
  .ok (s / vs.length)

/-- A bin with its vectors, python/colloids/periodic.py:517-540, 549; the first bin stays zero. -/
def sqAt (N : Nat) (dims : Fin 3 → ℝ) (pf : List ((Fin 3 → ℝ) × ℝ)) (kvec : Nat → R (List (Nat × Nat × Nat))) (nk : Nat) : R ℝ :=
  if nk = 0 then .ok 0
  else do
    let vs ← kvec nk
    let s ← sqBin N dims pf vs
    .ok (s / pf.length)

/-- What `get_Sq` (python/colloids/periodic.py:498-549) and `rectangular_Sq` (570-627) have in common. -/
def sqAll (N : Nat) (dims : Fin 3 → ℝ) (pos : List (Fin 3 → ℝ)) (field : List ℝ) (kvec : Nat → R (List (Nat × Nat × Nat))) : R (List ℝ) :=
  if field.length ≠ pos.length then .error .logicError
  else (List.range N).mapM (sqAt N dims (pos.zip field) kvec)

/-- `get_Sq`, python/colloids/periodic.py:498-549. -/
def getSq (pos : List (Fin 3 → ℝ)) (N : Nat) (L : ℝ) (maxNvec : Nat) (field : List ℝ) : R (List ℝ) :=
  sqAll N (fun _ => L) pos field fun nk => generateKvec nk maxNvec

/-- The conversion of a real number to `int`. -/
def truncZ (x : ℝ) : Int := if 0 ≤ x then ⌊x⌋ else ⌈x⌉

/-- `ksqmax` and `ksqmin`, python/colloids/periodic.py:560-561, with `n` for `nk` or `nk-1`. -/
def ksq (Lsq : Fin 3 → ℝ) (n i j : Nat) : Int := truncZ (Lsq 2 * (((n : ℝ) * n - (i : ℝ) * i) / Lsq 0 - (j : ℝ) * j / Lsq 1))

/-- The `k` of the loop of line python/colloids/periodic.py:562: from the integer part of the square root of `max(0, ksqmin)` up to the square root of
`ksqmax`, none if that is not a number. -/
def kRange (Lsq : Fin 3 → ℝ) (nk i j : Nat) : List Nat :=
  if ksq Lsq nk i j < 0 then []
  else (List.range (isqrt (ksq Lsq nk i j).toNat + 1)).filter fun k => isqrt (max 0 (ksq Lsq (nk - 1) i j)).toNat ≤ k

/-- The `j` of the loop of line python/colloids/periodic.py:558. -/
def jRange (Lsq : Fin 3 → ℝ) (nk i : Nat) : List Nat :=
  (List.range (⌈(Lsq 1 * ((nk : ℝ) * nk) + 1) / Lsq 0⌉₊ + 1)).filter fun (j : Nat) => Lsq 0 * j * j < Lsq 1 * ((nk : ℝ) * nk - (i : ℝ) * i) + 1

/-- A vector is tested and written, python/colloids/periodic.py:562-564; once the array is full nothing is done. -/
def rectStep (Lsq : Fin 3 → ℝ) (nk maxNvec : Nat) (v : List (Nat × Nat × Nat)) (x : Nat × Nat × Nat) : List (Nat × Nat × Nat) :=
  if v.length < maxNvec ∧ ((((nk - 1 : Nat) : ℝ) * ((nk - 1 : Nat) : ℝ) - (x.1 : ℝ) * x.1) / Lsq 0 <
      (x.2.1 : ℝ) * x.2.1 / Lsq 1 + (x.2.2 : ℝ) * x.2.2 / Lsq 2) then v ++ [x] else v

/-- The vectors that are tried, in order, python/colloids/periodic.py:557-563. -/
def rectTried (Lsq : Fin 3 → ℝ) (nk : Nat) : List (Nat × Nat × Nat) :=
  (List.range (nk + 1)).flatMap fun i => (jRange Lsq nk i).flatMap fun j => (kRange Lsq nk i j).map fun k => (i, j, k)

/-- `generate_kvec_rect`, python/colloids/periodic.py:552-568, for `nk` at least 1. -/
def generateKvecRect (nk : Nat) (Lsq : Fin 3 → ℝ) (maxNvec : Nat) : List (Nat × Nat × Nat) := (rectTried Lsq nk).foldl (rectStep Lsq nk maxNvec) []

/-- `rectangular_Sq`, python/colloids/periodic.py:570-627. `perm` is `np.argsort(Ls)[::-1]`: the axes, the longest first. -/
def rectangularSq (perm : Fin 3 → Fin 3) (positions : List (Fin 3 → ℝ)) (N : Nat) (Ls : Fin 3 → ℝ) (maxNvec : Nat) (field : List ℝ) : R (List ℝ) :=
  if maxNvec % 3 ≠ 0 then .error .logicError
  else sqAll N (Ls ∘ perm) (positions.map (· ∘ perm)) field fun nk => .ok (generateKvecRect nk (fun a => (Ls ∘ perm) a ^ 2) maxNvec)

/-- `window` of `structure_factor`, python/colloids/particles.py:412. -/
def sfWindow (Ls x : Fin 3 → ℝ) : ℝ := ∏ a, 1 / 2 * (1 + Real.sin (2 * Real.pi * x a / Ls a))

/-- `structure_factor`, python/colloids/particles.py:404-413. -/
def structureFactor (perm : Fin 3 → Fin 3) (positions : List (Fin 3 → ℝ)) (N : Nat) (Ls : Fin 3 → ℝ) (maxNvec : Nat) (field : List ℝ) : R (List ℝ) :=
  if field.length ≠ positions.length then .error .logicError
  else do
    let s ← rectangularSq perm positions N Ls maxNvec (List.zipWith (· * ·) field (positions.map (sfWindow Ls)))
    .ok (s.map (· / ((positions.map fun x => sfWindow Ls x ^ 2).sum / positions.length)))

/-- `weights` of `get_rdf_window`, python/colloids/particles.py:620. -/
def rdfWeight (lo hi x : Fin 3 → ℝ) : ℝ := ∏ a, 1 / 2 * (1 - Real.sin (2 * Real.pi * (x a - lo a) / (hi a - lo a)))

/-- `fmod`, for example python/colloids/particles.py:629. -/
def fmodR (a b : ℝ) : ℝ := a - b * truncZ (a / b)

/-- The squared distance in a periodic box, python/colloids/particles.py:629. -/
def wrapSq (lo hi x y : Fin 3 → ℝ) : ℝ := ∑ a, (fmodR (y a - x a + 3 / 2 * (hi a - lo a)) (hi a - lo a) - 1 / 2 * (hi a - lo a)) ^ 2

/-- A pair, python/colloids/particles.py:629-634. -/
def windowPair (N : Nat) (maxdist : ℝ) (lo hi : Fin 3 → ℝ) (x : Fin 3 → ℝ) (g : List ℝ) (y : Fin 3 → ℝ) : R (List ℝ) :=
  if 1 ≤ wrapSq lo hi x y * (1 / maxdist ^ 2) then .ok g
  else modifyR g ⌊Real.sqrt (wrapSq lo hi x y * (1 / maxdist ^ 2)) * N⌋₊ (· + rdfWeight lo hi x)

/-- The loops over the pairs, python/colloids/particles.py:625-636. -/
def windowLoop (N : Nat) (maxdist : ℝ) (lo hi : Fin 3 → ℝ) : List (Fin 3 → ℝ) → List ℝ → R (List ℝ)
  | [], g => .ok g
  | x :: xs, g => do
    let g ← xs.foldlM (windowPair N maxdist lo hi x) g
    windowLoop N maxdist lo hi xs g

/-- `get_rdf_window`, python/colloids/particles.py:612-647. -/
def getRdfWindow (pos : List (Fin 3 → ℝ)) (lo hi : Fin 3 → ℝ) (N : Nat) (maxdist : ℝ) : R (List ℝ) := windowLoop N maxdist lo hi pos (List.replicate N 0)

end

end Sq
end Py
end Colloids
