import Mathlib.Data.Rat.Floor
import Verif.Common

/-! # The progress bar of python: python/colloids/progressbar.py

Rational numbers for doubles. The notebook (lines 32-35 and 51-52) is not modelled. -/

namespace Colloids
namespace Py
namespace Bar

/-- `round` of python: half way, to the even number. -/
def pyRound (q : ℚ) : ℤ :=
  if q - ⌊q⌋ < 1 / 2 then ⌊q⌋ else if 1 / 2 < q - ⌊q⌋ then ⌊q⌋ + 1 else if ⌊q⌋ % 2 = 0 then ⌊q⌋ else ⌊q⌋ + 1

/-- `percent_done`, python/colloids/progressbar.py:55 and 59. -/
def percent (n e : Nat) : ℤ := pyRound (((e : ℚ) / n * 100) / 100 * 100)

/-- `num_hashes`, python/colloids/progressbar.py:60-61, the width being 40 (line 29). -/
def hashes (p : ℤ) : ℤ := pyRound ((p : ℚ) / 100 * (40 - 2))

/-- The bar without text, python/colloids/progressbar.py:62. A string repeated less than zero times is empty. -/
def stars (p : ℤ) : List Char := ['['] ++ List.replicate (hashes p).toNat '*' ++ List.replicate ((40 - 2) - hashes p).toNat ' ' ++ [']']

/-- `str(percent_done)`; there are no negative percentages. -/
def digits (p : ℤ) : List Char := Nat.toDigits 10 p.toNat

/-- `pct_place`, python/colloids/progressbar.py:63. It is never negative for a bar at least 40 wide and less than 21 digits. -/
def place (p : ℤ) : Nat := (stars p).length / 2 - (digits p).length

/-- `__update_amount`, python/colloids/progressbar.py:58-66. -/
def barOf (p : ℤ) : List Char := (stars p).take (place p) ++ ((digits p ++ ['%']) ++ (stars p).drop (place p + (digits p ++ ['%']).length))

/-- A progress bar. -/
structure Bar where
  iterations : Nat
  text : List Char

/-- `ProgressBar`, python/colloids/progressbar.py:25-39, in a terminal. There is no `animate_noipython`. -/
def create (haveIpython : Bool) (n : Nat) : R Bar := if haveIpython then .ok ⟨n, barOf 0⟩ else .error .logicError

/-- `update_iteration`, python/colloids/progressbar.py:54-56. -/
def update (b : Bar) (e : Nat) : R Bar :=
  if b.iterations = 0 then .error .logicError
  else .ok { b with text := barOf (percent b.iterations e) ++ s!"  {e} of {b.iterations} complete".toList }

/-- `animate_ipython`, python/colloids/progressbar.py:41-49: what is printed, and the bar afterwards. -/
def animate (b : Bar) (i : Nat) : R (List Char × Bar) := do
  let b' ← update b (i + 1)
  pure (b.text, b')

/-- The loop in the documentation, python/colloids/progressbar.py:20-23: what is printed at each turn. -/
def loop : Bar → List Nat → R (List (List Char))
  | _, [] => pure []
  | b, i :: is => do
    let r ← animate b i
    let rest ← loop r.2 is
    pure (r.1 :: rest)

end Bar
end Py
end Colloids
