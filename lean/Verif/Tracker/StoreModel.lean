import Verif.CommonLemmas
import Mathlib.Algebra.Field.Basic

/-! # The image of a `Tracker`: graphic/tracker.hpp:176-311, graphic/tracker.cpp:67-90, 356-364

`data` is a block of memory with rows of `pad` numbers, of which `n2` are pixels: the others are there
for the transform in place. -/

namespace Colloids
namespace Tracker

/-- `centersMap.shape()`: the last dimension is the fastest. -/
structure Dims where
  n0 : Nat
  n1 : Nat
  n2 : Nat
  deriving DecidableEq, Repr

namespace Dims

/-- `centersMap.num_elements()`. -/
def size (D : Dims) : Nat := D.n0 * D.n1 * D.n2

/-- `FFTmask.shape()[2]`, graphic/tracker.cpp:81-82. -/
def half (D : Dims) : Nat := D.n2 / 2 + 1

/-- The length of a padded row, `2 * FFTmask.shape()[2]`, graphic/tracker.cpp:72. -/
def pad (D : Dims) : Nat := 2 * D.half

/-- The number of `float` allocated, graphic/tracker.cpp:73-76. -/
def memsize (D : Dims) : Nat := D.n0 * D.n1 * D.pad

end Dims

variable {G β : Type} [Field G]

/-- The loop over `k` of the fills, graphic/tracker.hpp:194-198, 229-233, 254-258: pixels are read from
`inp`, written from `d` on and added to `sum`. Reading after the end of the input is undefined. -/
def fillRow (conv : β → G) : Nat → Nat → List G → List β → G → R (List G × List β × G)
  | 0, _, mem, inp, sum => .ok (mem, inp, sum)
  | _ + 1, _, _, [], _ => .error .ub
  | k + 1, d, mem, x :: inp, sum => do
    let mem ← setR mem d (conv x)
    fillRow conv k (d + 1) mem inp (sum + conv x)

/-- The loop that puts zeros in the padding, graphic/tracker.hpp:236-237, 295-296. -/
def zeroRow : Nat → Nat → List G → R (List G)
  | 0, _, mem => .ok mem
  | k + 1, d, mem => do
    let mem ← setR mem d 0
    zeroRow k (d + 1) mem

/-- What happens to the padding of a row: zeros (graphic/tracker.hpp:236-237), or nothing
(graphic/tracker.hpp:200-201, 260-261). -/
def padRow (zero : Bool) (k d : Nat) (mem : List G) : R (List G) :=
  if zero then zeroRow k d mem else .ok mem

/-- `rows` rows, graphic/tracker.hpp:191-202, 226-238, 252-262. The loops over `i` and `j` are one loop
over the rows, because their bodies do not use `i` and `j`. `zero` tells if the padding is set to zero. -/
def fillRows (D : Dims) (conv : β → G) (zero : Bool) : Nat → Nat → List G → List β → G →
    R (List G × List β × G)
  | 0, _, mem, inp, sum => .ok (mem, inp, sum)
  | r + 1, d, mem, inp, sum => do
    let (mem, inp, sum) ← fillRow conv D.n2 d mem inp sum
    let mem ← padRow zero (D.pad - D.n2) (d + D.n2) mem
    fillRows D conv zero r (d + D.pad) mem inp sum

/-- What a fill gives: the memory, the rest of the input, and `mean`. -/
structure Filled (G β : Type) where
  mem : List G
  rest : List β
  mean : G

/-- `Tracker::fillImage`, graphic/tracker.hpp:186-206. `sum` is not initialised: its value is `junk`.
(The input has the type of the pixels.) -/
def fillImage (D : Dims) (junk : G) (mem : List G) (inp : List G) : R (Filled G G) := do
  let (mem, rest, sum) ← fillRows D id false (D.n0 * D.n1) 0 mem inp junk
  pure ⟨mem, rest, sum / (D.size : G)⟩

/-- `static_cast<unsigned char>` of a `char`, graphic/tracker.hpp:231. -/
def uchar (c : Int) : Int := c % 256

/-- `Tracker::fillImage_charToUchar`, graphic/tracker.hpp:219-243. -/
def fillImageUchar (D : Dims) (mem : List G) (inp : List Int) : R (Filled G Int) := do
  let (mem, rest, sum) ← fillRows D (fun c => ((uchar c : Int) : G)) true (D.n0 * D.n1) 0 mem inp 0
  pure ⟨mem, rest, sum / (D.size : G)⟩

/-- `Tracker::fillSlice`, graphic/tracker.hpp:248-265. Here `mean` is a sum. -/
def fillSlice (D : Dims) (slice : Nat) (mem : List G) (mean : G) (inp : List G) : R (Filled G G) := do
  let (mem, rest, sum) ← fillRows D id false D.n1 (slice * (D.n1 * D.half) * 2) mem inp mean
  pure ⟨mem, rest, sum⟩

/-- The four branches of `SerieTracker::setTimeStep`, graphic/serieTracker.cpp:233-266, from the
slices read in the files (one if there is no depth). `junk` is the non-initialised sum of `fillImage`. -/
def setTimeStep (D : Dims) (hasDepth : Bool) (junk : G) (mem : List G) (slices : List (List G)) :
    R (List G × G) := do
  if hasDepth then do
    let (mem, sum) ← (List.range D.n0).foldlM (fun (s : List G × G) (z : Nat) => do
      let img ← getR slices z
      let f ← fillSlice D z s.1 s.2 img
      pure (f.mem, f.mean)) (mem, 0)
    pure (mem, sum / (D.size : G))
  else do
    let img ← getR slices 0
    let f ← fillImage D junk mem img
    pure (f.mem, f.mean / (D.size : G))

/-- The loop over `k` of `copyImage`, graphic/tracker.hpp:292-293, to another place. -/
def copyRow : Nat → Nat → List G → List G → R (List G)
  | 0, _, _, out => .ok out
  | k + 1, d, mem, out => do
    let x ← getR mem d
    copyRow k (d + 1) mem (out ++ [x])

/-- The rows of `copyImage`, graphic/tracker.hpp:289-297: the padding is set to zero. -/
def copyRows (D : Dims) : Nat → Nat → List G → List G → R (List G × List G)
  | 0, _, mem, out => .ok (mem, out)
  | r + 1, d, mem, out => do
    let out ← copyRow D.n2 d mem out
    let mem ← zeroRow (D.pad - D.n2) (d + D.n2) mem
    copyRows D r (d + D.pad) mem out

/-- `Tracker::copyImage` to another place, graphic/tracker.hpp:283-302: the memory and the output. -/
def copyImage (D : Dims) (padded : Bool) (mem : List G) : R (List G × List G) :=
  if padded then copyRows D (D.n0 * D.n1) 0 mem []
  else if D.size ≤ mem.length then .ok (mem, mem.take D.size) else .error .ub

/-- The loop over `k` of `copyImage` when `result` is inside `data`, graphic/tracker.hpp:292-293. -/
def moveRow : Nat → Nat → Nat → List G → R (List G)
  | 0, _, _, mem => .ok mem
  | k + 1, d, res, mem => do
    let x ← getR mem d
    let mem ← setR mem res x
    moveRow k (d + 1) (res + 1) mem

/-- The rows of `copyImage` when `result` is inside `data`, graphic/tracker.hpp:289-297. -/
def moveRows (D : Dims) : Nat → Nat → Nat → List G → R (List G)
  | 0, _, _, mem => .ok mem
  | r + 1, d, res, mem => do
    let mem ← moveRow D.n2 d res mem
    let mem ← zeroRow (D.pad - D.n2) (d + D.n2) mem
    moveRows D r (d + D.pad) (res + D.n2) mem

/-- `Tracker::unpad`, graphic/tracker.cpp:357-364: the memory and the flag `padded`. -/
def unpad (D : Dims) (padded : Bool) (mem : List G) : R (List G × Bool) :=
  if padded then do
    let mem ← moveRows D (D.n0 * D.n1) 0 0 mem
    pure (mem, false)
  else .ok (mem, false)

end Tracker
end Colloids
