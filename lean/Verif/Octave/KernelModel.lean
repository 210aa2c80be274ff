import Verif.Traj.Model
import Mathlib.Algebra.Order.Floor.Ring
import Mathlib.Algebra.Order.Field.Basic

/-! # The cache of Gaussian kernels, octavefinder.cpp:16-35 -/

namespace Colloids
namespace Octave

variable {G K : Type} [Field G] [LinearOrder G] [FloorSemiring G]

/-- `m = ((int)(sigma*4+0.5)*2 + 1)|1`, octavefinder.cpp:21, for `sigma ≥ 0`: the number is odd already. -/
def kernelSize (sigma : G) : Nat := 2 * ⌊sigma * 4 + 1 / 2⌋₊ + 1

/-- The conversion of `100*sigma` to the type `size_t` of the keys, octavefinder.cpp:26, 30. A number that does not fit
is undefined behaviour. -/
def kernelKey (sigma : G) : R Nat :=
  if 100 * sigma ≤ -1 ∨ (szMod : G) ≤ 100 * sigma then .error .ub else .ok ⌊100 * sigma⌋₊

/-- `OctaveFinder::get_kernel`, octavefinder.cpp:18-35. `gaussian m sigma` is `cv::getGaussianKernel(m, sigma)`; the
`std::map` is a list of pairs with different keys. Under the critical section the calls of several threads come one
after the other. -/
def getKernel (gaussian : Nat → G → K) (cache : List (Nat × K)) (sigma : G) : R (K × List (Nat × K)) := do
  let key ← kernelKey sigma
  match cache.find? (fun e => e.1 == key) with
  | some e => pure (e.2, cache)
  | none =>
    let k := gaussian (kernelSize sigma) sigma
    pure (k, cache ++ [(key, k)])

/-- Successive calls. -/
def getKernels (gaussian : Nat → G → K) : List (Nat × K) → List G → R (List K × List (Nat × K))
  | cache, [] => .ok ([], cache)
  | cache, s :: l => do
    let r ← getKernel gaussian cache s
    let rs ← getKernels gaussian r.2 l
    pure (r.1 :: rs.1, rs.2)

end Octave
end Colloids
