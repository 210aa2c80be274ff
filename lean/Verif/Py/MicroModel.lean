import Mathlib.Analysis.SpecialFunctions.Gamma.Basic
import Mathlib.Analysis.SpecialFunctions.Trigonometric.Basic
import Mathlib.Analysis.SpecialFunctions.Pow.Real
import Verif.Common

/-!
# `python/colloids/microrheology.py`

Real numbers instead of floats; `numpy.polyfit` and `numpy.round` are parameters; the warnings are not modelled.
-/

namespace Colloids
namespace Py
namespace Micro

open Real

noncomputable section

/-- `numpy.polyfit(x, y, 2, w=w)` of triples `(x, y, w)`: coefficients of degree 2, 1 and 0 -/
abbrev Polyfit := List (ℝ × ℝ × ℝ) → ℝ × ℝ × ℝ

/-- `numpy.poly1d` of degree 2 -/
def poly2 (c : ℝ × ℝ × ℝ) (u : ℝ) : ℝ := c.1 * u ^ 2 + c.2.1 * u + c.2.2

/-- the points of the fit around `u`: logarithms and weights larger than 0.03.
microrheology.py:66-68 -/
def fitPoints (width : ℝ) (pts : List (ℝ × ℝ)) (u : ℝ) : List (ℝ × ℝ × ℝ) :=
  (pts.map fun q => (log q.1, log q.2, exp (-(log q.1 - u) ^ 2 / (2 * width ^ 2)))).filter fun q =>
    decide (0.03 < q.2.2)

/-- `logderive` of pairs `(x, f)`: smoothed `f`, first and second logarithmic derivatives.  The numbers are positive: the
logarithm of another one is not a number.  microrheology.py:55-74 -/
def logderive (polyfit : Polyfit) (width : ℝ) (pts : List (ℝ × ℝ)) : List (ℝ × ℝ × ℝ) :=
  pts.map fun p =>
    let u := log p.1
    let c := polyfit (fitPoints width pts u)
    (exp (poly2 c u), 2 * c.1 * u + c.2.1, 2 * c.1)

/-- the second order formula of `G(s)`.  microrheology.py:113 -/
def modulusS (C : ℝ) (l : ℝ × ℝ × ℝ) : ℝ := C / (l.1 * Gamma (1 + l.2.1) * (1 + l.2.2 / 2))

/-- the second order formula of `G(w)`.  microrheology.py:117-118 -/
def modulusW (l : ℝ × ℝ × ℝ) : ℂ :=
  let foo : ℂ := (π / 2 - 1) * (l.2.1 + Complex.I * (1 - l.2.1)) * l.2.2
  l.1 / (1 + l.2.2) * (Complex.exp (0.5 * Complex.I * π * l.2.1) - foo)

/-- the parts under a fraction of `G(s)` are set to zero.  microrheology.py:125-130 -/
def clipped (clip Gs : ℝ) (G : ℂ) : ℂ :=
  ⟨if G.re < Gs * clip then 0 else G.re, if G.im < Gs * clip then 0 else G.im⟩

/-- `msd2G`; `kB` is the constant of Boltzmann of scipy.  microrheology.py:78-132 -/
def msd2G (polyfit : Polyfit) (kB : ℝ) (dt msd : List ℝ) (a T dim clip width : ℝ) : R (List ℝ × List ℂ) :=
  if dt.length ≠ msd.length then .error .logicError
  else
    let am := a * 1e-6
    let omega := dt.map (1 / ·)
    let C := dim * kB * T / (3 * π * am)
    let Gs := (logderive polyfit width (dt.zip (msd.map (· * 1e-12)))).map (modulusS C)
    let G := (logderive polyfit width (omega.zip Gs)).map modulusW
    .ok (omega, (Gs.zip G).map fun g => clipped clip g.1 g.2)

/-- `numpy.arange(x)`: the integers from 0 that are lower than `x` -/
def arange (x : ℝ) : List Nat := List.range ⌈x⌉₊

/-- one line of the result: `IndexError` out of range; ranks are not negative.  microrheology.py:52 -/
def pick (kept : List (ℝ × ℝ)) (d : Int) : R (ℝ × ℝ) :=
  match kept[d.toNat]? with
  | some p => .ok p
  | none => .error .outOfRange

/-- `log_msd_vs_tau`; `rnd` is `numpy.round`, `uniq` is `numpy.unique`.  The logarithm of a maximum that is not positive
makes `arange` an error.  microrheology.py:25-52 -/
def logMsd (rnd : ℝ → Int) (uniq : List Int → List Int) (tau msd : List ℝ) (maxtime : Option ℝ) :
    R (List (ℝ × ℝ)) :=
  if tau.length ≠ msd.length then .error .outOfRange
  else
    let kept := (tau.zip msd).filter fun p => decide (0 < p.1)
    if kept = [] then .error .invalidArgument
    else
      let maxtime := maxtime.getD kept.length
      if maxtime ≤ 0 then .error .invalidArgument
      else
        let maxT := log maxtime / log 1.15
        let all : List Int := (uniq ((arange maxT).map fun k => rnd (1.15 ^ k))).map fun d => d - 1
        let dt : List Int := all.filter fun (d : Int) => decide ((d : ℝ) < maxtime)
        if dt = [] then .error .invalidArgument
        else dt.mapM (pick kept)

end

end Micro
end Py
end Colloids
