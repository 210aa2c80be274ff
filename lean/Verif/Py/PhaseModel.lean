import Mathlib.Analysis.SpecialFunctions.Log.Basic
import Mathlib.Analysis.SpecialFunctions.Trigonometric.Arctan
import Mathlib.MeasureTheory.Integral.IntervalIntegral.Basic
import Mathlib.Analysis.Real.Pi.Bounds

/-!
# `python/colloids/phase.py`: phase diagrams of colloid and polymer mixtures

Floating point numbers are real numbers; `numpy` functions apply to one number at a time (the code is
vectorised).  Adaptive quadrature (`quad`) is the integral itself.  The iterative solvers of
`scipy.optimize` (`fsolve`, `fminbound`) are parameters; what is assumed of their results is written in
the theorems.  Rounding and the convergence of the solvers are not modelled.
-/

namespace Colloids
namespace Py
namespace Phase

open Real

noncomputable section

/-! ### Conversions -/

/-- the variable `t` of the rational approximation.  phase.py:26 -/
def logT (x : ℝ) : ℝ := x / (x + 2.0)

/-- numerator of `w` at `t2`.  phase.py:20-22,28 -/
def logP (t2 : ℝ) : ℝ :=
  ((-0.178874546012214e-01 * t2 + 0.405303492862024e+00) * t2 + -0.129418923021993e+01) * t2 + 1.0

/-- denominator of `w` at `t2`.  phase.py:23-25,28 -/
def logQ (t2 : ℝ) : ℝ :=
  ((-0.845104217945565e-01 * t2 + 0.747811014037616e+00) * t2 + -0.162752256355323e+01) * t2 + 1.0

open Classical in
/-- `logOnePlusX`: the logarithm far from zero, a rational approximation near zero.
phase.py:11-29 -/
def logOnePlusX (x : ℝ) : ℝ :=
  if |x| > 0.375 then log (1.0 + x)
  else 2.0 * logT x * (logP (logT x * logT x) / logQ (logT x * logT x))

/-- `piv2y`.  phase.py:40 -/
def piv2y (piv qR : ℝ) : ℝ := qR ^ 3 * piv

/-- `y2piv`.  phase.py:41 -/
def y2piv (y qR : ℝ) : ℝ := y / qR ^ 3

/-- `f2vf`.  phase.py:42 -/
def f2vf (f : ℝ) : ℝ := f / (1 + f)

/-- `vf2f`.  phase.py:43 -/
def vf2f (vf : ℝ) : ℝ := vf / (1 - vf)

/-- `f_HSf`.  phase.py:50 -/
def fHSf : ℝ := 0.970

/-- `f_HSs`.  phase.py:51 -/
def fHSs : ℝ := 1.185

/-- `eta_cp`.  phase.py:54 -/
def etaCp : ℝ := π / 6 * √2

/-- `f_cp`.  phase.py:55 -/
def fCp : ℝ := vf2f etaCp

/-- `f2U`.  phase.py:56 -/
def f2U (f : ℝ) : ℝ := log (1 / f - 1 / fCp)

/-- `U2f`.  phase.py:57 -/
def U2f (U : ℝ) : ℝ := 1 / (exp U + 1 / fCp)

/-! ### Free volume -/

/-- `A`.  phase.py:64 -/
def A (q : ℝ) : ℝ := (1 + q) ^ 3 - 1

/-- `B`.  phase.py:65 -/
def B (q : ℝ) : ℝ := 3 * q ^ 2 * (q + 1.5)

/-- `C`.  phase.py:66 -/
def C (q : ℝ) : ℝ := q ^ 3

/-- `Q`.  phase.py:67 -/
def Q (f q : ℝ) : ℝ := A q * f + B q * f ^ 2 + C q * f ^ 3

/-- `Q1`.  phase.py:68 -/
def Q1 (f q : ℝ) : ℝ := A q + 2 * B q * f + 3 * C q * f ^ 2

/-- `Q2`.  phase.py:69 -/
def Q2 (f q : ℝ) : ℝ := 2 * B q + 6 * C q * f

/-- `Q3`.  phase.py:70 -/
def Q3 (_f q : ℝ) : ℝ := 6 * C q

/-- `beta`.  phase.py:71 -/
def beta (f q : ℝ) : ℝ := exp (-Q f q)

/-- `beta1`.  phase.py:72 -/
def beta1 (f q : ℝ) : ℝ := -beta f q * Q1 f q

/-- `beta2`.  phase.py:73 -/
def beta2 (f q : ℝ) : ℝ := -beta f q * Q2 f q - beta1 f q * Q1 f q

/-- `beta3`.  phase.py:74 -/
def beta3 (f q : ℝ) : ℝ :=
  -beta f q * Q3 f q - 2 * beta1 f q * Q2 f q - beta2 f q * Q1 f q

/-- `g`.  phase.py:75 -/
def g (f q : ℝ) : ℝ := (beta f q - (1 + f) * beta1 f q) / (1 + q) ^ 3

/-- `h`.  phase.py:76 -/
def h (f q : ℝ) : ℝ := beta f q - f * beta1 f q

/-- `alpha`.  phase.py:77 -/
def alpha (f q : ℝ) : ℝ := beta f q / (1 + f)

/-- `xp2th`; `q` stands for `qR2q(qR)` (the formula of `qR2q`, lines 32-38, is not modelled).
phase.py:45-47 -/
def xp2th (q cp phi qR cpov : ℝ) : ℝ := y2piv (cp / cpov / alpha (vf2f phi) q) qR

/-! ### `numpy.poly1d` -/

/-- `numpy.poly1d.__call__`: coefficients from the highest degree down, Horner's rule.
phase.py:288,301-304,326 -/
def pval (l : List ℝ) (x : ℝ) : ℝ := l.foldl (fun y c => y * x + c) 0

/-- `poly1d.deriv()`.  phase.py:292,336 -/
def pderiv : List ℝ → List ℝ
  | [] => []
  | c :: l => if l = [] then [] else c * (l.length : ℝ) :: pderiv l

/-- zeros in front of the shorter list.  (numpy `polyadd`) -/
def padTo (n : Nat) (l : List ℝ) : List ℝ := List.replicate (n - l.length) 0 ++ l

/-- sum of two `poly1d`.  phase.py:292,296 -/
def padd (a b : List ℝ) : List ℝ :=
  List.zipWith (· + ·) (padTo (max a.length b.length) a) (padTo (max a.length b.length) b)

/-- number times `poly1d`.  phase.py:296,315 -/
def pscale (c : ℝ) (a : List ℝ) : List ℝ := a.map (c * ·)

/-- difference of two `poly1d`.  phase.py:292 -/
def psub (a b : List ℝ) : List ℝ := padd a (pscale (-1) b)

/-- product of two `poly1d` (the convolution is written as a sum of shifted copies).
phase.py:292,340 -/
def pmul : List ℝ → List ℝ → List ℝ
  | [], _ => []
  | c :: a, b => padd (pscale c b ++ List.replicate a.length 0) (pmul a b)

/-- integer power of a `poly1d`.  phase.py:292,296 -/
def ppow (a : List ℝ) : Nat → List ℝ
  | 0 => [1]
  | n + 1 => pmul (ppow a n) a

/-! ### Equations of state -/

/-- what the methods of a class that depend on `f` alone give -/
structure Core where
  maxf : ℝ
  pv0 : ℝ → ℝ
  pv01 : ℝ → ℝ
  pv02 : ℝ → ℝ
  ratio : ℝ → ℝ
  muNolog : ℝ → ℝ
  mu0 : ℝ → ℝ

/-- `scipy.misc.derivative(F, x, dx)`, of order 3.  phase.py:98 -/
def derivative1 (F : ℝ → ℝ) (dx x : ℝ) : ℝ := (-F (x - dx) + F (x + dx)) / 2 / dx

/-- `scipy.misc.derivative(F, x, dx, n=2, order=5)`.  phase.py:102 -/
def derivative2 (F : ℝ → ℝ) (dx x : ℝ) : ℝ :=
  (-F (x - 2 * dx) + 16 * F (x - dx) - 30 * F x + 16 * F (x + dx) - F (x + 2 * dx)) / 12 / dx ^ 2

/-- `EquationOfState.maxf`.  phase.py:90 -/
def baseMaxf : ℝ := vf2f (1 - 1e-6)

/-- `EquationOfState.pv_0`.  phase.py:94 -/
def basePv0 (Z : ℝ → ℝ) (f : ℝ) : ℝ := f / (1 + f) * Z f

/-- `EquationOfState.tointegrate`.  phase.py:110 -/
def baseToint (Z : ℝ → ℝ) (f : ℝ) : ℝ := (Z f - 1) / (1 + f) / f

/-- `EquationOfState.mu_0_nolog`; `lg` is `logOnePlusX`.  phase.py:112-116 -/
def baseMuNolog (lg Z toint : ℝ → ℝ) (f : ℝ) : ℝ := -lg f + Z f - 1 + ∫ x in (0 : ℝ)..f, toint x

/-- `EquationOfState.mu_0`.  phase.py:118-120 -/
def baseMu0 (muNolog : ℝ → ℝ) (f : ℝ) : ℝ := log f + muNolog f

/-- an equation of state as the rest of the module uses it -/
structure EOS extends Core where
  pvOfU : ℝ → ℝ → ℝ → ℝ
  muOfU : ℝ → ℝ → ℝ → ℝ

/-- `EquationOfState.pv`.  phase.py:122-124 -/
def Core.pv (E : Core) (f piv q : ℝ) : ℝ := E.pv0 f + piv * h f q

/-- `EquationOfState.mu`.  phase.py:126-128 -/
def Core.mu (E : Core) (f piv q : ℝ) : ℝ := E.mu0 f + piv * (1 + q) ^ 3 * g f q

/-- `EquationOfState.mu_of_log`.  phase.py:130-133 -/
def Core.muOfLog (E : Core) (F piv q : ℝ) : ℝ :=
  F + E.muNolog (exp F) + piv * (1 + q) ^ 3 * g (exp F) q

/-- `EquationOfState.pv_of_log`.  phase.py:139-141 -/
def Core.pvOfLog (E : Core) (F piv q : ℝ) : ℝ := E.pv (exp F) piv q

/-- `EquationOfState.omega`.  phase.py:147-149 -/
def Core.omega (E : Core) (f piv q : ℝ) : ℝ := -E.pv f piv q + f2vf f * E.mu f piv q

/-- `EquationOfState.omega_of_log`.  phase.py:151-153 -/
def Core.omegaOfLog (E : Core) (F piv q : ℝ) : ℝ :=
  -E.pvOfLog F piv q + f2vf (exp F) * E.muOfLog F piv q

/-- `EquationOfState.mu_of_U`, `EquationOfState.pv_of_U`, which only `Hall` redefines.
phase.py:135-137,143-145 -/
def Core.toEOS (E : Core) : EOS :=
  { E with
    muOfU := fun U piv q => E.muOfLog (-log (exp U + 1 / fCp)) piv q
    pvOfU := fun U piv q => E.pv (1 / (exp U + 1 / fCp)) piv q }

/-- `CarnahanStarling.Z`, `CarnahanStarling2.Z`.  phase.py:221,244 -/
def csZ (f : ℝ) : ℝ := 2 * f ^ 3 + 6 * f ^ 2 + 4 * f + 1

/-- `CarnahanStarling.mu_0_nolog`.  phase.py:237 -/
def csMuNolog (lg : ℝ → ℝ) (f : ℝ) : ℝ := -lg f + 8 * f + 7 * f ^ 2 + 2 * f ^ 3

/-- `CarnahanStarling.pv_0`.  phase.py:225 -/
def csPv0 (f : ℝ) : ℝ := f / (1 + f) + 4 * f ^ 2 + 2 * f ^ 3

/-- `CarnahanStarling.pv_0_1`.  phase.py:229 -/
def csPv01 (f : ℝ) : ℝ := (1 + f) ^ (-2 : ℤ) + 8 * f + 6 * f ^ 2

/-- `CarnahanStarling.pv_0_2`.  phase.py:233 -/
def csPv02 (f : ℝ) : ℝ := -2 * (1 + f) ^ (-3 : ℤ) + 8 + 12 * f

/-- class `CarnahanStarling`.  phase.py:216-237 -/
def carnahanStarling (lg : ℝ → ℝ) : EOS :=
  Core.toEOS
    { maxf := baseMaxf
      pv0 := csPv0
      pv01 := csPv01
      pv02 := csPv02
      ratio := fun f => csPv02 f / csPv01 f
      muNolog := csMuNolog lg
      mu0 := baseMu0 (csMuNolog lg) }

/-- `CarnahanStarling2.tointegrate`.  phase.py:248 -/
def cs2Toint (f : ℝ) : ℝ := (2 * f ^ 2 + 6 * f + 4) / (1 + f)

/-- class `CarnahanStarling2`: everything else is inherited.  phase.py:239-248 -/
def carnahanStarling2 (lg : ℝ → ℝ) : EOS :=
  Core.toEOS
    { maxf := baseMaxf
      pv0 := basePv0 csZ
      pv01 := derivative1 (basePv0 csZ) 1e-6
      pv02 := derivative2 (basePv0 csZ) 1e-3
      ratio := fun f => derivative2 (basePv0 csZ) 1e-3 f / derivative1 (basePv0 csZ) 1e-6 f
      muNolog := baseMuNolog lg csZ cs2Toint
      mu0 := baseMu0 (baseMuNolog lg csZ cs2Toint) }

/-- `Kolafa.Z`.  phase.py:255 -/
def kolafaZ (f : ℝ) : ℝ := (5 * f ^ 4 + 25 * f ^ 3 + 30 * f ^ 2 + 15 * f + 3) / (3 * f + 3)

/-- `Kolafa.pv_0`.  phase.py:259 -/
def kolafaPv0 (f : ℝ) : ℝ :=
  (3 + 15 * f + 30 * f ^ 2 + 25 * f ^ 3 + 5 * f ^ 4) * f / (1 + f) ^ 2 / 3

/-- `Kolafa.pv_0_1`.  phase.py:263 -/
def kolafaPv01 (f : ℝ) : ℝ :=
  5 * f ^ 2 + 10 * f + 4 * (1 + f) ^ (-2 : ℤ) - 4 / 3 * (1 + f) ^ (-3 : ℤ) - 5 / 3

/-- `Kolafa.pv_0_2`.  phase.py:267 -/
def kolafaPv02 (f : ℝ) : ℝ :=
  10 * (1 + f) - 8 * (1 + f) ^ (-3 : ℤ) + 4 * (1 + f) ^ (-4 : ℤ)

/-- `Kolafa.mu_0_nolog`.  phase.py:271 -/
def kolafaMuNolog (lg : ℝ → ℝ) (f : ℝ) : ℝ :=
  (-8 * lg f + 5 - 4 / (f + 1) + 25 * f + 45 * f ^ 2 / 2 + 5 * f ^ 3) / 3

/-- class `Kolafa`.  phase.py:250-271 -/
def kolafa (lg : ℝ → ℝ) : EOS :=
  Core.toEOS
    { maxf := baseMaxf
      pv0 := kolafaPv0
      pv01 := kolafaPv01
      pv02 := kolafaPv02
      ratio := fun f => kolafaPv02 f / kolafaPv01 f
      muNolog := kolafaMuNolog lg
      mu0 := baseMu0 (kolafaMuNolog lg) }

/-- `LeFevre.P`.  phase.py:279 -/
def lfP : List ℝ := [-0.0972383, -1.21581, -3.89085, -5.35009, -3.40466, -0.826856, 0]

/-- `LeFevre.Q`.  phase.py:280 -/
def lfQ : List ℝ := [1, -2.50397, 2.38135, -1.35199, -0.0972383, -0.924177, -0.826856]

/-- `LeFevre.pv_0`.  phase.py:288 -/
def lfPv0 (f : ℝ) : ℝ := pval lfP f / pval lfQ f

/-- `LeFevre.pv_0_1`.  phase.py:292 -/
def lfPv01 (f : ℝ) : ℝ :=
  pval (psub (pmul (pderiv lfP) lfQ) (pmul lfP (pderiv lfQ))) f / pval (ppow lfQ 2) f

/-- `LeFevre.pv_0_2`.  phase.py:296 -/
def lfPv02 (f : ℝ) : ℝ :=
  pval
    (psub
      (padd
        (psub (pmul (pderiv (pderiv lfP)) (ppow lfQ 2))
          (pmul (pmul (pscale 2 (pderiv lfP)) (pderiv lfQ)) lfQ))
        (pmul (pscale 2 lfP) (ppow (pderiv lfQ) 2)))
      (pmul (pmul lfP lfQ) (pderiv (pderiv lfQ)))) f
    / pval (ppow lfQ 3) f

/-- `LeFevre.mu_0_nolog`.  phase.py:298-307 -/
def lfMuNolog (lg : ℝ → ℝ) (f : ℝ) : ℝ :=
  let phi := f2vf f
  let Q1 := pval [-1, 0.636566] phi
  let Q2 := pval [1, 0.977327] phi
  let Q3 := pval [1, -0.646459, 0.468619] phi
  let Q4 := pval [1, -1.15801, 0.391873] phi
  let Z := 1.11967 / Q1 + 0.0258742 / Q2 + (0.342478 * phi - 0.278592) / Q3
    + (0.751322 * phi - 0.0748109) / Q4
  let intZ := -1.75889 * log Q1 - 0.0264744 * log Q2 + 0.297249 * log Q3 + 0.0954345 * log Q4
    - 2.6928 * arctan (2.43318 - 4.20234 * phi) - 0.249103 * arctan (0.535643 - 1.65716 * phi)
  let mu := -lg f + Z - 1 + intZ + 2.8219814517647936
  mu

/-- class `LeFevre` (its `Z` is not implemented).  phase.py:273-307 -/
def leFevre (lg : ℝ → ℝ) : EOS :=
  Core.toEOS
    { maxf := vf2f 0.636566
      pv0 := lfPv0
      pv01 := lfPv01
      pv02 := lfPv02
      ratio := fun f => lfPv02 f / lfPv01 f
      muNolog := lfMuNolog lg
      mu0 := baseMu0 (lfMuNolog lg) }

/-- `Liu.a`.  phase.py:313 -/
def liuA : ℝ := 1 / 0.635584

/-- `Liu.cs[0]`.  phase.py:314 -/
def liuC : ℝ := 0.31416

/-- `Liu.QZv`.  phase.py:315 -/
def liuQ : List ℝ := pscale (1 / 3.68584) [-0.16012, -0.172284, 1.9499, -2.5848, 1]

/-- `Liu.P`.  phase.py:314,316 -/
def liuP : List ℝ := [3.6684e11, 0, -2.3452e11, 0, 4.1637e10] ++ List.replicate 40 0

/-- `Liu.Z`.  phase.py:322-331 -/
def liuZ (f : ℝ) : ℝ :=
  let phi := f2vf f
  (1 + phi / pval liuQ phi) + liuC * phi / (1 - liuA * phi) + pval liuP phi

/-- `Liu.pv_0_1_phi`.  phase.py:333-341 -/
def liuPhi1 (phi : ℝ) : ℝ :=
  (1 + phi * pval (psub (pscale 2 liuQ) (pmul [1, 0] (pderiv liuQ))) phi / pval (ppow liuQ 2) phi)
    + liuC * phi * (2 - liuA * phi) / (1 - liuA * phi) ^ 2
    + pval (pderiv (pmul liuP [1, 0])) phi

/-- `Liu.pv_0_1`.  phase.py:343-347 -/
def liuPv01 (f : ℝ) : ℝ := liuPhi1 (f2vf f) * (1 - f2vf f) ^ 2

/-- `Liu.pv_0_2_phi`.  phase.py:349-361 -/
def liuPhi2 (phi : ℝ) : ℝ :=
  pval
      (padd
        (psub
          (psub (pmul [2, 0, 0] (ppow (pderiv liuQ) 2))
            (pmul (pmul [1, 0, 0] liuQ) (pderiv (pderiv liuQ))))
          (pmul (pmul [4, 0] liuQ) (pderiv liuQ)))
        (pscale 2 (ppow liuQ 2))) phi
      / pval (ppow liuQ 3) phi
    + 2 * liuC / (1 - liuA * phi) ^ 3
    + pval (pderiv (pderiv (pmul liuP [1, 0]))) phi

/-- `Liu.pv_0_2`.  phase.py:363-367 -/
def liuPv02 (f : ℝ) : ℝ :=
  liuPhi2 (f2vf f) * (1 - f2vf f) ^ 4 - liuPhi1 (f2vf f) * 2 * (1 - f2vf f) ^ 3

/-- `Liu.pv_0_ratio`.  phase.py:369-373 -/
def liuRatio (f : ℝ) : ℝ :=
  liuPhi2 (f2vf f) / liuPhi1 (f2vf f) * (1 - f2vf f) ^ 2 - 2 * (1 - f2vf f)

/-- `Liu.tointegrate`.  phase.py:376-386 -/
def liuToint (f : ℝ) : ℝ :=
  (1 / pval liuQ (f2vf f) + liuC / (1 - liuA * f2vf f) + pval liuP.dropLast (f2vf f))
    * (1 - f2vf f) ^ 2

/-- class `Liu`.  phase.py:309-386 -/
def liu (lg : ℝ → ℝ) : EOS :=
  Core.toEOS
    { maxf := vf2f 0.635584
      pv0 := basePv0 liuZ
      pv01 := liuPv01
      pv02 := liuPv02
      ratio := liuRatio
      muNolog := baseMuNolog lg liuZ liuToint
      mu0 := baseMu0 (baseMuNolog lg liuZ liuToint) }

/-- `Hall.Z`.  phase.py:392-397 -/
def hallZ (f : ℝ) : ℝ :=
  let phi := f2vf f
  let xi := f2vf fCp - phi
  (1 + phi + phi ^ 2 - 0.67825 * phi ^ 3 - phi ^ 4 - 6.028 * exp (xi * (7.9 - 3.9 * xi)) * phi ^ 6)
    / (1 - 3 * phi + 3 * phi ^ 2 - 1.04305 * phi ^ 3)

/-- `Hall.pv_0`.  phase.py:401 -/
def hallPv0 (f : ℝ) : ℝ := 3 / (1 / f - 1 / fCp)

/-- `Hall.mu_0`.  phase.py:403-406 -/
def hallMu0 (f : ℝ) : ℝ :=
  2.1306 + 3 * (1 + f) / (1 / f - 1 / fCp) / f - 3 * log (1 / f - 1 / fCp)

/-- class `Hall`.  phase.py:389-422 -/
def hall : EOS :=
  { maxf := baseMaxf
    pv0 := hallPv0
    pv01 := derivative1 hallPv0 1e-6
    pv02 := derivative2 hallPv0 1e-3
    ratio := fun f => derivative2 hallPv0 1e-3 f / derivative1 hallPv0 1e-6 f
    muNolog := fun f => hallMu0 f - log f
    mu0 := hallMu0
    muOfU := fun U piv q =>
      2.1306 + 3 * (1 + 1 / etaCp / exp U) - 3 * U
        + piv * (1 + q) ^ 3 * g (1 / (exp U + 1 / fCp)) q
    pvOfU := fun U piv q => 3 / exp U + piv * h (1 / (exp U + 1 / fCp)) q }

/-! ### Critical point, spinodal and binodal -/

/-- `fsolve`: function, guess -/
abbrev Fsolve (n : Nat) := ((Fin n → ℝ) → Fin n → ℝ) → (Fin n → ℝ) → Fin n → ℝ

/-- `fminbound`: function, bounds -/
abbrev Fminbound := (ℝ → ℝ) → ℝ → ℝ → ℝ

/-- the solvers the module uses -/
structure Solvers where
  s1 : Fsolve 1
  s2 : Fsolve 2
  s3 : Fsolve 3
  s4 : Fsolve 4
  minb : Fminbound

/-- the function `critical_point` cancels.  phase.py:157 -/
def critEq (E : EOS) (q f : ℝ) : ℝ := 1 / f + beta3 f q / beta2 f q - E.ratio f

/-- `EquationOfState.critical_point`.  phase.py:155-159 -/
def criticalPoint (S : Solvers) (E : EOS) (q : ℝ) : ℝ × ℝ :=
  let fc := S.s1 (fun v _ => critEq E q (v 0)) (fun _ => 0.5) 0
  (fc, E.pv01 fc / fc / beta2 fc q)

/-- the functions `binodalGL` cancels.  phase.py:168-171 -/
def binEq (E : EOS) (piv q : ℝ) (F : Fin 2 → ℝ) : Fin 2 → ℝ :=
  ![E.pvOfLog (F 0) piv q - E.pvOfLog (F 1) piv q, E.muOfLog (F 0) piv q - E.muOfLog (F 1) piv q]

/-- `EquationOfState.binodalGL`; `none` is the missing guess.  phase.py:161-171 -/
def binodalGL (S : Solvers) (E : EOS) (piv q : ℝ) (guess : Option (Fin 2 → ℝ)) : Fin 2 → ℝ :=
  S.s2 (binEq E piv q) <| guess.getD <|
    let fc := (criticalPoint S E q).1
    let fspG := S.minb (fun f => -E.pv f piv q) 0 fc
    let fspL := S.minb (fun f => E.pv f piv q) fc E.maxf
    ![log (0.5 * fspG), log (fspL + fspG)]

/-- `np.linspace(a, b, n)`.  phase.py:177,196,201 -/
def linspace (a b : ℝ) (n : Nat) : List ℝ :=
  (List.range n).map fun (i : Nat) => a + i * ((b - a) / (n - 1 : ℝ))

/-- one line of `spinodalGL`.  phase.py:178-181 -/
def spinodalRow (S : Solvers) (E : EOS) (q fc piv : ℝ) : ℝ × ℝ × ℝ :=
  (piv, S.minb (fun f => -E.pv f piv q) 0 fc, S.minb (fun f => E.pv f piv q) fc E.maxf)

/-- `EquationOfState.spinodalGL`.  phase.py:173-181 -/
def spinodalGL (S : Solvers) (E : EOS) (q : ℝ) (pivs : Option (List ℝ)) : List (ℝ × ℝ × ℝ) :=
  let c := criticalPoint S E q
  (pivs.getD ((linspace (1 / c.2) (1 / (8 * c.2)) 50).map fun x => 1 / x)).map
    (spinodalRow S E q c.1)

/-- a list grown by solving at each pressure from the last result: the list without its first item.
phase.py:197-199,202-204,454-456 -/
def follow {α : Type} (step : ℝ → α → α) : List ℝ → α → List α
  | [], _ => []
  | p :: ps, a => step p a :: follow step ps (step p a)

/-- the pressures of the lines of `all_GL`.  phase.py:189,194-196,201,206-210 -/
def glPivs (pivc maxpiv : ℝ) : List ℝ :=
  let startp := pivc * 1.1
  pivc :: (linspace startp pivc 50).dropLast.reverse
    ++ ((linspace (1 / startp) (1 / maxpiv) 50).map fun x => 1 / x).tail

/-- the binodal lines of `all_GL`.  phase.py:186-210 -/
def glBinodal (S : Solvers) (E : EOS) (q : ℝ) (maxpiv : Option ℝ) : List (ℝ × ℝ × ℝ) :=
  let c := criticalPoint S E q
  let startp := c.2 * 1.1
  let fm := S.minb (fun f => E.mu f startp q) c.1 E.maxf
  let fM := S.minb (fun f => -E.pv f startp q) 0 c.1
  let guess : Fin 2 → ℝ := ![log (0.5 * fM), log (0.5 * (fm + E.maxf))]
  let topp := (linspace (1 / startp) (1 / maxpiv.getD (startp * 2)) 50).map fun x => 1 / x
  let botp := (linspace startp c.2 50).dropLast
  let rows := fun (ps : List ℝ) =>
    (ps.zip (follow (fun p a => binodalGL S E p q (some a)) ps guess)).map fun r =>
      (r.1, exp (r.2 0), exp (r.2 1))
  (c.2, c.1, c.1) :: (rows botp).reverse ++ (rows topp).tail

/-- `EquationOfState.all_GL`.  phase.py:184-214 -/
def allGL (S : Solvers) (E : EOS) (q : ℝ) (maxpiv : Option ℝ) :
    List ((ℝ × ℝ × ℝ) × ℝ × ℝ) :=
  let b := glBinodal S E q maxpiv
  b.zip ((spinodalGL S E q (some (b.map fun r => r.1))).map fun r => r.2)

/-! ### Fluid and solid -/

/-- the functions `coexistence` cancels.  phase.py:436-439 -/
def coexEq (fluid solid : EOS) (piv q delta : ℝ) (U : Fin 2 → ℝ) : Fin 2 → ℝ :=
  ![fluid.pvOfU (U 0) piv q - solid.pvOfU (U 1) piv q,
    fluid.muOfU (U 0) piv q - solid.muOfU (U 1) piv q + delta]

/-- `coexistence`.  phase.py:430-440 -/
def coexistence (S : Solvers) (piv q : ℝ) (fluid solid : EOS) (guess : ℝ × ℝ) (delta : ℝ) : ℝ × ℝ :=
  let r := S.s2 (coexEq fluid solid piv q delta) ![f2U guess.1, f2U guess.2]
  (U2f (r 0), U2f (r 1))

/-- `Delta_muS_0` of `all_coexistence` and `generate`.  phase.py:444,491 -/
def deltaMu (fluid solid : EOS) (q : ℝ) : ℝ :=
  solid.muOfU (f2U fHSs) 0 q - fluid.muOfU (f2U fHSf) 0 q

/-- `all_coexistence` with its pressures given (the default ones, lines 445-453, are not modelled).
phase.py:442-460 -/
def allCoexistence (S : Solvers) (q : ℝ) (fluid solid : EOS) (pivs : List ℝ) (guess : ℝ × ℝ) :
    List (ℝ × ℝ × ℝ) :=
  let delta := deltaMu fluid solid q
  (0, fHSf, fHSs) ::
    (pivs.zip (follow (fun p a => coexistence S p q fluid solid a delta) pivs guess)).reverse

/-- the functions `triple` cancels.  phase.py:469-474 -/
def tripleEq (fluid solid : EOS) (q delta : ℝ) (v : Fin 4 → ℝ) : Fin 4 → ℝ :=
  ![fluid.pvOfU (v 2) (v 0) q - solid.pvOfU (v 3) (v 0) q,
    fluid.muOfU (v 2) (v 0) q - solid.muOfU (v 3) (v 0) q + delta,
    fluid.pvOfU (v 2) (v 0) q - fluid.pvOfU (v 1) (v 0) q,
    fluid.muOfU (v 2) (v 0) q - fluid.muOfU (v 1) (v 0) q]

/-- `triple`: pressure, gas, liquid, solid.  phase.py:463-475 -/
def triple (S : Solvers) (q : ℝ) (fluid solid : EOS) (guess : ℝ × ℝ × ℝ × ℝ) (delta : ℝ) :
    ℝ × ℝ × ℝ × ℝ :=
  let r := S.s4 (tripleEq fluid solid q delta)
    ![guess.1, f2U guess.2.1, f2U guess.2.2.1, f2U guess.2.2.2]
  (r 0, U2f (r 1), U2f (r 2), U2f (r 3))

/-- the critical pressure of `critical_end_point`.  phase.py:479 -/
def endPiv (fluid : EOS) (U q : ℝ) : ℝ := fluid.pv01 (U2f U) / U2f U / beta2 (U2f U) q

/-- the functions `critical_end_point` cancels.  phase.py:481-485 -/
def endEq (fluid solid : EOS) (delta : ℝ) (v : Fin 3 → ℝ) : Fin 3 → ℝ :=
  ![1 / U2f (v 1) + beta3 (U2f (v 1)) (v 0) / beta2 (U2f (v 1)) (v 0) - fluid.ratio (U2f (v 1)),
    fluid.pvOfU (v 1) (endPiv fluid (v 1) (v 0)) (v 0)
      - solid.pvOfU (v 2) (endPiv fluid (v 1) (v 0)) (v 0),
    fluid.muOfU (v 1) (endPiv fluid (v 1) (v 0)) (v 0)
      - solid.muOfU (v 2) (endPiv fluid (v 1) (v 0)) (v 0) + delta]

/-- `critical_end_point`: size ratio, pressure, fluid, solid.  phase.py:477-486 -/
def criticalEndPoint (S : Solvers) (fluid solid : EOS) (delta : ℝ) : ℝ × ℝ × ℝ × ℝ :=
  let r := S.s3 (endEq fluid solid delta) ![0.3, f2U 0.36, f2U 1.32]
  (r 0, endPiv fluid (r 1) (r 0), U2f (r 1), U2f (r 2))

/-- the three tables of a phase diagram -/
structure Diagram where
  ls : List (ℝ × ℝ × ℝ)
  gs : List (ℝ × ℝ × ℝ)
  gl : List ((ℝ × ℝ × ℝ) × ℝ × ℝ)

/-- `generate`.  phase.py:488-522 -/
def generate (S : Solvers) (q : ℝ) (fluid solid : EOS) (maxpiv : Option ℝ) (sampling : Nat) :
    Diagram :=
  let delta := deltaMu fluid solid q
  let c := criticalPoint S fluid q
  let t := triple S q fluid solid (c.2, c.1 / 10, fHSf, fHSs) delta
  let fgt := t.2.1
  let flt := t.2.2.1
  let fst := t.2.2.2
  let pivGS := linspace t.1 (maxpiv.getD (2 * t.1)) sampling
  let fGS := (fgt, fst) ::
    follow (fun p a => coexistence S p q fluid solid a delta) pivGS.tail (fgt, fst)
  let pivGL := linspace t.1 c.2 sampling
  let start : Fin 2 → ℝ := ![log fgt, log flt]
  let binGL := start :: follow (fun p a => binodalGL S fluid p q (some a)) pivGL.tail start
  { ls := allCoexistence S q fluid solid (linspace t.1 0 sampling) (flt, fst)
    gs := pivGS.zip fGS
    gl := (pivGL.zip binGL).zip (spinodalGL S fluid q (some pivGL)) |>.map fun r =>
      ((r.1.1, exp (r.1.2 0), exp (r.1.2 1)), r.2.2) }

end

end Phase
end Py
end Colloids
