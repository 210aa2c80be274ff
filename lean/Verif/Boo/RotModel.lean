import Verif.Boo.Model
import Mathlib.Algebra.Polynomial.Derivative
import Mathlib.Analysis.SpecialFunctions.Complex.Arg
import Mathlib.Analysis.SpecialFunctions.Trigonometric.Inverse
import Mathlib.Analysis.SpecialFunctions.Exp

/-! # Spherical harmonics of a bond and their rotations: lib/boo_data.{hpp,cpp}

Double precision arithmetic is replaced by exact real and complex arithmetic. The spherical harmonics,
factorials and trigonometric functions of boost and of the standard library are replaced by what their
documentations say they compute. -/

namespace Colloids
namespace Boo
open Polynomial

/-- `cartesian2spherical`, lib/boo_data.cpp:120-137: the radius, the colatitude and the azimuth. The test
`pow(r, 2)+1.0 == 1.0` is modelled by `r ^ 2 = 0`; `atan2(y, x)` is the argument of `x + i y`. -/
noncomputable def cartesian2spherical (v : Fin 3 → ℝ) : ℝ × ℝ × ℝ :=
  let r := √(v 0 ^ 2 + v 1 ^ 2 + v 2 ^ 2)
  if |v 2| = r ∨ r ^ 2 = 0 then (r, 0, 0)
  else
    let theta := Real.arccos (v 2 / r)
    let phi := Complex.arg ⟨v 0, v 1⟩
    (r, theta, if phi < 0 then phi + 2 * Real.pi else phi)

/-- The Legendre polynomial, by the formula of Rodrigues. Used for the function `spherical_harmonic` of
boost, lib/boo_data.cpp:147. -/
noncomputable def legendre (l : Nat) : ℝ[X] :=
  C (1 / (2 ^ l * (l.factorial : ℝ))) * derivative^[l] ((X ^ 2 - 1) ^ l)

/-- The associated Legendre function of boost, with the Condon-Shortley phase:
`(-1)^m (1-x^2)^(m/2) (d/dx)^m P_l(x)`. -/
noncomputable def legendreP (l m : Nat) (x : ℝ) : ℝ :=
  (-1) ^ m * √(1 - x ^ 2) ^ m * (derivative^[m] (legendre l)).eval x

/-- `boost::math::spherical_harmonic(l, m, theta, phi)` as documented by boost, called at
lib/boo_data.cpp:147. -/
noncomputable def sphericalHarmonic (l m : Nat) (theta phi : ℝ) : ℂ :=
  ((√((2 * l + 1) / (4 * Real.pi) * (((l - m).factorial : ℝ) / ((l + m).factorial : ℝ)))
    * legendreP l m (Real.cos theta) : ℝ) : ℂ) * Complex.exp (Complex.I * m * phi)

/-- `BooData::BooData(const Coord &rij)`, the constructor from one bond, lib/boo_data.cpp:141-149. -/
noncomputable def ofBond (rij : Fin 3 → ℝ) : R BooData := do
  let s := cartesian2spherical rij
  (List.range 36).foldlM (fun (q : BooData) (i : Nat) => do
    let l ← getR i2l i
    let m ← getR i2m i
    setR q i (sphericalHarmonic l m s.2.1 s.2.2)) blank

/-- `init_prefactor`, lib/boo_data.cpp:358-371: the entries that the loops do not write are not
initialised, which is modelled by `none`. The loops write every entry `l/2 + 6*m1 + 66*m2` with
`m1, m2 ≤ l` once; the model gives the table in closed form. -/
noncomputable def prefactor : List (Option ℝ) := (List.range (6 * 11 * 11)).map (fun (i : Nat) =>
  let l := 2 * (i % 6)
  let m1 := i / 6 % 11
  let m2 := i / 66
  if m1 ≤ l ∧ m2 ≤ l then
    some √(((l + m2).factorial * (l - m2).factorial * (l + m1).factorial * (l - m1).factorial : Nat) : ℝ)
  else none)

/-- `Wigner_D::getPrefactor`, lib/boo_data.hpp:107-110: reading a value never written is an error. -/
noncomputable def getPrefactor (l : Nat) (m1 m2 : Int) : R ℝ := do
  let e ← getR prefactor (l / 2 + 6 * m1.natAbs + 66 * m2.natAbs)
  match e with
  | some x => pure x
  | none => .error .ub

/-- The tables of `Wigner_D`, lib/boo_data.hpp:101-104. -/
structure WignerD where
  ea : List ℂ
  eg : List ℂ
  cb : List ℝ
  sb : List ℝ

/-- The constructor of `Wigner_D` from the Euler angles, lib/boo_data.cpp:376-396. The four tables are
filled in order by loops over all their indices, here written as lists of 11, 21, 21 and 21 values. -/
noncomputable def WignerD.mk' (alpha beta gamma : ℝ) : WignerD :=
  let ealpha := Complex.exp (-alpha * Complex.I)
  let egamma := Complex.exp (-gamma * Complex.I)
  let c := Real.cos (beta / 2)
  let s := Real.sin (beta / 2)
  { ea := (List.range 11).map (fun (m : Nat) => ealpha ^ m)
    eg := (List.range 21).map (fun (i : Nat) => egamma ^ ((i : Int) - 10))
    cb := (List.range 21).map (fun (i : Nat) => c ^ i)
    sb := (List.range 21).map (fun (i : Nat) => s ^ i) }

/-- `boost::math::factorial` of an integer; a negative one is converted to a huge unsigned number, whose
factorial overflows: an error in the model. -/
def factorialI (n : Int) : R Nat := if 0 ≤ n then .ok n.toNat.factorial else .error .outOfRange

/-- The values of `k` of a loop `for(int k=lo; k<=hi; ++k)`. -/
def intRange (lo hi : Int) : List Int := (List.range (hi + 1 - lo).toNat).map (fun (i : Nat) => lo + i)

/-- `Wigner_D::small_d`, lib/boo_data.cpp:399-413. -/
noncomputable def WignerD.smallD (w : WignerD) (l m2 m1 : Int) : R ℝ := do
  let sum ← (intRange (max 0 (m1 - m2)) (min (l + m1) (l - m2))).foldlM (fun (sum : ℝ) (k : Int) => do
    let c ← getI w.cb (2 * l + m1 - m2 - 2 * k)
    let s ← getI w.sb (m2 - m1 + 2 * k)
    let f1 ← factorialI (l + m1 - k)
    let f2 ← factorialI k
    let f3 ← factorialI (m2 - m1 + k)
    let f4 ← factorialI (l - m2 - k)
    pure (sum + (if (m2 - m1 + k).tmod 2 ≠ 0 then -1 else 1) * c * s / (f1 * f2 * f3 * f4))) (0 : ℝ)
  let p ← getPrefactor l.toNat m1 m2
  pure (sum * p)

/-- `Wigner_D::operator()`, lib/boo_data.hpp:115-118. -/
noncomputable def WignerD.at (w : WignerD) (l m2 : Nat) (m1 : Int) : R ℂ := do
  let a ← getR w.ea m2
  let d ← w.smallD l m2 m1
  let g ← getI w.eg (10 + m1)
  pure (a * d * g)

/-- The loops `for l, for m2, for m1` of `rotate_by_Pi` and `reflect`, lib/boo_data.cpp:257-260, 282-285
and 288-291: `res[m2 + l*l/4] += sign(l, m2) * wD(l, m2, m1) * q(l,m1)` starting with `res` null. -/
noncomputable def applyD (sign : Nat → Nat → ℂ) (w : WignerD) (q : BooData) : R BooData :=
  (List.range 6).foldlM (fun (res : BooData) (h : Nat) =>
    let l := 2 * h
    (List.range (l + 1)).foldlM (fun (res : BooData) (m2 : Nat) =>
      (mRange l).foldlM (fun (res : BooData) (m1 : Int) => do
        let d ← w.at l m2 m1
        let z ← coef q l m1
        modifyR res (m2 + l * l / 4) (· + sign l m2 * d * z)) res) res) blank

/-- `axis * ((axis[2]<0.0)?-1.0:1.0)`, lib/boo_data.cpp:248 and 274. -/
noncomputable def upward (axis : Fin 3 → ℝ) : Fin 3 → ℝ := fun i =>
  axis i * (if axis 2 < 0 then -1 else 1)

/-- `BooData::rotate_by_Pi`, lib/boo_data.cpp:244-263. -/
noncomputable def rotateByPi (q : BooData) (axis : Fin 3 → ℝ) : R BooData :=
  let s := cartesian2spherical (upward axis)
  applyD (fun _ _ => 1) (WignerD.mk' (Real.pi - s.2.2) (-2 * s.2.1) s.2.2) q

/-- `BooData::reflect`, lib/boo_data.cpp:270-293. -/
noncomputable def reflect (q : BooData) (normal : Fin 3 → ℝ) : R BooData := do
  let s := cartesian2spherical (upward normal)
  let rotated ← applyD (fun l m2 => if (l - m2) % 2 ≠ 0 then -1 else 1) (WignerD.mk' s.2.2 s.2.1 0) q
  applyD (fun _ _ => 1) (WignerD.mk' 0 (-s.2.1) (-s.2.2)) rotated

end Boo
end Colloids
