import Verif.Py.PhaseModel
import Mathlib.Analysis.Calculus.MeanValue
import Mathlib.Analysis.SpecialFunctions.Log.Deriv
import Mathlib.Tactic.NormNum
import Mathlib.Tactic.Positivity
import Mathlib.Tactic.FieldSimp
import Mathlib.Tactic.Ring
import Mathlib.Tactic.Linarith

/-!
# The logarithm near one (C181)
-/

namespace Colloids
namespace Py
namespace Phase

open Real

/-- numerator of the error of the derivative -/
noncomputable def errN (s : ℝ) : ℝ :=
  1/10000000000000*s - 44244250752118441/1000000000000000000000000000*s^2
   + 342353838614061050011/50000000000000000000000000000*s^3
   - 465066699400637576814493/1000000000000000000000000000000*s^4
   + 77258819501047774533114211/5000000000000000000000000000000*s^5
   - 4932049927665371763607996161/20000000000000000000000000000000*s^6
   + 15116763331802009500647713091/10000000000000000000000000000000*s^7

/-- the error in the basis of Bernstein -/
theorem errN_le {u : ℝ} (h0 : 0 ≤ u) (h1 : u ≤ 1) : |errN (9/169*u)| ≤ 2.2e-14 := by
  have hv : 0 ≤ 1 - u := by linarith
  have e : errN (9/169*u) = (9/1690000000000000)*(u^1*(1-u)^6) + (-2671184310921593721/28561000000000000000000000000000)*(u^2*(1-u)^5) + (117439736213213170745769/241340450000000000000000000000000000)*(u^3*(1-u)^4) + (-613717868122624690342281693/815730721000000000000000000000000000000)*(u^4*(1-u)^3) + (36754600767113785405364682273/86161557405625000000000000000000000000000)*(u^5*(1-u)^2) + (-32091913178903921218434720413253/465961702449620000000000000000000000000000000)*(u^6*(1-u)^1) + (3701744268553736947886508787221/1211500426369012000000000000000000000000000000)*(u^7*(1-u)^0) := by
    unfold errN; ring
  have e1 : (1 : ℝ) = 1*(u^0*(1-u)^7) + 7*(u^1*(1-u)^6) + 21*(u^2*(1-u)^5) + 35*(u^3*(1-u)^4) + 35*(u^4*(1-u)^3) + 21*(u^5*(1-u)^2) + 7*(u^6*(1-u)^1) + 1*(u^7*(1-u)^0) := by ring
  have t : ∀ k, 0 ≤ u^k*(1-u)^(7-k) := fun k => by positivity
  have t0 := t 0
  have t1 := t 1
  have t2 := t 2
  have t3 := t 3
  have t4 := t 4
  have t5 := t 5
  have t6 := t 6
  have t7 := t 7
  simp only [Nat.reduceSub] at t0 t1 t2 t3 t4 t5 t6 t7
  rw [e]
  clear e t
  generalize u^0*(1-u)^7 = a0 at *
  generalize u^1*(1-u)^6 = a1 at *
  generalize u^2*(1-u)^5 = a2 at *
  generalize u^3*(1-u)^4 = a3 at *
  generalize u^4*(1-u)^3 = a4 at *
  generalize u^5*(1-u)^2 = a5 at *
  generalize u^6*(1-u)^1 = a6 at *
  generalize u^7*(1-u)^0 = a7 at *
  rw [abs_le]
  constructor <;> linarith

theorem logQ_ge {s : ℝ} (h0 : 0 ≤ s) (h1 : s ≤ 9/169) : 0.91 ≤ logQ s := by
  unfold logQ
  nlinarith [mul_nonneg h0 h0, mul_nonneg h0 (mul_nonneg h0 h0), mul_nonneg h0 (sub_nonneg.2 h1),
    mul_nonneg (mul_nonneg h0 h0) (sub_nonneg.2 h1)]

/-- derivative of the numerator in the square -/
noncomputable def logP' (s : ℝ) : ℝ :=
  3 * -0.178874546012214e-01 * s ^ 2 + 2 * 0.405303492862024e+00 * s + -0.129418923021993e+01

/-- derivative of the denominator in the square -/
noncomputable def logQ' (s : ℝ) : ℝ :=
  3 * -0.845104217945565e-01 * s ^ 2 + 2 * 0.747811014037616e+00 * s + -0.162752256355323e+01

theorem logP_deriv (t : ℝ) : HasDerivAt (fun t => logP (t * t)) (2 * t * logP' (t * t)) t := by
  have e : (fun t : ℝ => logP (t * t)) = fun t => -0.178874546012214e-01 * t ^ 6
      + 0.405303492862024e+00 * t ^ 4 + -0.129418923021993e+01 * t ^ 2 + 1.0 := by
    funext t; unfold logP; ring
  rw [e]
  have := ((((hasDerivAt_pow 6 t).const_mul (-0.178874546012214e-01)).add
    ((hasDerivAt_pow 4 t).const_mul 0.405303492862024e+00)).add
    ((hasDerivAt_pow 2 t).const_mul (-0.129418923021993e+01))).add_const 1.0
  refine this.congr_deriv ?_
  unfold logP'
  push_cast
  ring

theorem logQ_deriv (t : ℝ) : HasDerivAt (fun t => logQ (t * t)) (2 * t * logQ' (t * t)) t := by
  have e : (fun t : ℝ => logQ (t * t)) = fun t => -0.845104217945565e-01 * t ^ 6
      + 0.747811014037616e+00 * t ^ 4 + -0.162752256355323e+01 * t ^ 2 + 1.0 := by
    funext t; unfold logQ; ring
  rw [e]
  have := ((((hasDerivAt_pow 6 t).const_mul (-0.845104217945565e-01)).add
    ((hasDerivAt_pow 4 t).const_mul 0.747811014037616e+00)).add
    ((hasDerivAt_pow 2 t).const_mul (-0.162752256355323e+01))).add_const 1.0
  refine this.congr_deriv ?_
  unfold logQ'
  push_cast
  ring

/-- the error in the variable of the approximation -/
noncomputable def errT (t : ℝ) : ℝ :=
  2 * t * (logP (t * t) / logQ (t * t)) - (log (1 + t) - log (1 - t))

theorem errN_eq (s : ℝ) : errN s = logQ s ^ 2 - (1 - s) * (logP s * logQ s
    + 2 * s * (logP' s * logQ s - logP s * logQ' s)) := by
  unfold errN logQ logP logP' logQ'
  norm_num only
  ring

theorem errT_deriv {t : ℝ} (h : |t| ≤ 3/13) :
    HasDerivAt errT (-(2 * errN (t * t) / ((1 - t * t) * logQ (t * t) ^ 2))) t := by
  have h' := abs_le.1 h
  have hs0 : 0 ≤ t * t := mul_self_nonneg t
  have hs1 : t * t ≤ 9/169 := by nlinarith
  have hq := logQ_ge hs0 hs1
  have hq0 : logQ (t * t) ≠ 0 := by norm_num at hq; linarith
  have a1 : HasDerivAt (fun t : ℝ => log (1 + t)) (1 / (1 + t)) t := by
    simpa using ((hasDerivAt_id t).const_add 1).log (by simp; linarith)
  have a2 : HasDerivAt (fun t : ℝ => log (1 - t)) (-1 / (1 - t)) t := by
    simpa using ((hasDerivAt_id t).const_sub 1).log (by simp; linarith)
  have a3 := ((hasDerivAt_id t).const_mul 2).mul ((logP_deriv t).div (logQ_deriv t) hq0)
  refine ((a3.sub (a1.sub a2)).congr_deriv ?_)
  have k1 : (1 + t) ≠ 0 := by linarith
  have k2 : (1 - t) ≠ 0 := by linarith
  have k3 : 1 - t * t ≠ 0 := by linarith
  have key := errN_eq (t * t)
  rw [key]
  have e : 1 - t * t = (1 + t) * (1 - t) := by ring
  simp only [id, e, Pi.div_apply]
  generalize logQ (t * t) = b at *
  generalize logP (t * t) = a at *
  generalize logP' (t * t) = a' at *
  generalize logQ' (t * t) = b' at *
  field_simp
  ring

theorem errT_le {t : ℝ} (h : |t| ≤ 3/13) : |errT t| ≤ 6e-14 * |t| := by
  have hd : ∀ x ∈ Set.Icc (-(3/13) : ℝ) (3/13), HasDerivWithinAt errT
      (-(2 * errN (x * x) / ((1 - x * x) * logQ (x * x) ^ 2))) (Set.Icc (-(3/13) : ℝ) (3/13)) x :=
    fun x hx => (errT_deriv (abs_le.2 hx)).hasDerivWithinAt
  have hb : ∀ x ∈ Set.Icc (-(3/13) : ℝ) (3/13),
      ‖-(2 * errN (x * x) / ((1 - x * x) * logQ (x * x) ^ 2))‖ ≤ 6e-14 := by
    intro x hx
    have hs0 : 0 ≤ x * x := mul_self_nonneg x
    have hs1 : x * x ≤ 9/169 := by nlinarith [hx.1, hx.2]
    have hq := logQ_ge hs0 hs1
    have hN := errN_le (u := 169/9 * (x * x)) (by positivity) (by linarith)
    rw [show (9/169 : ℝ) * (169/9 * (x * x)) = x * x by ring] at hN
    rw [norm_neg, Real.norm_eq_abs, abs_div, abs_mul]
    have hden : 0.78 ≤ (1 - x * x) * logQ (x * x) ^ 2 := by
      have : (0.91 : ℝ) ^ 2 ≤ logQ (x * x) ^ 2 := by
        apply pow_le_pow_left₀ (by norm_num) hq
      nlinarith
    have hpos : 0 < (1 - x * x) * logQ (x * x) ^ 2 := lt_of_lt_of_le (by norm_num) hden
    rw [abs_of_pos hpos, div_le_iff₀ hpos, abs_two]
    generalize (1 - x * x) * logQ (x * x) ^ 2 = D at hden
    generalize |errN (x * x)| = e at hN
    norm_num at hN hden ⊢
    linarith
  have := (convex_Icc (-(3/13) : ℝ) (3/13)).norm_image_sub_le_of_norm_hasDerivWithin_le hd hb
    (x := 0) (y := t) (by constructor <;> norm_num) (abs_le.1 h)
  simpa [errT] using this

theorem logOnePlusX_of_gt {x : ℝ} (h : 0.375 < |x|) : logOnePlusX x = log (1 + x) := by
  unfold logOnePlusX
  rw [if_pos h]
  norm_num

/-- C181: `logOnePlusX` is the logarithm of one plus its argument, for all arguments above `-1`,
within `4 10^-14` of the argument. -/
theorem C181_log {x : ℝ} (h : -1 < x) : |logOnePlusX x - log (1 + x)| ≤ 4e-14 * |x| := by
  by_cases hx : 0.375 < |x|
  · rw [logOnePlusX_of_gt hx]
    simp only [sub_self, abs_zero]
    positivity
  · have hx' := abs_le.1 (not_lt.1 hx)
    norm_num at hx'
    have hp : 0 < x + 2 := by linarith
    have ht : |logT x| ≤ 3/13 := by
      unfold logT
      rw [abs_le]
      norm_num
      constructor
      · rw [← neg_div, div_le_div_iff₀ (by norm_num) hp]; linarith
      · rw [div_le_div_iff₀ hp (by norm_num)]; linarith
    have e : logOnePlusX x - log (1 + x) = errT (logT x) := by
      unfold logOnePlusX errT
      rw [if_neg hx]
      have : log (1 + x) = log (1 + logT x) - log (1 - logT x) := by
        have h1 : 1 + logT x = 2 * (1 + x) / (x + 2) := by
          unfold logT; norm_num; field_simp; ring
        have h2 : 1 - logT x = 2 / (x + 2) := by
          unfold logT; norm_num; field_simp; ring
        rw [h1, h2, ← log_div (div_ne_zero (by linarith) hp.ne') (by positivity)]
        congr 1; field_simp
      rw [this]; norm_num
    rw [e]
    refine (errT_le ht).trans ?_
    have : |logT x| ≤ |x| / 1.625 := by
      unfold logT
      rw [abs_div]
      apply div_le_div_of_nonneg_left (abs_nonneg x) (by norm_num)
      rw [abs_of_pos (by norm_num; linarith)]; norm_num; linarith
    norm_num at this ⊢
    linarith [abs_nonneg x]

example : (-1 : ℝ) < -0.375 ∧ ¬ (0.375 < |(-0.375 : ℝ)|) := by
  refine ⟨by norm_num, ?_⟩
  rw [abs_of_neg] <;> norm_num

end Phase
end Py
end Colloids
