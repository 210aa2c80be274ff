import Mathlib.Analysis.SpecialFunctions.PolarCoord
import Mathlib.MeasureTheory.Integral.IntervalIntegral.FundThmCalculus
import Mathlib.Analysis.SpecialFunctions.Sqrt
import Mathlib.Analysis.SpecialFunctions.ExpDeriv
import Mathlib.MeasureTheory.Integral.Prod
import Verif.Py.TrackBlurModel

/-! # The Gaussian blur of a ball, from its definition as an integral over space -/

namespace Colloids
namespace Py
namespace Track

open Real MeasureTheory

noncomputable section

/-- What the Gaussian blur of standard deviation `σ` of an image that is 1 in the ball of radius `R` and 0
elsewhere is at the distance `d` of the center: the integral of the Gaussian over the ball. -/
def blur (R σ d : ℝ) : ℝ :=
  ∫ p : ℝ × ℝ × ℝ in {p | p.1 ^ 2 + p.2.1 ^ 2 + p.2.2 ^ 2 ≤ R ^ 2},
    exp (-((p.1 - d) ^ 2 + p.2.1 ^ 2 + p.2.2 ^ 2) / (2 * σ ^ 2)) / (√(2 * π) * σ) ^ 3

theorem erf_deriv (x : ℝ) : HasDerivAt erf (2 / √π * exp (-x ^ 2)) x := by
  have hc : Continuous fun t : ℝ => exp (-t ^ 2) := by fun_prop
  have h := intervalIntegral.integral_hasDerivAt_right (hc.intervalIntegrable 0 x)
    (hc.stronglyMeasurableAtFilter _ _) hc.continuousAt
  exact h.const_mul _

theorem erf_neg (x : ℝ) : erf (-x) = -erf x := by
  unfold erf
  have := intervalIntegral.integral_comp_neg (a := 0) (b := x) (fun t : ℝ => exp (-t ^ 2))
  simp only [neg_sq, neg_zero] at this
  rw [intervalIntegral.integral_symm, ← this]; ring

theorem disc_integral (s a : ℝ) (hs : 0 < s) (ha : 0 ≤ a) :
    ∫ q : ℝ × ℝ in {q | q.1 ^ 2 + q.2 ^ 2 ≤ a}, exp (-(q.1 ^ 2 + q.2 ^ 2) / s)
      = π * s * (1 - exp (-a / s)) := by
  have hm : MeasurableSet {q : ℝ × ℝ | q.1 ^ 2 + q.2 ^ 2 ≤ a} :=
    measurableSet_le (by fun_prop) (by fun_prop)
  rw [← integral_indicator hm, ← integral_comp_polarCoord_symm]
  have e : ∀ p : ℝ × ℝ, p.1 • ({q : ℝ × ℝ | q.1 ^ 2 + q.2 ^ 2 ≤ a}.indicator
      (fun q => exp (-(q.1 ^ 2 + q.2 ^ 2) / s)) (polarCoord.symm p))
      = ({r : ℝ | r ^ 2 ≤ a}.indicator (fun r => r * exp (-r ^ 2 / s)) p.1) * (fun _ => (1 : ℝ)) p.2 := by
    intro p
    have h2 : (p.1 * cos p.2) ^ 2 + (p.1 * sin p.2) ^ 2 = p.1 ^ 2 := by
      have := sin_sq_add_cos_sq p.2
      linear_combination p.1 ^ 2 * this
    simp only [Set.indicator, polarCoord_symm_apply, Set.mem_setOf_eq, h2, smul_eq_mul, mul_one]
    split <;> simp
  rw [integral_congr_ae (Filter.Eventually.of_forall e), polarCoord_target, Measure.volume_eq_prod,
    setIntegral_prod_mul ({r : ℝ | r ^ 2 ≤ a}.indicator fun r => r * exp (-r ^ 2 / s)) (fun _ => (1 : ℝ))]
  have hθ : ∫ _y in Set.Ioo (-π) π, (1 : ℝ) = 2 * π := by
    simp [Real.volume_Ioo, pi_pos.le]; ring
  have hr : ∫ r in Set.Ioi (0 : ℝ), {r : ℝ | r ^ 2 ≤ a}.indicator (fun r => r * exp (-r ^ 2 / s)) r
      = s / 2 * (1 - exp (-a / s)) := by
    have hm2 : MeasurableSet {r : ℝ | r ^ 2 ≤ a} := measurableSet_le (by fun_prop) (by fun_prop)
    rw [setIntegral_indicator hm2]
    have hset : Set.Ioi (0 : ℝ) ∩ {r : ℝ | r ^ 2 ≤ a} = Set.Ioc 0 (√a) := by
      ext r
      simp only [Set.mem_inter_iff, Set.mem_Ioi, Set.mem_setOf_eq, Set.mem_Ioc]
      constructor
      · rintro ⟨h0, h1⟩; exact ⟨h0, Real.le_sqrt_of_sq_le h1⟩
      · rintro ⟨h0, h1⟩
        exact ⟨h0, by
          have := mul_self_le_mul_self h0.le h1
          rw [Real.mul_self_sqrt ha] at this
          nlinarith⟩
    rw [hset, ← intervalIntegral.integral_of_le (Real.sqrt_nonneg a)]
    have hd : ∀ r ∈ Set.uIcc (0 : ℝ) (√a),
        HasDerivAt (fun r : ℝ => -(s / 2) * exp (-r ^ 2 / s)) (r * exp (-r ^ 2 / s)) r := by
      intro r _
      have h := ((((hasDerivAt_id r).pow 2).neg.div_const s).exp).const_mul (-(s / 2))
      refine h.congr_deriv ?_
      simp only [id, Pi.neg_apply, Pi.pow_apply, Nat.cast_ofNat]
      field_simp
      norm_num
    rw [intervalIntegral.integral_eq_sub_of_hasDerivAt hd
      (Continuous.intervalIntegrable (by fun_prop) _ _)]
    simp only [Real.sq_sqrt ha]
    norm_num; ring
  rw [hr, hθ]; ring

/-- the ball as a pile of discs -/
theorem blur_slices (R σ d : ℝ) (hR : 0 ≤ R) (hσ : 0 < σ) :
    blur R σ d = ∫ z in (-R)..R,
      (exp (-(z - d) ^ 2 / (2 * σ ^ 2)) - exp (-(R ^ 2 + d ^ 2 - 2 * z * d) / (2 * σ ^ 2)))
        / (√(2 * π) * σ) := by
  have hs : (0 : ℝ) < 2 * σ ^ 2 := by positivity
  set S : Set (ℝ × ℝ × ℝ) := {p | p.1 ^ 2 + p.2.1 ^ 2 + p.2.2 ^ 2 ≤ R ^ 2} with hS
  set F : ℝ × ℝ × ℝ → ℝ := fun p =>
    exp (-((p.1 - d) ^ 2 + p.2.1 ^ 2 + p.2.2 ^ 2) / (2 * σ ^ 2)) / (√(2 * π) * σ) ^ 3 with hF
  have hcl : IsClosed S := isClosed_le (by fun_prop) (by fun_prop)
  have hbd : Bornology.IsBounded S := by
    refine (Metric.isBounded_closedBall (x := (0 : ℝ × ℝ × ℝ)) (r := R)).subset fun p hp => ?_
    have hp' : p.1 ^ 2 + p.2.1 ^ 2 + p.2.2 ^ 2 ≤ R ^ 2 := hp
    rw [mem_closedBall_zero_iff, Prod.norm_def, Prod.norm_def]
    simp only [Real.norm_eq_abs, max_le_iff]
    refine ⟨abs_le_of_sq_le_sq ?_ hR, abs_le_of_sq_le_sq ?_ hR, abs_le_of_sq_le_sq ?_ hR⟩ <;>
      nlinarith [sq_nonneg p.1, sq_nonneg p.2.1, sq_nonneg p.2.2]
  have hcomp : IsCompact S := Metric.isCompact_of_isClosed_isBounded hcl hbd
  have hcont : Continuous F := by
    rw [hF]; fun_prop
  have hint : Integrable (S.indicator F) (volume : Measure (ℝ × ℝ × ℝ)) :=
    (integrable_indicator_iff hcl.measurableSet).2 (hcont.continuousOn.integrableOn_compact hcomp)
  have h1 : blur R σ d = ∫ z : ℝ, ∫ q : ℝ × ℝ, S.indicator F (z, q) := by
    unfold blur
    rw [← integral_indicator hcl.measurableSet]
    rw [Measure.volume_eq_prod] at hint ⊢
    exact integral_prod _ hint
  have h2 : ∀ z : ℝ, ∫ q : ℝ × ℝ, S.indicator F (z, q)
      = (Set.Icc (-R) R).indicator (fun z =>
        (exp (-(z - d) ^ 2 / (2 * σ ^ 2)) - exp (-(R ^ 2 + d ^ 2 - 2 * z * d) / (2 * σ ^ 2)))
        / (√(2 * π) * σ)) z := by
    intro z
    by_cases hz : z ∈ Set.Icc (-R) R
    · rw [Set.indicator_of_mem hz]
      have hz2 : 0 ≤ R ^ 2 - z ^ 2 := by nlinarith [hz.1, hz.2]
      have e : ∀ q : ℝ × ℝ, S.indicator F (z, q)
          = (exp (-(z - d) ^ 2 / (2 * σ ^ 2)) / (√(2 * π) * σ) ^ 3) *
            ({q : ℝ × ℝ | q.1 ^ 2 + q.2 ^ 2 ≤ R ^ 2 - z ^ 2}.indicator
              (fun q => exp (-(q.1 ^ 2 + q.2 ^ 2) / (2 * σ ^ 2))) q) := by
        intro q
        have hiff : ((z, q) ∈ S) ↔ q ∈ {q : ℝ × ℝ | q.1 ^ 2 + q.2 ^ 2 ≤ R ^ 2 - z ^ 2} := by
          simp only [hS, Set.mem_setOf_eq]; constructor <;> intro h <;> linarith
        by_cases hq : (z, q) ∈ S
        · rw [Set.indicator_of_mem hq, Set.indicator_of_mem (hiff.1 hq), hF]
          simp only
          rw [show -((z - d) ^ 2 + q.1 ^ 2 + q.2 ^ 2) / (2 * σ ^ 2)
            = -(z - d) ^ 2 / (2 * σ ^ 2) + -(q.1 ^ 2 + q.2 ^ 2) / (2 * σ ^ 2) by ring, exp_add]
          ring
        · rw [Set.indicator_of_notMem hq, Set.indicator_of_notMem (fun h => hq (hiff.2 h)), mul_zero]
      simp_rw [e]
      rw [integral_const_mul, integral_indicator (measurableSet_le (by fun_prop) (by fun_prop)),
        disc_integral _ _ hs hz2]
      have e2 : exp (-(R ^ 2 + d ^ 2 - 2 * z * d) / (2 * σ ^ 2))
          = exp (-(z - d) ^ 2 / (2 * σ ^ 2)) * exp (-(R ^ 2 - z ^ 2) / (2 * σ ^ 2)) := by
        rw [← exp_add]; congr 1; ring
      rw [e2]
      have hpi : √(2 * π) ^ 2 = 2 * π := Real.sq_sqrt (by positivity)
      have hpos : 0 < √(2 * π) := by positivity
      generalize exp (-(z - d) ^ 2 / (2 * σ ^ 2)) = E
      generalize exp (-(R ^ 2 - z ^ 2) / (2 * σ ^ 2)) = E'
      have : π = √(2 * π) ^ 2 / 2 := by rw [hpi]; ring
      generalize √(2 * π) = w at *
      rw [this]
      field_simp
    · rw [Set.indicator_of_notMem hz]
      have e : ∀ q : ℝ × ℝ, S.indicator F (z, q) = 0 := by
        intro q
        refine Set.indicator_of_notMem (fun h => hz ?_) _
        have h' : z ^ 2 + q.1 ^ 2 + q.2 ^ 2 ≤ R ^ 2 := h
        have : z ^ 2 ≤ R ^ 2 := by nlinarith [sq_nonneg q.1, sq_nonneg q.2]
        exact abs_le.1 (abs_le_of_sq_le_sq this hR)
      simp [e]
  rw [h1]
  simp_rw [h2]
  rw [integral_indicator measurableSet_Icc, integral_Icc_eq_integral_Ioc,
    ← intervalIntegral.integral_of_le (by linarith)]

theorem erf_shift_deriv (σ d z : ℝ) (hσ : 0 < σ) :
    HasDerivAt (fun z : ℝ => 1 / 2 * erf ((z - d) / σ / √2))
      (exp (-(z - d) ^ 2 / (2 * σ ^ 2)) / (√(2 * π) * σ)) z := by
  have h1 : HasDerivAt (fun z : ℝ => (z - d) / σ / √2) (1 / σ / √2) z :=
    (((hasDerivAt_id z).sub_const d).div_const σ).div_const _
  have h := ((erf_deriv ((z - d) / σ / √2)).comp z h1).const_mul (1 / 2 : ℝ)
  refine h.congr_deriv ?_
  have e : -((z - d) / σ / √2) ^ 2 = -(z - d) ^ 2 / (2 * σ ^ 2) := by
    rw [div_pow, div_pow, Real.sq_sqrt (by norm_num : (0 : ℝ) ≤ 2)]; field_simp
  rw [e, Real.sqrt_mul (by norm_num : (0 : ℝ) ≤ 2)]
  have : 0 < √π := by positivity
  have : 0 < √(2 : ℝ) := by positivity
  generalize exp _ = E
  field_simp

theorem blur_zero (R σ : ℝ) (hR : 0 ≤ R) (hσ : 0 < σ) :
    blur R σ 0 = erf (R / σ / √2) - 2 * R * exp (-R ^ 2 / (2 * σ ^ 2)) / (√(2 * π) * σ) := by
  rw [blur_slices R σ 0 hR hσ]
  have hd : ∀ z ∈ Set.uIcc (-R) R, HasDerivAt
      (fun z : ℝ => 1 / 2 * erf ((z - 0) / σ / √2)
        - z * (exp (-R ^ 2 / (2 * σ ^ 2)) / (√(2 * π) * σ)))
      ((exp (-(z - 0) ^ 2 / (2 * σ ^ 2)) - exp (-(R ^ 2 + 0 ^ 2 - 2 * z * 0) / (2 * σ ^ 2)))
        / (√(2 * π) * σ)) z := by
    intro z _
    refine ((erf_shift_deriv σ 0 z hσ).sub ((hasDerivAt_id z).mul_const _)).congr_deriv ?_
    rw [show R ^ 2 + 0 ^ 2 - 2 * z * 0 = R ^ 2 by ring]; ring
  rw [intervalIntegral.integral_eq_sub_of_hasDerivAt hd
      (Continuous.intervalIntegrable (by fun_prop) _ _)]
  simp only [sub_zero]
  rw [show -R / σ / √2 = -(R / σ / √2) by ring, erf_neg]; ring

theorem blur_pos (R σ d : ℝ) (hR : 0 ≤ R) (hσ : 0 < σ) (hd0 : d ≠ 0) :
    blur R σ d = 1 / 2 * (erf ((R + d) / σ / √2) + erf ((R - d) / σ / √2))
      + σ / (d * √(2 * π)) * (exp (-(R + d) ^ 2 / (2 * σ ^ 2)) - exp (-(R - d) ^ 2 / (2 * σ ^ 2))) := by
  rw [blur_slices R σ d hR hσ]
  have hd : ∀ z ∈ Set.uIcc (-R) R, HasDerivAt
      (fun z : ℝ => 1 / 2 * erf ((z - d) / σ / √2)
        - σ / (d * √(2 * π)) * exp (-(R ^ 2 + d ^ 2 - 2 * z * d) / (2 * σ ^ 2)))
      ((exp (-(z - d) ^ 2 / (2 * σ ^ 2)) - exp (-(R ^ 2 + d ^ 2 - 2 * z * d) / (2 * σ ^ 2)))
        / (√(2 * π) * σ)) z := by
    intro z _
    have h1 : HasDerivAt (fun z : ℝ => -(R ^ 2 + d ^ 2 - 2 * z * d) / (2 * σ ^ 2))
        (d / σ ^ 2) z := by
      have := ((((hasDerivAt_id z).const_mul 2).mul_const d).const_sub (R ^ 2 + d ^ 2)).neg.div_const
        (2 * σ ^ 2)
      refine this.congr_deriv ?_
      field_simp
    refine ((erf_shift_deriv σ d z hσ).sub (h1.exp.const_mul _)).congr_deriv ?_
    have : 0 < √(2 * π) := by positivity
    generalize √(2 * π) = w at *
    generalize exp _ = E
    generalize exp _ = E'
    field_simp
  rw [intervalIntegral.integral_eq_sub_of_hasDerivAt hd
      (Continuous.intervalIntegrable (by fun_prop) _ _)]
  rw [show (-R - d) / σ / √2 = -((R + d) / σ / √2) by ring, erf_neg,
    show -(R ^ 2 + d ^ 2 - 2 * R * d) = -(R - d) ^ 2 by ring,
    show -(R ^ 2 + d ^ 2 - 2 * -R * d) = -(R + d) ^ 2 by ring]
  ring

end

end Track
end Py
end Colloids
