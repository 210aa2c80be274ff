import Mathlib.Analysis.Calculus.Deriv.MeanValue
import Verif.Py.TrackBlurLemmas

/-!
# C188: radii, scales and blurred balls in `python/colloids/track.py`
-/

namespace Colloids
namespace Py
namespace Track

open Real MeasureTheory

noncomputable section

theorem two_rpow_gt (n : ℝ) (hn : 0 < n) : 1 < (2 : ℝ) ^ (2.0 / n) :=
  Real.one_lt_rpow (by norm_num) (by positivity)

theorem shape_pos (n dim : ℝ) (hn : 0 < n) (hd : 0 < dim) :
    0 < 2 * dim * log 2 / n / ((2 : ℝ) ^ (2.0 / n) - 1) := by
  have h := two_rpow_gt n hn
  have h2 : 0 < log 2 := log_pos (by norm_num)
  exact div_pos (by positivity) (by linarith)

/-- the factor of `sigma2radius` -/
theorem shape_sigma (n dim : ℝ) (hn : 0 < n) (hd : 0 < dim) :
    √(2 * dim * log 2 / n / (1 - (2 : ℝ) ^ (-2.0 / n)))
      = (2 : ℝ) ^ (1 / n) * √(2 * dim * log 2 / n / ((2 : ℝ) ^ (2.0 / n) - 1)) := by
  have h := two_rpow_gt n hn
  have e1 : (2 : ℝ) ^ (1 / n) = √((2 : ℝ) ^ (2.0 / n)) := by
    rw [Real.sqrt_eq_rpow, ← Real.rpow_mul (by norm_num)]
    congr 1; norm_num
  have e2 : (2 : ℝ) ^ (-2.0 / n) = ((2 : ℝ) ^ (2.0 / n))⁻¹ := by
    rw [← Real.rpow_neg (by norm_num), neg_div]
  rw [e1, ← Real.sqrt_mul (by positivity), e2]
  congr 1
  generalize (2 : ℝ) ^ (2.0 / n) = w at *
  have : w - 1 ≠ 0 := by linarith
  have : w ≠ 0 := by linarith
  have : 1 - w⁻¹ ≠ 0 := by
    have hw : w⁻¹ < 1 := inv_lt_one_of_one_lt₀ h
    linarith
  field_simp

/-- **C188** `radius2scale` and `scale2radius` are inverse of each other, `radius2sigma` and `sigma2radius`
too, and the radius of the scale index `x` is that of the blur `k 2^(x/n)`. -/
theorem C188_scales (k n dim : ℝ) (hk : 0 < k) (hn : 0 < n) (hd : 0 < dim) :
    (∀ x, radius2scale (scale2radius x k n dim) k n dim = x) ∧
    (∀ r, 0 < r → scale2radius (radius2scale r k n dim) k n dim = r) ∧
    (∀ s, radius2sigma (sigma2radius s n dim) n dim = s) ∧
    (∀ r, sigma2radius (radius2sigma r n dim) n dim = r) ∧
    (∀ x, scale2radius x k n dim = sigma2radius (k * (2 : ℝ) ^ (x / n)) n dim) ∧
    StrictMono (fun x => scale2radius x k n dim) := by
  have hc := shape_pos n dim hn hd
  have hl : 0 < log 2 := log_pos (by norm_num)
  have hw := two_rpow_gt n hn
  have einv : √(n * ((2 : ℝ) ^ (2.0 / n) - 1) / (2 * dim * log 2))
      = (√(2 * dim * log 2 / n / ((2 : ℝ) ^ (2.0 / n) - 1)))⁻¹ := by
    rw [← Real.sqrt_inv]; congr 1
    have : (2 : ℝ) ^ (2.0 / n) - 1 ≠ 0 := by linarith
    generalize (2 : ℝ) ^ (2.0 / n) - 1 = w at *
    field_simp
  have hs := shape_sigma n dim hn hd
  have hpos : 0 < √(2 * dim * log 2 / n / ((2 : ℝ) ^ (2.0 / n) - 1)) := Real.sqrt_pos.2 hc
  have hpow : ∀ y : ℝ, 0 < (2 : ℝ) ^ y := fun y => Real.rpow_pos_of_pos (by norm_num) y
  refine ⟨fun x => ?_, fun r hr => ?_, fun s => ?_, fun r => ?_, fun x => ?_, fun x y hxy => ?_⟩
  · unfold radius2scale scale2radius
    rw [einv]
    generalize √(2 * dim * log 2 / n / ((2 : ℝ) ^ (2.0 / n) - 1)) = w at *
    rw [show k * (2 : ℝ) ^ ((x + 1) / n) * w / k * w⁻¹ = (2 : ℝ) ^ ((x + 1) / n) by
      generalize (2 : ℝ) ^ ((x + 1) / n) = v
      field_simp, Real.log_rpow (by norm_num)]
    field_simp; ring
  · unfold radius2scale scale2radius
    rw [einv]
    generalize √(2 * dim * log 2 / n / ((2 : ℝ) ^ (2.0 / n) - 1)) = w at *
    have hq : 0 < r / k * w⁻¹ := by positivity
    have e : (2 : ℝ) ^ ((n / log 2 * log (r / k * w⁻¹) - 1 + 1) / n) = r / k * w⁻¹ := by
      rw [Real.rpow_def_of_pos (by norm_num)]
      rw [show log 2 * ((n / log 2 * log (r / k * w⁻¹) - 1 + 1) / n) = log (r / k * w⁻¹) by
        generalize log (r / k * w⁻¹) = v
        field_simp; ring]
      exact exp_log hq
    rw [e]; field_simp
  · unfold radius2sigma sigma2radius
    rw [hs]
    have := hpow (1 / n)
    generalize √(2 * dim * log 2 / n / ((2 : ℝ) ^ (2.0 / n) - 1)) = w at *
    field_simp
  · unfold radius2sigma sigma2radius
    rw [hs]
    have := hpow (1 / n)
    generalize √(2 * dim * log 2 / n / ((2 : ℝ) ^ (2.0 / n) - 1)) = w at *
    field_simp
  · unfold scale2radius sigma2radius
    rw [hs, add_div, Real.rpow_add (by norm_num)]; ring
  · unfold scale2radius
    have : (2 : ℝ) ^ ((x + 1) / n) < (2 : ℝ) ^ ((y + 1) / n) :=
      Real.rpow_lt_rpow_of_exponent_lt (by norm_num) (by gcongr)
    exact mul_lt_mul_of_pos_right (mul_lt_mul_of_pos_left this hk) hpos

example : (0 : ℝ) < 1.6 ∧ (0 : ℝ) < 3 := by norm_num

theorem exp_mid (R σ : ℝ) : exp (-(R / σ / √2) ^ 2) = exp (-R ^ 2 / (2 * σ ^ 2)) := by
  congr 1
  rw [div_pow, div_pow, Real.sq_sqrt (by norm_num : (0 : ℝ) ≤ 2)]
  ring

/-- **C188** Without a distance, `G` is the Gaussian blur of the ball at its center. -/
theorem C188_center (R σ : ℝ) (hR : 0 ≤ R) (hσ : 0 < σ) : G R σ none = blur R σ 0 := by
  rw [blur_zero R σ hR hσ]
  simp only [G, midG, exp_mid]
  rw [Real.sqrt_mul (by norm_num : (0 : ℝ) ≤ 2)]
  have h2 : √(2 : ℝ) * √2 = 2 := Real.mul_self_sqrt (by norm_num)
  have : 0 < √π := by positivity
  have : 0 < √(2 : ℝ) := by positivity
  generalize exp _ = E
  congr 1
  field_simp

example : G 1 1 none = blur 1 1 0 := C188_center 1 1 (by norm_num) (by norm_num)

theorem sqrt_two_div_pi : √(2 / π) = 2 / √(2 * π) := by
  rw [Real.sqrt_div (by norm_num), Real.sqrt_mul (by norm_num : (0 : ℝ) ≤ 2)]
  have h2 : √(2 : ℝ) * √2 = 2 := Real.mul_self_sqrt (by norm_num)
  have : 0 < √π := by positivity
  have : 0 < √(2 : ℝ) := by positivity
  field_simp
  nlinarith

theorem G_some (R σ d : ℝ) (hR : 0 ≤ R) (hσ : 0 < σ) (hd : d ≠ 0) :
    G R σ (some d) = 2 * blur R σ d := by
  rw [blur_pos R σ d hR hσ hd]
  simp only [G, halfG, sqrt_two_div_pi, ← sub_eq_add_neg]
  have : 0 < √(2 * π) := by positivity
  generalize √(2 * π) = w at *
  generalize exp _ = E
  generalize exp _ = E'
  generalize erf _ = F
  generalize erf _ = F'
  field_simp
  ring

theorem blur_positive (R σ d : ℝ) (hR : 0 < R) (hσ : 0 < σ) : 0 < blur R σ d := by
  rw [blur_slices R σ d hR.le hσ]
  refine intervalIntegral.intervalIntegral_pos_of_pos_on
    (Continuous.intervalIntegrable (by fun_prop) _ _) (fun z hz => ?_) (by linarith)
  have hp : 0 < √(2 * π) * σ := by positivity
  refine div_pos (sub_pos.2 (exp_lt_exp.2 ?_)) hp
  have : z ^ 2 < R ^ 2 := by nlinarith [hz.1, hz.2]
  gcongr
  nlinarith

/-- **C188, counterexample** At a distance, `G` is twice the Gaussian blur of the ball (the half of
equation is missing), whatever the radius, the blur and the distance, although it is the blur itself at the
center. -/
theorem C188_distance_counterexample (R σ d : ℝ) (hR : 0 < R) (hσ : 0 < σ) (hd : d ≠ 0) :
    G R σ (some d) = 2 * blur R σ d ∧ G R σ (some d) ≠ blur R σ d := by
  have h := G_some R σ d hR.le hσ hd
  refine ⟨h, fun e => ?_⟩
  have := blur_positive R σ d hR hσ
  rw [h] at e; linarith

example : G 1 1 (some 3) ≠ blur 1 1 3 :=
  (C188_distance_counterexample 1 1 3 (by norm_num) (by norm_num) (by norm_num)).2

theorem exp_sigma_deriv (u s : ℝ) (hs : 0 < s) :
    HasDerivAt (fun s : ℝ => exp (-u ^ 2 / (2 * s ^ 2)))
      (exp (-u ^ 2 / (2 * s ^ 2)) * (u ^ 2 / s ^ 3)) s := by
  have h1 : HasDerivAt (fun s : ℝ => -u ^ 2 / (2 * s ^ 2)) (u ^ 2 / s ^ 3) s := by
    have h := (hasDerivAt_const s (-u ^ 2)).div (((hasDerivAt_id s).pow 2).const_mul 2)
      (by simp only [Pi.pow_apply, id]; positivity)
    refine h.congr_deriv ?_
    simp only [id, Pi.pow_apply, Nat.cast_ofNat]
    field_simp; ring
  exact h1.exp

theorem erf_sigma_deriv (u s : ℝ) (hs : 0 < s) :
    HasDerivAt (fun s : ℝ => erf (u / s / √2))
      (-(2 * u * exp (-u ^ 2 / (2 * s ^ 2)) / (√(2 * π) * s ^ 2))) s := by
  have h1 : HasDerivAt (fun s : ℝ => u / s / √2) (-u / s ^ 2 / √2) s := by
    have h := ((hasDerivAt_const s u).div (hasDerivAt_id s) hs.ne').div_const (√2)
    refine h.congr_deriv ?_
    simp only [id]; ring
  refine ((erf_deriv _).comp s h1).congr_deriv ?_
  rw [exp_mid, Real.sqrt_mul (by norm_num : (0 : ℝ) ≤ 2)]
  have : 0 < √π := by positivity
  have : 0 < √(2 : ℝ) := by positivity
  generalize exp _ = E
  field_simp

theorem halfG_deriv (d R s : ℝ) (hs : 0 < s) (hd : d ≠ 0) :
    HasDerivAt (fun s => halfG d R s) (2 * halfGdsigma d R (s ^ 2)) s := by
  unfold halfG halfGdsigma
  have h := ((((exp_sigma_deriv (R + d) s hs).mul_const (√(2 / π))).mul (hasDerivAt_id s)).div_const d).add
    (erf_sigma_deriv (R + d) s hs)
  refine h.congr_deriv ?_
  rw [sqrt_two_div_pi]
  have : 0 < √(2 * π) := by positivity
  generalize √(2 * π) = w at *
  generalize exp _ = E
  simp only [id, Pi.mul_apply]
  field_simp
  ring

theorem midG_deriv (R s : ℝ) (hs : 0 < s) :
    HasDerivAt (fun s => midG R s) (midGdsigma R s) s := by
  have h0 : (fun s => midG R s) = fun s : ℝ =>
      erf (R / s / √2) - R / s / √2 * exp (-R ^ 2 / (2 * s ^ 2)) * 2 / √π := by
    funext s; simp only [midG, exp_mid]
  rw [h0]
  have h1 : HasDerivAt (fun s : ℝ => R / s / √2) (-R / s ^ 2 / √2) s := by
    have h := ((hasDerivAt_const s R).div (hasDerivAt_id s) hs.ne').div_const (√2)
    refine h.congr_deriv ?_
    simp only [id]; ring
  have h := (erf_sigma_deriv R s hs).sub
    (((h1.mul (exp_sigma_deriv R s hs)).mul_const 2).div_const (√π))
  refine h.congr_deriv ?_
  unfold midGdsigma
  rw [sqrt_two_div_pi, Real.sqrt_mul (by norm_num : (0 : ℝ) ≤ 2),
    show -R ^ 2 / 2 / s ^ 2 = -R ^ 2 / (2 * s ^ 2) by ring]
  have h2 : √(2 : ℝ) ^ 2 = 2 := Real.sq_sqrt (by norm_num)
  have : 0 < √π := by positivity
  have : 0 < √(2 : ℝ) := by positivity
  generalize exp _ = E
  field_simp
  ring

/-- **C188** `G_dsigma` is the derivative of the blur of the ball with respect to the width of the blur,
at the center and at a distance, and `G_dsigma_dR` that of `G_dsigma` with respect to the radius. -/
theorem C188_derivatives (R σ : ℝ) (hR : 0 ≤ R) (hσ : 0 < σ) :
    HasDerivAt (fun s => blur R s 0) (Gdsigma R σ none) σ ∧
    (∀ d, d ≠ 0 → HasDerivAt (fun s => blur R s d) (Gdsigma R σ (some d)) σ) ∧
    HasDerivAt (fun r => Gdsigma r σ none) (GdsigmadR R σ none) R ∧
    (∀ d, d ≠ 0 → HasDerivAt (fun r => Gdsigma r σ (some d)) (GdsigmadR R σ (some d)) R) := by
  have hnear : ∀ᶠ s in nhds σ, 0 < s := lt_mem_nhds hσ
  have hexp : ∀ d, HasDerivAt (fun r : ℝ => exp (-(r + d) ^ 2 / (2 * σ ^ 2)))
      (exp (-(R + d) ^ 2 / (2 * σ ^ 2)) * (-(R + d) / σ ^ 2)) R := by
    intro d
    have h1 : HasDerivAt (fun r : ℝ => -(r + d) ^ 2 / (2 * σ ^ 2)) (-(R + d) / σ ^ 2) R := by
      have h := ((((hasDerivAt_id R).add_const d).pow 2).neg).div_const (2 * σ ^ 2)
      refine h.congr_deriv ?_
      simp only [id, Nat.cast_ofNat]
      field_simp
      norm_num
    exact h1.exp
  have hhalf : ∀ d, d ≠ 0 → HasDerivAt (fun r => halfGdsigma d r (σ ^ 2))
      (halfGdsigmadR d R (σ ^ 2)) R := by
    intro d hd
    unfold halfGdsigma halfGdsigmadR
    have hp : HasDerivAt (fun r : ℝ => r ^ 2 + d * r + σ ^ 2) (2 * R + d) R := by
      have h := (((hasDerivAt_id R).pow 2).add ((hasDerivAt_id R).const_mul d)).add_const (σ ^ 2)
      refine h.congr_deriv ?_
      simp only [id, Nat.cast_ofNat]; norm_num
    have h := (((hp.mul (hexp d)).div_const (√(2 * π))).div_const d).div_const (σ ^ 2)
    refine h.congr_deriv ?_
    have : 0 < √(2 * π) := by positivity
    generalize √(2 * π) = w at *
    generalize exp _ = E
    field_simp
    ring
  refine ⟨?_, fun d hd => ?_, ?_, fun d hd => ?_⟩
  · refine (midG_deriv R σ hσ).congr_of_eventuallyEq ?_
    filter_upwards [hnear] with s hs
    rw [← C188_center R s hR hs]; rfl
  · have h := ((halfG_deriv d R σ hσ hd).add (halfG_deriv (-d) R σ hσ (neg_ne_zero.2 hd))).const_mul
      (1 / 2 : ℝ)
    refine (h.congr_deriv ?_).congr_of_eventuallyEq ?_
    · simp only [Gdsigma]; ring
    · filter_upwards [hnear] with s hs
      have := G_some R s d hR hs hd
      simp only [G] at this
      simp only [Pi.add_apply]
      linarith
  · simp only [Gdsigma, GdsigmadR]
    unfold midGdsigma midGdsigmadR
    have he : HasDerivAt (fun r : ℝ => exp (-r ^ 2 / 2 / σ ^ 2))
        (exp (-R ^ 2 / 2 / σ ^ 2) * (-R / σ ^ 2)) R := by
      have h1 : HasDerivAt (fun r : ℝ => -r ^ 2 / 2 / σ ^ 2) (-R / σ ^ 2) R := by
        have h := ((((hasDerivAt_id R).pow 2).neg).div_const 2).div_const (σ ^ 2)
        refine h.congr_deriv ?_
        simp only [id, Nat.cast_ofNat]
        field_simp
        norm_num
      exact h1.exp
    have h := (((((hasDerivAt_id R).pow 3).neg.div_const (σ ^ 4)).mul_const (√(2 / π))).mul he)
    refine h.congr_deriv ?_
    generalize exp _ = E
    generalize √(2 / π) = w
    simp only [id, Nat.cast_ofNat, Pi.neg_apply, Pi.pow_apply]
    field_simp
    ring
  · exact (hhalf d hd).add (hhalf (-d) (neg_ne_zero.2 hd))

example : HasDerivAt (fun s => blur 1 s 3) (Gdsigma 1 2 (some 3)) 2 :=
  (C188_derivatives 1 2 (by norm_num) (by norm_num)).2.1 3 (by norm_num)

end

end Track
end Py
end Colloids
