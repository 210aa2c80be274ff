import Verif.Py.PhaseEosProps
import Verif.Py.PhaseLogProps
import Mathlib.MeasureTheory.Integral.IntervalIntegral.FundThmCalculus

/-!
# Chemical potentials go with pressures (C184)
-/

namespace Colloids
namespace Py
namespace Phase

open Real

/-- the logarithm that `logOnePlusX` approximates -/
noncomputable def lnOne (x : ℝ) : ℝ := log (1 + x)

theorem lnOne_hasDeriv {f : ℝ} (hf : 0 ≤ f) : HasDerivAt lnOne (1 / (1 + f)) f := by
  have : HasDerivAt lnOne (1 / (1 + id f)) f :=
    ((hasDerivAt_id f).const_add 1).log (by simp; linarith)
  exact this

/-- `logOnePlusX` is the exact logarithm around the point -/
theorem lg_hasDeriv {lg : ℝ → ℝ} {f : ℝ} (hf : 0 ≤ f)
    (h : lg = lnOne ∨ (lg = logOnePlusX ∧ 0.375 < f)) : HasDerivAt lg (1 / (1 + f)) f := by
  rcases h with rfl | ⟨rfl, h⟩
  · exact lnOne_hasDeriv hf
  · refine (lnOne_hasDeriv hf).congr_of_eventuallyEq ?_
    filter_upwards [lt_mem_nhds h] with x hx
    exact logOnePlusX_of_gt (lt_of_lt_of_le hx (le_abs_self x))

/-! ### Integrals -/

theorem cs2_integral {f : ℝ} (hf : 0 ≤ f) : ∫ x in (0 : ℝ)..f, cs2Toint x = f ^ 2 + 4 * f := by
  have e : Set.EqOn cs2Toint (fun x => 2 * x + 4) (Set.uIcc 0 f) := by
    intro x hx
    rw [Set.uIcc_of_le hf] at hx
    have : 1 + x ≠ 0 := by linarith [hx.1]
    simp only [cs2Toint]
    field_simp
    ring
  rw [intervalIntegral.integral_congr e,
    intervalIntegral.integral_eq_sub_of_hasDerivAt (f := fun x => x ^ 2 + 4 * x)]
  · ring
  · intro x _
    refine ((hasDerivAt_pow 2 x).add ((hasDerivAt_id x).const_mul 4)).congr_deriv ?_
    push_cast
    ring
  · exact (by fun_prop : Continuous fun x : ℝ => 2 * x + 4).intervalIntegrable _ _

/-- C184: the second class of Carnahan and Starling, which integrates, gives the chemical potential of
the first; what it integrates is what the base class does. -/
theorem C184_second (lg : ℝ → ℝ) {f : ℝ} (hf : 0 ≤ f) :
    (carnahanStarling2 lg).muNolog f = (carnahanStarling lg).muNolog f
    ∧ (carnahanStarling2 lg).mu0 f = (carnahanStarling lg).mu0 f
    ∧ (f ≠ 0 → cs2Toint f = baseToint csZ f)
    ∧ baseMuNolog lg csZ (baseToint csZ) f = (carnahanStarling lg).muNolog f := by
  have h1 : 1 + f ≠ 0 := by linarith
  have t : ∀ x : ℝ, x ≠ 0 → cs2Toint x = baseToint csZ x := by
    intro x hx
    unfold cs2Toint baseToint csZ
    rw [div_div, mul_comm (1 + x) x, ← div_div]
    congr 1
    field_simp
    ring
  have e : baseMuNolog lg csZ cs2Toint f = csMuNolog lg f := by
    unfold baseMuNolog csMuNolog
    rw [cs2_integral hf]
    unfold csZ
    ring
  refine ⟨e, ?_, t f, ?_⟩
  · show baseMu0 _ f = baseMu0 _ f
    unfold baseMu0
    rw [e]
  · have : baseMuNolog lg csZ (baseToint csZ) f = baseMuNolog lg csZ cs2Toint f := by
      unfold baseMuNolog
      congr 1
      apply intervalIntegral.integral_congr_ae
      refine Filter.Eventually.of_forall fun x hx => ?_
      rw [Set.uIoc_of_le hf] at hx
      exact (t x hx.1.ne').symm
    rw [this]
    exact e

example : (0 : ℝ) ≤ 0.97 := by norm_num

theorem kolafa_toint {x : ℝ} (hx : 0 < x) :
    baseToint kolafaZ x = (5 * x ^ 3 + 25 * x ^ 2 + 30 * x + 12) / (3 * (1 + x) ^ 2) := by
  have h1 : 1 + x ≠ 0 := by linarith
  unfold baseToint kolafaZ
  rw [show 3 * x + 3 = 3 * (1 + x) by ring]
  field_simp
  ring

theorem kolafa_integral {f : ℝ} (hf : 0 ≤ f) :
    ∫ x in (0 : ℝ)..f, baseToint kolafaZ x
      = (5 * f ^ 2 / 2 + 15 * f - 5 * lnOne f + 2 * (1 - 1 / (1 + f))) / 3 := by
  have e : ∫ x in (0 : ℝ)..f, baseToint kolafaZ x
      = ∫ x in (0 : ℝ)..f, (5 * x ^ 3 + 25 * x ^ 2 + 30 * x + 12) / (3 * (1 + x) ^ 2) := by
    apply intervalIntegral.integral_congr_ae
    refine Filter.Eventually.of_forall fun x hx => ?_
    rw [Set.uIoc_of_le hf] at hx
    exact kolafa_toint hx.1
  rw [e, intervalIntegral.integral_eq_sub_of_hasDerivAt
    (f := fun x => (5 * x ^ 2 / 2 + 15 * x - 5 * lnOne x + 2 * (1 - 1 / (1 + x))) / 3)]
  · simp [lnOne]
  · intro x hx
    rw [Set.uIcc_of_le hf] at hx
    have h1 : 1 + x ≠ 0 := by linarith [hx.1]
    have d1 := ((((hasDerivAt_pow 2 x).const_mul 5).div_const 2).add
      ((hasDerivAt_id x).const_mul 15)).sub ((lnOne_hasDeriv hx.1).const_mul 5)
    have d2 : HasDerivAt (fun x : ℝ => 2 * (1 - 1 / (1 + x))) (2 / (1 + x) ^ 2) x := by
      have := ((((hasDerivAt_id x).const_add 1).inv h1).const_sub 1).const_mul 2
      simp only [id] at this
      refine (this.congr_of_eventuallyEq ?_).congr_deriv ?_
      · exact Filter.Eventually.of_forall fun y => by simp
      · field_simp
    refine ((d1.add d2).div_const 3).congr_deriv ?_
    push_cast
    field_simp
    ring
  · apply ContinuousOn.intervalIntegrable
    rw [Set.uIcc_of_le hf]
    apply ContinuousOn.div
    · fun_prop
    · fun_prop
    · intro x hx
      have : 1 + x ≠ 0 := by linarith [hx.1]
      positivity

/-- C184: the chemical potential of Kolafa is that of its compressibility plus a third, for all
packings: the constant of integration makes it tend to `log f + 1/3` and not to `log f` when the fluid
is dilute. -/
theorem C184_kolafa_counterexample {f : ℝ} (hf : 0 ≤ f) :
    (kolafa lnOne).muNolog f = baseMuNolog lnOne kolafaZ (baseToint kolafaZ) f + 1 / 3
    ∧ (kolafa lnOne).muNolog 0 = 1 / 3 ∧ (kolafa logOnePlusX).muNolog 0 = 1 / 3
    ∧ (carnahanStarling logOnePlusX).muNolog 0 = 0 := by
  have h1 : 1 + f ≠ 0 := by linarith
  refine ⟨?_, ?_, ?_, ?_⟩
  · show kolafaMuNolog lnOne f = _
    unfold baseMuNolog kolafaMuNolog
    rw [kolafa_integral hf]
    unfold kolafaZ
    rw [show 3 * f + 3 = 3 * (1 + f) by ring, add_comm f 1]
    generalize lnOne f = L
    field_simp
    ring
  · show kolafaMuNolog lnOne 0 = _
    simp [kolafaMuNolog, lnOne]; norm_num
  · show kolafaMuNolog logOnePlusX 0 = _
    have : logOnePlusX 0 = 0 := by
      unfold logOnePlusX logT
      rw [if_neg (by norm_num)]
      norm_num
    simp [kolafaMuNolog, this]; norm_num
  · show csMuNolog logOnePlusX 0 = _
    have : logOnePlusX 0 = 0 := by
      unfold logOnePlusX logT
      rw [if_neg (by norm_num)]
      norm_num
    simp [csMuNolog, this]

example : (0 : ℝ) ≤ 0.97 := by norm_num

/-! ### Gibbs and Duhem -/

theorem cs_mu_hasDeriv {lg : ℝ → ℝ} {f : ℝ} (hf : 0 < f) (hlg : HasDerivAt lg (1 / (1 + f)) f) :
    HasDerivAt (carnahanStarling lg).mu0 (csPv01 f / f2vf f) f := by
  have h1 : 1 + f ≠ 0 := by linarith
  have d := (((hlg.neg.add ((hasDerivAt_id f).const_mul 8)).add
    ((hasDerivAt_pow 2 f).const_mul 7)).add ((hasDerivAt_pow 3 f).const_mul 2))
  refine ((hasDerivAt_log hf.ne').add d).congr_deriv ?_
  unfold csPv01 f2vf
  rw [show (-2 : ℤ) = -((2 : ℕ) : ℤ) from rfl, zpow_neg, zpow_natCast]
  push_cast
  field_simp
  ring

theorem kolafa_mu_hasDeriv {lg : ℝ → ℝ} {f : ℝ} (hf : 0 < f) (hlg : HasDerivAt lg (1 / (1 + f)) f) :
    HasDerivAt (kolafa lg).mu0 (kolafaPv01 f / f2vf f) f := by
  have h1 : 1 + f ≠ 0 := by linarith
  have h1' : f + 1 ≠ 0 := by linarith
  have di : HasDerivAt (fun x : ℝ => 4 / (x + 1)) (-4 / (f + 1) ^ 2) f := by
    have := ((hasDerivAt_const f (4 : ℝ)).div ((hasDerivAt_id f).add_const 1) h1')
    simp only [id] at this
    refine this.congr_deriv ?_
    ring
  have d := ((((((hlg.const_mul (-8)).add_const 5).sub di).add ((hasDerivAt_id f).const_mul 25)).add
    (((hasDerivAt_pow 2 f).const_mul 45).div_const 2)).add ((hasDerivAt_pow 3 f).const_mul 5)).div_const 3
  refine ((hasDerivAt_log hf.ne').add d).congr_deriv ?_
  unfold kolafaPv01 f2vf
  rw [show (-2 : ℤ) = -((2 : ℕ) : ℤ) from rfl, zpow_neg, zpow_natCast,
    show (-3 : ℤ) = -((3 : ℕ) : ℤ) from rfl, zpow_neg, zpow_natCast, add_comm f 1]
  push_cast
  field_simp
  ring

theorem hall_pv_hasDeriv {f : ℝ} (hf : 0 < f) (hc : f < fCp) :
    HasDerivAt hallPv0 (3 / ((1 / f - 1 / fCp) ^ 2 * f ^ 2)) f := by
  have hu : 1 / f - 1 / fCp ≠ 0 := (sub_pos.2 (one_div_lt_one_div_of_lt hf hc)).ne'
  have du : HasDerivAt (fun x : ℝ => 1 / x - 1 / fCp) (-1 / f ^ 2) f := by
    have := (hasDerivAt_inv hf.ne').sub_const (1 / fCp)
    simp only [inv_eq_one_div] at this
    refine this.congr_deriv ?_
    ring
  refine ((hasDerivAt_const f (3 : ℝ)).div du hu).congr_deriv ?_
  generalize 1 / f - 1 / fCp = u at hu
  field_simp
  ring

theorem hall_mu_hasDeriv {f : ℝ} (hf : 0 < f) (hc : f < fCp) :
    HasDerivAt hallMu0 (3 / ((1 / f - 1 / fCp) ^ 2 * f ^ 2) / f2vf f) f := by
  have hu : 1 / f - 1 / fCp ≠ 0 := (sub_pos.2 (one_div_lt_one_div_of_lt hf hc)).ne'
  have du : HasDerivAt (fun x : ℝ => 1 / x - 1 / fCp) (-1 / f ^ 2) f := by
    have := (hasDerivAt_inv hf.ne').sub_const (1 / fCp)
    simp only [inv_eq_one_div] at this
    refine this.congr_deriv ?_
    ring
  have d1 := ((((hasDerivAt_id f).const_add 1).const_mul 3).div du hu).div (hasDerivAt_id f) hf.ne'
  have d2 := (du.log hu).const_mul 3
  refine ((d1.const_add 2.1306).sub d2).congr_deriv ?_
  unfold f2vf
  have h1 : 1 + f ≠ 0 := by linarith
  simp only [id, Pi.div_apply]
  generalize 1 / f - 1 / fCp = u at hu
  field_simp
  ring

theorem liuToint_eq (f : ℝ) : liuToint f =
    (1 / pval liuQ (f2vf f) + liuC / (1 - liuA * f2vf f) + pval liuP.dropLast (f2vf f))
      * (1 - f2vf f) ^ 2 := by
  delta liuToint
  with_reducible rfl

theorem pval_cont (l : List ℝ) {g : ℝ → ℝ} {f : ℝ} (c : ContinuousAt g f) :
    ContinuousAt (fun x => pval l (g x)) f :=
  (pval_hasDeriv l (g f)).continuousAt.comp_of_eq c rfl

theorem liu_toint_cont {f : ℝ} (h0 : 0 ≤ f) (h1 : f < vf2f 0.635584) : ContinuousAt liuToint f := by
  have hf : 1 + f ≠ 0 := by linarith
  obtain ⟨hq, ha⟩ := liu_defined h0 h1
  have c := (f2vf_hasDeriv hf).continuousAt
  have c1 := pval_cont liuQ c
  have c2 := pval_cont liuP.dropLast c
  rw [funext liuToint_eq]
  exact (((continuousAt_const.div c1 hq).add
    (continuousAt_const.div (continuousAt_const.sub (continuousAt_const.mul c)) ha)).add c2).mul
    ((continuousAt_const.sub c).pow 2)

theorem pval_shift (a l : List ℝ) (h : a = l ++ [0]) (x : ℝ) : pval a x = x * pval l x := by
  subst h
  rw [pval_append, show pval [0] x = 0 by simp [pval], List.length_singleton]
  ring

/-- C184: what the class of Liu integrates is what the base class does. -/
theorem C184_liu_toint {f : ℝ} (hf : 0 < f) : liuToint f = baseToint liuZ f := by
  have h1 : 1 + f ≠ 0 := by linarith
  have hp : f2vf f ≠ 0 := div_ne_zero hf.ne' h1
  have e : f2vf f * pval liuP.dropLast (f2vf f) = pval liuP (f2vf f) := by
    have hs : liuP = liuP.dropLast ++ [0] := by
      unfold liuP
      rw [show (40 : ℕ) = 39 + 1 from rfl, List.replicate_succ', ← List.append_assoc,
        List.dropLast_concat]
    exact (pval_shift liuP liuP.dropLast hs _).symm
  have e2 : (1 - f2vf f) ^ 2 * ((1 + f) * f) = f2vf f := by
    unfold f2vf
    field_simp
    ring
  rw [liuToint_eq]
  unfold baseToint liuZ
  simp only
  rw [← e, div_div, eq_div_iff (mul_ne_zero h1 hf.ne')]
  rw [show (1 / pval liuQ (f2vf f) + liuC / (1 - liuA * f2vf f) + pval liuP.dropLast (f2vf f))
      * (1 - f2vf f) ^ 2 * ((1 + f) * f)
      = (1 / pval liuQ (f2vf f) + liuC / (1 - liuA * f2vf f) + pval liuP.dropLast (f2vf f))
      * ((1 - f2vf f) ^ 2 * ((1 + f) * f)) by ring, e2]
  ring

example : (0 : ℝ) < 0.97 := by norm_num

theorem liu_mu_hasDeriv {lg : ℝ → ℝ} {f : ℝ} (hf : 0 < f) (hc : f < vf2f 0.635584)
    (hlg : HasDerivAt lg (1 / (1 + f)) f) :
    HasDerivAt (liu lg).mu0 (liuPv01 f / f2vf f) f := by
  have h1 : 1 + f ≠ 0 := by linarith
  have hp : f2vf f ≠ 0 := div_ne_zero hf.ne' h1
  obtain ⟨hq, ha⟩ := liu_defined hf.le hc
  -- the compressibility is the pressure over the volume fraction
  have dZ : HasDerivAt liuZ ((liuPv01 f * f2vf f - basePv0 liuZ f * (1 - f2vf f) ^ 2) / f2vf f ^ 2) f := by
    refine ((liu_hasDeriv h1 hq ha).div (f2vf_hasDeriv h1) hp).congr_of_eventuallyEq ?_
    filter_upwards [lt_mem_nhds hf] with x hx
    have : f2vf x ≠ 0 := div_ne_zero hx.ne' (by linarith)
    show liuZ x = f2vf x * liuZ x / f2vf x
    field_simp
  have dI : HasDerivAt (fun y => ∫ x in (0 : ℝ)..y, liuToint x) (liuToint f) f := by
    apply intervalIntegral.integral_hasDerivAt_right
    · apply ContinuousOn.intervalIntegrable
      rw [Set.uIcc_of_le hf.le]
      intro x hx
      exact (liu_toint_cont hx.1 (lt_of_le_of_lt hx.2 hc)).continuousWithinAt
    · exact ContinuousAt.stronglyMeasurableAtFilter isOpen_Ioo
        (fun x hx => liu_toint_cont (le_of_lt hx.1) hx.2) f ⟨hf, hc⟩
    · exact liu_toint_cont hf.le hc
  refine ((hasDerivAt_log hf.ne').add (((hlg.neg.add dZ).sub_const 1).add dI)).congr_deriv ?_
  rw [C184_liu_toint hf]
  have e : basePv0 liuZ f = f2vf f * liuZ f := rfl
  rw [e]
  unfold baseToint
  have e2 : (1 - f2vf f) ^ 2 * ((1 + f) * f) = f2vf f := by
    unfold f2vf
    field_simp
    ring
  have e3 : f2vf f * (1 + f) = f := by unfold f2vf; field_simp
  generalize liuZ f = Z
  generalize liuPv01 f = P
  have e4 : (1 - f2vf f) = 1 / (1 + f) := by unfold f2vf; field_simp; ring
  rw [e4]
  unfold f2vf
  field_simp
  ring

/-- C184: the chemical potential goes with the pressure (Gibbs and Duhem), without and with polymers,
and the semi-grand potential `omega` has the chemical potential for derivative with respect to the
volume fraction: the common tangent of `omega` is coexistence.  For Carnahan and Starling, Kolafa,
Liu and Hall; with the exact logarithm everywhere, and with `logOnePlusX` where it is the logarithm. -/
theorem C184_gibbs_duhem {lg : ℝ → ℝ} (E : EOS) {f : ℝ} (hf : 0 < f) (piv q : ℝ) (hq : q ≠ -1)
    (hlg : lg = lnOne ∨ (lg = logOnePlusX ∧ 0.375 < f))
    (hE : E = carnahanStarling lg ∨ E = kolafa lg ∨ (E = liu lg ∧ f < E.maxf)
      ∨ (E = hall ∧ f < fCp)) :
    deriv E.pv0 f = f2vf f * deriv E.mu0 f
    ∧ deriv (fun x => E.pv x piv q) f = f2vf f * deriv (fun x => E.mu x piv q) f
    ∧ deriv (fun phi => E.omega (vf2f phi) piv q) (f2vf f) = E.mu f piv q := by
  have h1 : 1 + f ≠ 0 := by linarith
  have h2 : 1 + q ≠ 0 := fun e => hq (by linarith)
  have hp : f2vf f ≠ 0 := div_ne_zero hf.ne' h1
  have hl := lg_hasDeriv hf.le hlg
  obtain ⟨p, hpv, hmu⟩ : ∃ p, HasDerivAt E.pv0 p f ∧ HasDerivAt E.mu0 (p / f2vf f) f := by
    rcases hE with rfl | rfl | ⟨rfl, hc⟩ | ⟨rfl, hc⟩
    · exact ⟨_, cs_hasDeriv h1, cs_mu_hasDeriv hf hl⟩
    · exact ⟨_, kolafa_hasDeriv h1, kolafa_mu_hasDeriv hf hl⟩
    · obtain ⟨hq, ha⟩ := liu_defined hf.le hc
      exact ⟨_, liu_hasDeriv h1 hq ha, liu_mu_hasDeriv hf hc hl⟩
    · exact ⟨_, hall_pv_hasDeriv hf hc, hall_mu_hasDeriv hf hc⟩
  have dpv : HasDerivAt (fun x => E.pv x piv q) (p + piv * (-f * beta2 f q)) f :=
    hpv.add ((h_deriv f q).const_mul piv)
  have dmu : HasDerivAt (fun x => E.mu x piv q)
      (p / f2vf f + piv * (1 + q) ^ 3 * (-(1 + f) * beta2 f q / (1 + q) ^ 3)) f :=
    hmu.add ((g_deriv f q).const_mul (piv * (1 + q) ^ 3))
  have key : p + piv * (-f * beta2 f q)
      = f2vf f * (p / f2vf f + piv * (1 + q) ^ 3 * (-(1 + f) * beta2 f q / (1 + q) ^ 3)) := by
    unfold f2vf
    field_simp
  refine ⟨?_, ?_, ?_⟩
  · rw [hpv.deriv, hmu.deriv]; field_simp
  · rw [dpv.deriv, dmu.deriv]; exact key
  · have back : vf2f (f2vf f) = f := (C181_fraction f 0).1 (by linarith)
    have lt1 : f2vf f < 1 := ((C181_fraction f 0).2.2.1 hf.le).2
    have hne : 1 - f2vf f ≠ 0 := by linarith
    have dv : HasDerivAt vf2f (1 / (1 - f2vf f) ^ 2) (f2vf f) := by
      refine ((hasDerivAt_id (f2vf f)).div ((hasDerivAt_id (f2vf f)).const_sub 1) hne).congr_deriv ?_
      simp only [id]
      congr 1
      ring
    have dom : HasDerivAt (fun x => E.omega x piv q)
        (-(p + piv * (-f * beta2 f q)) + ((1 - f2vf f) ^ 2 * E.mu f piv q + f2vf f *
          (p / f2vf f + piv * (1 + q) ^ 3 * (-(1 + f) * beta2 f q / (1 + q) ^ 3)))) f :=
      dpv.neg.add ((f2vf_hasDeriv h1).mul dmu)
    rw [key] at dom
    have dom' : HasDerivAt (fun x => E.omega x piv q) ((1 - f2vf f) ^ 2 * E.mu f piv q) f :=
      dom.congr_deriv (by ring)
    rw [← back] at dom'
    have := (dom'.comp (f2vf f) dv).deriv
    rw [back] at this
    refine this.trans ?_
    field_simp

example : (0 : ℝ) < 0.97 ∧ (0.1 : ℝ) ≠ -1 ∧ (logOnePlusX = lnOne ∨ (logOnePlusX = logOnePlusX
    ∧ (0.375 : ℝ) < 0.97)) ∧ (0.97 : ℝ) < fCp :=
  ⟨by norm_num, by norm_num, Or.inr ⟨rfl, by norm_num⟩,
    lt_trans (by norm_num) C181_close_packing.2.2.2.2.1⟩

/-- C184: the chemical potentials computed are within `4 10^-14 f` (eight thirds of it for Kolafa) of
those with the exact logarithm, at all packings. -/
theorem C184_close {f : ℝ} (hf : 0 ≤ f) (piv q : ℝ) :
    |(carnahanStarling logOnePlusX).mu f piv q - (carnahanStarling lnOne).mu f piv q| ≤ 4e-14 * f
    ∧ |(liu logOnePlusX).mu f piv q - (liu lnOne).mu f piv q| ≤ 4e-14 * f
    ∧ |(kolafa logOnePlusX).mu f piv q - (kolafa lnOne).mu f piv q| ≤ 8 / 3 * (4e-14 * f) := by
  have h := C181_log (x := f) (by linarith)
  rw [abs_of_nonneg hf] at h
  refine ⟨?_, ?_, ?_⟩
  · have e : (carnahanStarling logOnePlusX).mu f piv q - (carnahanStarling lnOne).mu f piv q
        = -(logOnePlusX f - log (1 + f)) := by
      simp only [Core.mu, carnahanStarling, Core.toEOS, baseMu0, csMuNolog, lnOne]; ring
    rw [e, abs_neg]; exact h
  · have e : (liu logOnePlusX).mu f piv q - (liu lnOne).mu f piv q
        = -(logOnePlusX f - log (1 + f)) := by
      simp only [Core.mu, liu, Core.toEOS, baseMu0, baseMuNolog, lnOne]; ring
    rw [e, abs_neg]; exact h
  · have e : (kolafa logOnePlusX).mu f piv q - (kolafa lnOne).mu f piv q
        = -(8 / 3) * (logOnePlusX f - log (1 + f)) := by
      simp only [Core.mu, kolafa, Core.toEOS, baseMu0, kolafaMuNolog, lnOne]; ring
    rw [e, abs_mul]
    norm_num at h ⊢
    linarith

example : (0 : ℝ) ≤ 0.2 := by norm_num

/-! ### Changes of variable -/

/-- the classes of the module -/
def IsEos (lg : ℝ → ℝ) (E : EOS) : Prop :=
  E = carnahanStarling lg ∨ E = carnahanStarling2 lg ∨ E = kolafa lg ∨ E = leFevre lg ∨ E = liu lg
    ∨ E = hall

/-- C184: pressure, chemical potential and semi-grand potential as functions of `log f` and of
`log(1/f - 1/f_cp)` are the functions of `f`, for every class. -/
theorem C184_variables (lg : ℝ → ℝ) (E : EOS) (hE : IsEos lg E) (x piv q : ℝ) :
    E.muOfLog x piv q = E.mu (exp x) piv q ∧ E.pvOfLog x piv q = E.pv (exp x) piv q
    ∧ E.omegaOfLog x piv q = E.omega (exp x) piv q
    ∧ E.muOfU x piv q = E.mu (U2f x) piv q ∧ E.pvOfU x piv q = E.pv (U2f x) piv q := by
  have hlog : ∀ y, E.muOfLog y piv q = E.mu (exp y) piv q := by
    intro y
    have : E.mu0 (exp y) = y + E.muNolog (exp y) := by
      rcases hE with rfl | rfl | rfl | rfl | rfl | rfl
      · show baseMu0 _ _ = _; unfold baseMu0; rw [log_exp]; rfl
      · show baseMu0 _ _ = _; unfold baseMu0; rw [log_exp]; rfl
      · show baseMu0 _ _ = _; unfold baseMu0; rw [log_exp]; rfl
      · show baseMu0 _ _ = _; unfold baseMu0; rw [log_exp]; rfl
      · show baseMu0 _ _ = _; unfold baseMu0; rw [log_exp]; rfl
      · show hallMu0 _ = _ + (hallMu0 _ - log _); rw [log_exp]; ring
    unfold Core.muOfLog Core.mu
    rw [this]
  have hU := (C181_variable x 0).2.2.2.2 x
  refine ⟨hlog x, rfl, ?_, ?_, ?_⟩
  · unfold Core.omegaOfLog Core.omega
    rw [hlog]; rfl
  · have hb : E.muOfU = (fun U piv q => E.muOfLog (-log (exp U + 1 / fCp)) piv q) →
        E.muOfU x piv q = E.mu (U2f x) piv q := by
      intro h
      rw [h, hU]
      exact hlog _
    rcases hE with rfl | rfl | rfl | rfl | rfl | rfl
    · exact hb rfl
    · exact hb rfl
    · exact hb rfl
    · exact hb rfl
    · exact hb rfl
    · obtain ⟨h1, -, -, h4, -⟩ := C181_close_packing
      have hη : 0 < etaCp := lt_trans (by norm_num) h1
      have hx := exp_pos x
      have hf : 0 < U2f x := ((C181_variable x 0).1).1
      have hu : 1 / U2f x - 1 / fCp = exp x := by
        unfold U2f; rw [one_div_one_div]; ring
      have hr : 1 / U2f x = exp x + (1 / etaCp - 1) := by rw [← h4]; linarith
      show 2.1306 + 3 * (1 + 1 / etaCp / exp x) - 3 * x + piv * (1 + q) ^ 3 * g (U2f x) q
        = (2.1306 + 3 * (1 + U2f x) / (1 / U2f x - 1 / fCp) / U2f x
          - 3 * log (1 / U2f x - 1 / fCp)) + piv * (1 + q) ^ 3 * g (U2f x) q
      rw [hu, log_exp]
      have : 3 * (1 + U2f x) / exp x / U2f x = 3 * (1 / U2f x + 1) / exp x := by field_simp
      rw [this, hr]
      field_simp
      ring
  · rcases hE with rfl | rfl | rfl | rfl | rfl | rfl
    · rfl
    · rfl
    · rfl
    · rfl
    · rfl
    · have hu : 1 / U2f x - 1 / fCp = exp x := by
        unfold U2f; rw [one_div_one_div]; ring
      show 3 / exp x + piv * h (U2f x) q = 3 / (1 / U2f x - 1 / fCp) + piv * h (U2f x) q
      rw [hu]

example : IsEos logOnePlusX hall := Or.inr (Or.inr (Or.inr (Or.inr (Or.inr rfl))))

end Phase
end Py
end Colloids
