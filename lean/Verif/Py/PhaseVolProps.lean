import Verif.Py.PhaseModel
import Mathlib.Analysis.Calculus.Deriv.MeanValue
import Mathlib.Analysis.SpecialFunctions.ExpDeriv
import Mathlib.Tactic.NormNum
import Mathlib.Tactic.Positivity
import Mathlib.Tactic.FieldSimp
import Mathlib.Tactic.Ring
import Mathlib.Tactic.Linarith

/-!
# Conversions of variables (C181) and volume free to the polymers (C182)
-/

namespace Colloids
namespace Py
namespace Phase

open Real

/-! ### Conversions -/

theorem pi_sqrt_two_bounds : 4.44288 < π * √2 ∧ π * √2 < 4.442885 := by
  have h1 := pi_gt_d6
  have h2 := pi_lt_d6
  have h3 : (0 : ℝ) < π := pi_pos
  have h4 : (√2 : ℝ) ^ 2 = 2 := sq_sqrt (by norm_num)
  have h5 : (1.414213 : ℝ) < √2 := by
    apply Real.lt_sqrt_of_sq_lt; norm_num
  have h6 : √2 < (1.414214 : ℝ) := by
    rw [Real.sqrt_lt' (by norm_num)]; norm_num
  have h7 : (1.4142135 : ℝ) < √2 := by
    apply Real.lt_sqrt_of_sq_lt; norm_num
  have h8 : √2 < (1.4142136 : ℝ) := by
    rw [Real.sqrt_lt' (by norm_num)]; norm_num
  norm_num at *
  constructor <;> nlinarith

/-- close packing: the volume fraction is 0.7405 -/
theorem C181_close_packing : 0.74048 < etaCp ∧ etaCp < 0.740481 ∧ f2vf fCp = etaCp
    ∧ 1 / fCp = 1 / etaCp - 1 ∧ 2.853 < fCp ∧ fCp < 2.8535 := by
  have hb := pi_sqrt_two_bounds
  have e : etaCp = π * √2 / 6 := by unfold etaCp; ring
  have h1 : 0.74048 < etaCp := by rw [e]; norm_num at *; linarith
  have h2 : etaCp < 0.740481 := by rw [e]; norm_num at *; linarith
  have h0 : 0 < etaCp := lt_trans (by norm_num) h1
  have h3 : 0 < 1 - etaCp := by norm_num at h2; linarith
  refine ⟨h1, h2, ?_, ?_, ?_, ?_⟩
  · unfold f2vf fCp vf2f
    field_simp
    ring
  · unfold fCp vf2f
    field_simp
  · unfold fCp vf2f
    rw [lt_div_iff₀ h3]
    norm_num at *
    linarith
  · unfold fCp vf2f
    rw [div_lt_iff₀ h3]
    norm_num at *
    linarith

theorem fCp_pos : 0 < fCp := lt_trans (by norm_num) C181_close_packing.2.2.2.2.1

/-- C181: `f` and the volume fraction are converted into one another without loss; the volume fraction
of a nonnegative `f` is in `[0, 1)` and grows with it. -/
theorem C181_fraction (f vf : ℝ) :
    (f ≠ -1 → vf2f (f2vf f) = f) ∧ (vf ≠ 1 → f2vf (vf2f vf) = vf)
    ∧ (0 ≤ f → 0 ≤ f2vf f ∧ f2vf f < 1)
    ∧ (0 ≤ vf → vf < 1 → 0 ≤ vf2f vf)
    ∧ StrictMonoOn f2vf (Set.Ici 0) := by
  refine ⟨fun h => ?_, fun h => ?_, fun h => ?_, fun h0 h1 => ?_, ?_⟩
  · have : 1 + f ≠ 0 := fun e => h (by linarith)
    unfold vf2f f2vf
    rw [show 1 - f / (1 + f) = 1 / (1 + f) by field_simp; ring]
    field_simp
  · have : 1 - vf ≠ 0 := fun e => h (by linarith)
    unfold vf2f f2vf
    rw [show 1 + vf / (1 - vf) = 1 / (1 - vf) by field_simp; ring]
    field_simp
  · unfold f2vf
    refine ⟨by positivity, ?_⟩
    rw [div_lt_one (by linarith)]
    linarith
  · unfold vf2f
    exact div_nonneg h0 (by linarith)
  · intro a ha b hb hab
    simp only [Set.mem_Ici] at ha hb
    unfold f2vf
    rw [div_lt_div_iff₀ (by linarith) (by linarith)]
    linarith

example : (0.97 : ℝ) ≠ -1 ∧ (0.494 : ℝ) ≠ 1 ∧ (0 : ℝ) ≤ 0.97 := by norm_num

/-- C181: the osmotic pressures in units of colloids and of polymers are converted into one another. -/
theorem C181_osmotic (p qR : ℝ) (h : qR ≠ 0) :
    y2piv (piv2y p qR) qR = p ∧ piv2y (y2piv p qR) qR = p := by
  unfold y2piv piv2y
  constructor <;> field_simp

example : (0.1 : ℝ) ≠ 0 := by norm_num

/-- C181: the change of variable that prevents going over close packing: `U2f` takes every real number
to a packing between zero and close packing, decreasing, and `f2U` is its inverse. -/
theorem C181_variable (U f : ℝ) :
    (0 < U2f U ∧ U2f U < fCp) ∧ f2U (U2f U) = U ∧ (0 < f → f < fCp → U2f (f2U f) = f)
    ∧ StrictAnti U2f ∧ (∀ V, U2f V = exp (-log (exp V + 1 / fCp))) := by
  have hc := fCp_pos
  have hpos : ∀ V, 0 < exp V + 1 / fCp := fun V => by positivity
  refine ⟨⟨?_, ?_⟩, ?_, fun h0 h1 => ?_, ?_, fun V => ?_⟩
  · unfold U2f; exact one_div_pos.2 (hpos U)
  · unfold U2f
    rw [div_lt_iff₀ (hpos U), mul_add, mul_one_div_cancel hc.ne']
    have := exp_pos U
    nlinarith
  · unfold f2U U2f
    rw [one_div_one_div, add_sub_cancel_right, log_exp]
  · unfold f2U U2f
    have : 0 < 1 / f - 1 / fCp := sub_pos.2 (one_div_lt_one_div_of_lt h0 h1)
    rw [exp_log this, sub_add_cancel, one_div_one_div]
  · intro a b hab
    unfold U2f
    apply one_div_lt_one_div_of_lt (hpos a)
    have := exp_lt_exp.2 hab
    linarith
  · unfold U2f
    rw [exp_neg, exp_log (hpos V), one_div]

example : (0 : ℝ) < 0.97 ∧ (0.97 : ℝ) < fCp := by
  refine ⟨by norm_num, lt_trans ?_ C181_close_packing.2.2.2.2.1⟩
  norm_num

/-! ### Free volume -/

theorem Q_deriv (f q : ℝ) : HasDerivAt (fun x => Q x q) (Q1 f q) f := by
  unfold Q Q1
  refine ((((hasDerivAt_id f).const_mul (A q)).add ((hasDerivAt_pow 2 f).const_mul (B q))).add
    ((hasDerivAt_pow 3 f).const_mul (C q))).congr_deriv ?_
  push_cast
  ring

theorem Q1_deriv (f q : ℝ) : HasDerivAt (fun x => Q1 x q) (Q2 f q) f := by
  unfold Q1 Q2
  refine ((((hasDerivAt_const f (A q))).add ((hasDerivAt_id f).const_mul (2 * B q))).add
    ((hasDerivAt_pow 2 f).const_mul (3 * C q))).congr_deriv ?_
  push_cast
  ring

theorem Q2_deriv (f q : ℝ) : HasDerivAt (fun x => Q2 x q) (Q3 f q) f := by
  unfold Q2 Q3
  refine ((hasDerivAt_const f (2 * B q)).add
    ((hasDerivAt_id f).const_mul (6 * C q))).congr_deriv ?_
  ring

theorem beta_deriv (f q : ℝ) : HasDerivAt (fun x => beta x q) (beta1 f q) f := by
  refine ((Q_deriv f q).neg.exp).congr_deriv ?_
  simp only [Pi.neg_apply]
  unfold beta1 beta
  ring

theorem beta1_deriv (f q : ℝ) : HasDerivAt (fun x => beta1 x q) (beta2 f q) f := by
  refine ((beta_deriv f q).neg.mul (Q1_deriv f q)).congr_deriv ?_
  simp only [Pi.neg_apply]
  unfold beta2
  ring

theorem beta2_deriv (f q : ℝ) : HasDerivAt (fun x => beta2 x q) (beta3 f q) f := by
  refine (((beta_deriv f q).neg.mul (Q2_deriv f q)).sub
    ((beta1_deriv f q).mul (Q1_deriv f q))).congr_deriv ?_
  simp only [Pi.neg_apply]
  unfold beta3
  ring

/-- C182: `Q1`, `Q2`, `Q3` are the successive derivatives of `Q` with respect to `f`, and `beta1`,
`beta2`, `beta3` those of `beta`. -/
theorem C182_derivatives (q : ℝ) :
    deriv (fun f => Q f q) = (fun f => Q1 f q) ∧ deriv (fun f => Q1 f q) = (fun f => Q2 f q)
    ∧ deriv (fun f => Q2 f q) = (fun f => Q3 f q)
    ∧ deriv (fun f => beta f q) = (fun f => beta1 f q)
    ∧ deriv (fun f => beta1 f q) = (fun f => beta2 f q)
    ∧ deriv (fun f => beta2 f q) = (fun f => beta3 f q) :=
  ⟨funext fun f => (Q_deriv f q).deriv, funext fun f => (Q1_deriv f q).deriv,
    funext fun f => (Q2_deriv f q).deriv, funext fun f => (beta_deriv f q).deriv,
    funext fun f => (beta1_deriv f q).deriv, funext fun f => (beta2_deriv f q).deriv⟩

/-- pressure times volume of hard spheres in scaled particle theory -/
noncomputable def sptPv (f : ℝ) : ℝ := f2vf f * (1 + f2vf f + f2vf f ^ 2) / (1 - f2vf f) ^ 3

/-- work to insert a sphere of relative size `q` in scaled particle theory: a point, then a surface
polynomial, then the pressure times the volume -/
noncomputable def sptWork (f q : ℝ) : ℝ :=
  -log (1 - f2vf f) + 3 * f * q + (3 * f + 9 / 2 * f ^ 2) * q ^ 2 + sptPv f * q ^ 3

theorem sptPv_eq {f : ℝ} (hf : 0 ≤ f) : sptPv f = f + 3 * f ^ 2 + 3 * f ^ 3 := by
  have h1 : 1 + f ≠ 0 := by linarith
  have e : 1 - f2vf f = 1 / (1 + f) := by unfold f2vf; field_simp; ring
  unfold sptPv
  rw [e]
  unfold f2vf
  field_simp
  ring

theorem sptWork_eq {f : ℝ} (hf : 0 ≤ f) (q : ℝ) :
    sptWork f q = log (1 + f) + 3 * f * q + (3 * f + 9 / 2 * f ^ 2) * q ^ 2
      + (f + 3 * f ^ 2 + 3 * f ^ 3) * q ^ 3 := by
  have h1 : 1 + f ≠ 0 := by linarith
  have e : 1 - f2vf f = 1 / (1 + f) := by unfold f2vf; field_simp; ring
  unfold sptWork
  rw [sptPv_eq hf, e, one_div, log_inv, neg_neg]

/-- the reference is right: inserting one more colloid (`q = 1`) is the excess chemical potential of
the colloids, which goes with their pressure (Gibbs and Duhem) -/
theorem C182_reference {f : ℝ} (hf : 0 < f) :
    deriv sptPv f = f2vf f * deriv (fun x => log (f2vf x) + sptWork x 1) f := by
  have h1 : 1 + f ≠ 0 := by linarith
  have e1 : sptPv =ᶠ[nhds f] fun x => x + 3 * x ^ 2 + 3 * x ^ 3 := by
    filter_upwards [lt_mem_nhds hf] with x hx using sptPv_eq hx.le
  have e2 : (fun x => log (f2vf x) + sptWork x 1) =ᶠ[nhds f]
      fun x => log x + 7 * x + 15 / 2 * x ^ 2 + 3 * x ^ 3 := by
    filter_upwards [lt_mem_nhds hf] with x hx
    rw [sptWork_eq hx.le]
    unfold f2vf
    rw [log_div hx.ne' (by linarith)]
    ring
  rw [e1.deriv_eq, e2.deriv_eq]
  have d1 := ((hasDerivAt_id f).add ((hasDerivAt_pow 2 f).const_mul 3)).add
    ((hasDerivAt_pow 3 f).const_mul 3)
  have d2 := (((hasDerivAt_log hf.ne').add ((hasDerivAt_id f).const_mul 7)).add
    ((hasDerivAt_pow 2 f).const_mul (15 / 2))).add ((hasDerivAt_pow 3 f).const_mul 3)
  have d1' : deriv (fun x : ℝ => x + 3 * x ^ 2 + 3 * x ^ 3) f = _ := d1.deriv
  have d2' : deriv (fun x : ℝ => log x + 7 * x + 15 / 2 * x ^ 2 + 3 * x ^ 3) f = _ := d2.deriv
  rw [d1', d2']
  unfold f2vf
  push_cast
  field_simp
  ring

example : (0 : ℝ) < 0.97 := by norm_num

/-- C182: what the code computes: the exponential of the work of insertion of scaled particle theory,
but for the coefficient of the cube, `C`, which is a third of what it should be. -/
theorem C182_insertion_partial {f : ℝ} (hf : 0 ≤ f) (q : ℝ) :
    alpha f q = exp (-(sptWork f q - 2 * q ^ 3 * f ^ 3)) := by
  have h1 : 0 < 1 + f := by linarith
  rw [sptWork_eq hf]
  unfold alpha beta
  rw [show -(log (1 + f) + 3 * f * q + (3 * f + 9 / 2 * f ^ 2) * q ^ 2
      + (f + 3 * f ^ 2 + 3 * f ^ 3) * q ^ 3 - 2 * q ^ 3 * f ^ 3)
      = -Q f q - log (1 + f) by unfold Q A B C; norm_num; ring, exp_sub, exp_log h1]

/-- C182: so for all polymers and colloids the free volume is over-estimated, and inserting one more
colloid does not cost the chemical potential of the colloids. -/
theorem C182_insertion_counterexample {f q : ℝ} (hf : 0 < f) (hq : 0 < q) :
    exp (-sptWork f q) < alpha f q ∧ -log (alpha f 1) ≠ sptWork f 1 := by
  refine ⟨?_, ?_⟩
  · rw [C182_insertion_partial hf.le, exp_lt_exp]
    have : 0 < 2 * q ^ 3 * f ^ 3 := by positivity
    linarith
  · rw [C182_insertion_partial hf.le, log_exp]
    have : 0 < 2 * (1 : ℝ) ^ 3 * f ^ 3 := by positivity
    intro h
    linarith

example : (0 : ℝ) < 0.97 ∧ (0 : ℝ) < 0.1 := by norm_num

theorem Q1_nonneg {f q : ℝ} (hf : 0 ≤ f) (hq : 0 ≤ q) : 0 ≤ Q1 f q := by
  have : Q1 f q = 3 * q + 3 * q ^ 2 + q ^ 3 + 2 * (3 * q ^ 2 * (q + 1.5)) * f + 3 * q ^ 3 * f ^ 2 := by
    unfold Q1 A B C; ring
  rw [this]; positivity

theorem Q_nonneg {f q : ℝ} (hf : 0 ≤ f) (hq : 0 ≤ q) : 0 ≤ Q f q := by
  have : Q f q = (3 * q + 3 * q ^ 2 + q ^ 3) * f + (3 * q ^ 2 * (q + 1.5)) * f ^ 2 + q ^ 3 * f ^ 3 := by
    unfold Q A B C; ring
  rw [this]; positivity

theorem Q_mono {f f' q q' : ℝ} (hf : 0 ≤ f) (hq : 0 ≤ q) (h : f ≤ f') (h' : q ≤ q') :
    Q f q ≤ Q f' q' := by
  have e : ∀ f q : ℝ, Q f q = (3 * q + 3 * q ^ 2 + q ^ 3) * f + (3 * q ^ 2 * (q + 1.5)) * f ^ 2
      + q ^ 3 * f ^ 3 := fun f q => by unfold Q A B C; ring
  have hf' := hf.trans h
  have hq' := hq.trans h'
  rw [e, e]
  gcongr

/-- C182: the free volume fraction is in `(0, 1]`, one without colloid, and decreases when there are
more colloids or larger polymers. -/
theorem C182_free (q : ℝ) (hq : 0 ≤ q) :
    (∀ f, 0 ≤ f → 0 < alpha f q ∧ alpha f q ≤ 1 - f2vf f) ∧ alpha 0 q = 1
    ∧ StrictAntiOn (fun f => alpha f q) (Set.Ici 0)
    ∧ (∀ f q', 0 ≤ f → q ≤ q' → alpha f q' ≤ alpha f q) := by
  have hle : ∀ f, 0 ≤ f → beta f q ≤ 1 := fun f hf => by
    unfold beta; rw [exp_le_one_iff]; have := Q_nonneg hf hq; linarith
  refine ⟨fun f hf => ⟨?_, ?_⟩, ?_, ?_, ?_⟩
  · unfold alpha beta; positivity
  · have h1 : 0 < 1 + f := by linarith
    unfold alpha f2vf
    rw [show 1 - f / (1 + f) = 1 / (1 + f) by field_simp; ring]
    exact div_le_div_of_nonneg_right (hle f hf) h1.le
  · simp [alpha, beta, Q]
  · intro a ha b hb hab
    simp only [Set.mem_Ici] at ha hb
    simp only [alpha]
    apply div_lt_div₀' _ (by linarith) (exp_pos _) (by linarith)
    unfold beta
    rw [exp_le_exp]
    have := Q_mono ha hq hab.le (le_refl q)
    linarith
  · intro f q' hf h
    simp only [alpha]
    apply div_le_div_of_nonneg_right _ (by linarith)
    unfold beta
    rw [exp_le_exp]
    have := Q_mono hf hq (le_refl f) h
    linarith

example : (0 : ℝ) ≤ 0.1 := by norm_num

/-- C182: `xp2th` is the pressure at which the polymers in the free volume are the polymers put in. -/
theorem C182_xp2th (q cp phi qR cpov : ℝ) (hq : 0 ≤ q) (h0 : 0 ≤ phi) (h1 : phi < 1) (hR : qR ≠ 0)
    (hc : cpov ≠ 0) :
    cpov * piv2y (xp2th q cp phi qR cpov) qR * alpha (vf2f phi) q = cp := by
  have ha := ((C182_free q hq).1 (vf2f phi) ((C181_fraction 0 phi).2.2.2.1 h0 h1)).1
  unfold xp2th
  rw [(C181_osmotic _ qR hR).2]
  field_simp

example : (0 : ℝ) ≤ 0.08 ∧ (0 : ℝ) ≤ 0.2 ∧ (0.2 : ℝ) < 1 ∧ (0.1 : ℝ) ≠ 0 ∧ (1 : ℝ) ≠ 0 := by norm_num

theorem h_deriv (f q : ℝ) : HasDerivAt (fun x => h x q) (-f * beta2 f q) f := by
  refine ((beta_deriv f q).sub ((hasDerivAt_id f).mul (beta1_deriv f q))).congr_deriv ?_
  simp only [id]
  ring

theorem g_deriv (f q : ℝ) : HasDerivAt (fun x => g x q) (-(1 + f) * beta2 f q / (1 + q) ^ 3) f := by
  refine (((beta_deriv f q).sub
    (((hasDerivAt_id f).const_add 1).mul (beta1_deriv f q))).div_const _).congr_deriv ?_
  simp only [id]
  ring

/-- C182: the polymers' contributions to pressure and chemical potential are those of a free energy:
the derivative of the pressure is the volume fraction times that of the chemical potential. -/
theorem C182_gibbs_duhem (f q : ℝ) (hf : 0 ≤ f) (hq : q ≠ -1) :
    deriv (fun x => h x q) f = f2vf f * deriv (fun x => (1 + q) ^ 3 * g x q) f := by
  have h1 : 1 + f ≠ 0 := by linarith
  have h2 : 1 + q ≠ 0 := fun e => hq (by linarith)
  rw [(h_deriv f q).deriv, ((g_deriv f q).const_mul _).deriv]
  unfold f2vf
  field_simp

example : (0 : ℝ) ≤ 0.97 ∧ (0.1 : ℝ) ≠ -1 := by norm_num

/-- C182: in the dilute limit the pressure and the chemical potential of the polymers per unit osmotic
pressure are `1` and the inserted volume `(1 + q)^3`. -/
theorem C182_dilute (q : ℝ) (hq : q ≠ -1) : h 0 q = 1 ∧ g 0 q = 1 := by
  have h2 : 1 + q ≠ 0 := fun e => hq (by linarith)
  unfold h g beta1 beta Q Q1 A
  constructor
  · simp
  · simp [h2]

example : (0.1 : ℝ) ≠ -1 := by norm_num

end Phase
end Py
end Colloids
