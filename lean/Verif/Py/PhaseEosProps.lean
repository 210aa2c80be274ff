import Verif.Py.PhaseVolProps
import Mathlib.Analysis.Calculus.Deriv.ZPow
import Mathlib.Analysis.Calculus.Deriv.Inv

/-!
# Pressures of the equations of state and their derivatives (C183)
-/

namespace Colloids
namespace Py
namespace Phase

open Real

/-! ### Polynomials -/

theorem pval_foldl (l : List ℝ) (x y : ℝ) :
    l.foldl (fun y c => y * x + c) y = y * x ^ l.length + pval l x := by
  unfold pval
  induction l generalizing y with
  | nil => simp
  | cons c l ih =>
    simp only [List.foldl_cons, List.length_cons]
    rw [ih, ih (0 * x + c)]
    ring

theorem pval_nil (x : ℝ) : pval [] x = 0 := rfl

theorem pval_cons (c : ℝ) (l : List ℝ) (x : ℝ) :
    pval (c :: l) x = c * x ^ l.length + pval l x := by
  have : pval (c :: l) x = l.foldl (fun y c => y * x + c) (0 * x + c) := rfl
  rw [this, pval_foldl]
  ring

theorem pval_append (a b : List ℝ) (x : ℝ) :
    pval (a ++ b) x = pval a x * x ^ b.length + pval b x := by
  induction a with
  | nil => simp [pval_nil]
  | cons c a ih =>
    rw [List.cons_append, pval_cons, pval_cons, ih, List.length_append]
    ring

theorem pval_zeros (n : Nat) (x : ℝ) : pval (List.replicate n 0) x = 0 := by
  induction n with
  | zero => rfl
  | succ n ih => rw [List.replicate_succ, pval_cons, ih]; ring

theorem pval_scale (c : ℝ) (a : List ℝ) (x : ℝ) : pval (pscale c a) x = c * pval a x := by
  induction a with
  | nil => simp [pscale, pval_nil]
  | cons d a ih =>
    have : pscale c (d :: a) = c * d :: pscale c a := rfl
    rw [this, pval_cons, ih, pval_cons]
    simp only [pscale, List.length_map]
    ring

theorem pval_padTo (n : Nat) (a : List ℝ) (x : ℝ) : pval (padTo n a) x = pval a x := by
  unfold padTo
  rw [pval_append, pval_zeros]
  ring

theorem pval_zip (a b : List ℝ) (hab : a.length = b.length) (x : ℝ) :
    pval (List.zipWith (· + ·) a b) x = pval a x + pval b x := by
  induction a generalizing b with
  | nil =>
    cases b with
    | nil => simp [pval_nil]
    | cons _ _ => simp at hab
  | cons c a ih =>
    cases b with
    | nil => simp at hab
    | cons d b =>
      simp only [List.length_cons, Nat.add_right_cancel_iff] at hab
      rw [List.zipWith_cons_cons, pval_cons, pval_cons, pval_cons, ih b hab]
      simp only [List.length_zipWith, hab, min_self]
      ring

theorem pval_add (a b : List ℝ) (x : ℝ) : pval (padd a b) x = pval a x + pval b x := by
  unfold padd
  rw [pval_zip, pval_padTo, pval_padTo]
  simp only [padTo, List.length_append, List.length_replicate]
  omega

theorem pval_sub (a b : List ℝ) (x : ℝ) : pval (psub a b) x = pval a x - pval b x := by
  unfold psub
  rw [pval_add, pval_scale]
  ring

theorem pval_mul (a b : List ℝ) (x : ℝ) : pval (pmul a b) x = pval a x * pval b x := by
  induction a with
  | nil => simp [pmul, pval_nil]
  | cons c a ih =>
    rw [pmul, pval_add, ih, pval_append, pval_zeros, pval_scale, pval_cons]
    simp only [List.length_replicate]
    ring

theorem pval_pow (a : List ℝ) (n : Nat) (x : ℝ) : pval (ppow a n) x = pval a x ^ n := by
  induction n with
  | zero => simp [ppow, pval]
  | succ n ih => rw [ppow, pval_mul, ih, pow_succ]

theorem pderiv_length (l : List ℝ) : (pderiv l).length = l.length - 1 := by
  induction l with
  | nil => rfl
  | cons c l ih =>
    unfold pderiv
    by_cases hl : l = []
    · simp [hl]
    · rw [if_neg hl, List.length_cons, ih, List.length_cons]
      have := List.length_pos_iff.2 hl
      omega

theorem pval_hasDeriv (l : List ℝ) (x : ℝ) : HasDerivAt (pval l) (pval (pderiv l) x) x := by
  induction l with
  | nil => exact hasDerivAt_const x 0
  | cons c l ih =>
    have e : pval (c :: l) = fun x => c * x ^ l.length + pval l x := funext (pval_cons c l)
    rw [e]
    unfold pderiv
    by_cases hl : l = []
    · subst hl
      refine (((hasDerivAt_pow 0 x).const_mul c).add ih).congr_deriv ?_
      simp [pval, pderiv]
    · rw [if_neg hl, pval_cons, pderiv_length]
      refine (((hasDerivAt_pow l.length x).const_mul c).add ih).congr_deriv ?_
      ring

/-- C183: `numpy`'s polynomials as the module uses them: sums, products, powers and derivatives are
those of the functions. -/
theorem C183_poly1d (a b : List ℝ) (c x : ℝ) (n : Nat) :
    pval (padd a b) x = pval a x + pval b x ∧ pval (psub a b) x = pval a x - pval b x
    ∧ pval (pmul a b) x = pval a x * pval b x ∧ pval (ppow a n) x = pval a x ^ n
    ∧ pval (pscale c a) x = c * pval a x ∧ deriv (pval a) = pval (pderiv a) :=
  ⟨pval_add a b x, pval_sub a b x, pval_mul a b x, pval_pow a n x, pval_scale c a x,
    funext fun y => (pval_hasDeriv a y).deriv⟩

/-! ### The pressure of each class -/

/-- C183: the pressure times volume of Carnahan and Starling, of Kolafa and of Liu is the volume
fraction times the compressibility. -/
theorem C183_compressibility {f : ℝ} (hf : 0 ≤ f) :
    csPv0 f = f2vf f * csZ f ∧ kolafaPv0 f = f2vf f * kolafaZ f
    ∧ basePv0 liuZ f = f2vf f * liuZ f ∧ csZ 0 = 1 ∧ kolafaZ 0 = 1 ∧ liuZ 0 = 1 := by
  have h1 : 1 + f ≠ 0 := by linarith
  have h3 : 3 * f + 3 ≠ 0 := by linarith
  refine ⟨?_, ?_, rfl, by simp [csZ], by simp [kolafaZ], ?_⟩
  · unfold csPv0 f2vf csZ
    field_simp
    ring
  · unfold kolafaPv0 f2vf kolafaZ
    rw [show 3 * f + 3 = 3 * (1 + f) by ring]
    field_simp
    ring
  · have : pval liuP 0 = 0 := by
      unfold liuP
      rw [pval_append, pval_zeros]
      simp
    simp [liuZ, f2vf, this]

example : (0 : ℝ) ≤ 0.97 := by norm_num

theorem inv1_deriv {f : ℝ} (hf : 1 + f ≠ 0) (n : ℤ) :
    HasDerivAt (fun x : ℝ => (1 + x) ^ n) (n * (1 + f) ^ (n - 1)) f := by
  have := (hasDerivAt_zpow n (1 + f) (Or.inl hf)).comp f ((hasDerivAt_id f).const_add 1)
  simpa [Function.comp_def] using this

theorem f2vf_hasDeriv {f : ℝ} (hf : 1 + f ≠ 0) : HasDerivAt f2vf ((1 - f2vf f) ^ 2) f := by
  refine ((hasDerivAt_id f).div ((hasDerivAt_id f).const_add 1) hf).congr_deriv ?_
  unfold f2vf
  simp only [id]
  field_simp
  ring

theorem cs_hasDeriv {f : ℝ} (hf : 1 + f ≠ 0) : HasDerivAt csPv0 (csPv01 f) f := by
  have e := ((f2vf_hasDeriv hf).add ((hasDerivAt_pow 2 f).const_mul 4)).add
    ((hasDerivAt_pow 3 f).const_mul 2)
  refine e.congr_deriv ?_
  unfold csPv01 f2vf
  rw [show (-2 : ℤ) = -((2 : ℕ) : ℤ) from rfl, zpow_neg, zpow_natCast]
  push_cast
  field_simp
  ring

theorem cs_hasDeriv2 {f : ℝ} (hf : 1 + f ≠ 0) : HasDerivAt csPv01 (csPv02 f) f := by
  have e := ((inv1_deriv hf (-2)).add ((hasDerivAt_id f).const_mul 8)).add
    ((hasDerivAt_pow 2 f).const_mul 6)
  refine e.congr_deriv ?_
  unfold csPv02
  norm_num
  ring

theorem kolafa_hasDeriv {f : ℝ} (hf : 1 + f ≠ 0) : HasDerivAt kolafaPv0 (kolafaPv01 f) f := by
  have hn : HasDerivAt (fun f : ℝ => (3 + 15 * f + 30 * f ^ 2 + 25 * f ^ 3 + 5 * f ^ 4) * f)
      (3 + 30 * f + 90 * f ^ 2 + 100 * f ^ 3 + 25 * f ^ 4) f := by
    have := (((((hasDerivAt_id f).const_mul 15).const_add 3).add
      ((hasDerivAt_pow 2 f).const_mul 30)).add ((hasDerivAt_pow 3 f).const_mul 25)).add
      ((hasDerivAt_pow 4 f).const_mul 5)
    refine (this.mul (hasDerivAt_id f)).congr_deriv ?_
    simp only [id, Pi.add_apply]
    push_cast
    ring
  have hd : HasDerivAt (fun f : ℝ => (1 + f) ^ 2) (2 * (1 + f)) f := by
    have := ((hasDerivAt_id f).const_add 1).pow 2
    refine this.congr_deriv ?_
    simp
  refine ((hn.div hd (pow_ne_zero 2 hf)).div_const 3).congr_deriv ?_
  unfold kolafaPv01
  rw [show (-2 : ℤ) = -((2 : ℕ) : ℤ) from rfl, zpow_neg, zpow_natCast,
    show (-3 : ℤ) = -((3 : ℕ) : ℤ) from rfl, zpow_neg, zpow_natCast]
  field_simp
  ring

theorem kolafa_hasDeriv2 {f : ℝ} (hf : 1 + f ≠ 0) : HasDerivAt kolafaPv01 (kolafaPv02 f) f := by
  have e := (((((hasDerivAt_pow 2 f).const_mul 5).add ((hasDerivAt_id f).const_mul 10)).add
    ((inv1_deriv hf (-2)).const_mul 4)).sub ((inv1_deriv hf (-3)).const_mul (4 / 3))).sub_const (5 / 3)
  refine e.congr_deriv ?_
  unfold kolafaPv02
  norm_num
  ring

theorem lf_hasDeriv {f : ℝ} (hf : pval lfQ f ≠ 0) : HasDerivAt lfPv0 (lfPv01 f) f := by
  refine ((pval_hasDeriv lfP f).div (pval_hasDeriv lfQ f) hf).congr_deriv ?_
  unfold lfPv01
  rw [pval_sub, pval_mul, pval_mul, pval_pow]

theorem lf_hasDeriv2 {f : ℝ} (hf : pval lfQ f ≠ 0) : HasDerivAt lfPv01 (lfPv02 f) f := by
  have e : lfPv01 = fun f => (pval (pderiv lfP) f * pval lfQ f - pval lfP f * pval (pderiv lfQ) f)
      / pval lfQ f ^ 2 := by
    funext f
    unfold lfPv01
    rw [pval_sub, pval_mul, pval_mul, pval_pow]
  rw [e]
  have hn := ((pval_hasDeriv (pderiv lfP) f).mul (pval_hasDeriv lfQ f)).sub
    ((pval_hasDeriv lfP f).mul (pval_hasDeriv (pderiv lfQ) f))
  refine (hn.div ((pval_hasDeriv lfQ f).pow 2) (pow_ne_zero 2 hf)).congr_deriv ?_
  unfold lfPv02
  simp only [pval_sub, pval_mul, pval_pow, pval_add, pval_scale, Pi.sub_apply, Pi.mul_apply,
    Pi.pow_apply]
  generalize pval lfP f = a
  generalize pval lfQ f = b at hf ⊢
  generalize pval (pderiv lfP) f = a1
  generalize pval (pderiv lfQ) f = b1
  generalize pval (pderiv (pderiv lfP)) f = a2
  generalize pval (pderiv (pderiv lfQ)) f = b2
  field_simp
  push_cast
  ring

/-- pressure of Liu as a function of the volume fraction -/
noncomputable def liuPhi (phi : ℝ) : ℝ :=
  phi * ((1 + phi / pval liuQ phi) + liuC * phi / (1 - liuA * phi) + pval liuP phi)

theorem pval_x (x : ℝ) : pval [1, 0] x = x := by simp [pval]

theorem liu_phi_hasDeriv {p : ℝ} (hq : pval liuQ p ≠ 0) (ha : 1 - liuA * p ≠ 0) :
    HasDerivAt liuPhi (liuPhi1 p) p := by
  have e : liuPhi = fun p => p + p ^ 2 / pval liuQ p + liuC * p ^ 2 / (1 - liuA * p)
      + pval (pmul liuP [1, 0]) p := by
    funext p
    unfold liuPhi
    rw [pval_mul, pval_x]
    ring
  rw [e]
  have d1 := ((hasDerivAt_id p).add ((hasDerivAt_pow 2 p).div (pval_hasDeriv liuQ p) hq))
  have d2 := ((hasDerivAt_pow 2 p).const_mul liuC).div
    (((hasDerivAt_id p).const_mul liuA).const_sub 1) ha
  refine ((d1.add d2).add (pval_hasDeriv _ p)).congr_deriv ?_
  unfold liuPhi1
  simp only [pval_sub, pval_mul, pval_pow, pval_scale, pval_x, id]
  generalize pval liuQ p = b at hq
  generalize pval (pderiv liuQ) p = b1
  generalize pval (pderiv (pmul liuP [1, 0])) p = c
  push_cast
  field_simp
  ring

theorem liu_phi_hasDeriv2 {p : ℝ} (hq : pval liuQ p ≠ 0) (ha : 1 - liuA * p ≠ 0) :
    HasDerivAt liuPhi1 (liuPhi2 p) p := by
  have e : liuPhi1 = fun p => 1 + (2 * p * pval liuQ p - p ^ 2 * pval (pderiv liuQ) p)
      / pval liuQ p ^ 2 + liuC * (2 * p - liuA * p ^ 2) / (1 - liuA * p) ^ 2
      + pval (pderiv (pmul liuP [1, 0])) p := by
    funext p
    unfold liuPhi1
    simp only [pval_sub, pval_mul, pval_pow, pval_scale, pval_x]
    ring
  rw [e]
  have n1 := (((hasDerivAt_id p).const_mul 2).mul (pval_hasDeriv liuQ p)).sub
    ((hasDerivAt_pow 2 p).mul (pval_hasDeriv (pderiv liuQ) p))
  have d1 := (n1.div ((pval_hasDeriv liuQ p).pow 2) (pow_ne_zero 2 hq)).const_add 1
  have n2 := (((hasDerivAt_id p).const_mul 2).sub ((hasDerivAt_pow 2 p).const_mul liuA)).const_mul liuC
  have d2 := n2.div ((((hasDerivAt_id p).const_mul liuA).const_sub 1).pow 2) (pow_ne_zero 2 ha)
  refine ((d1.add d2).add (pval_hasDeriv _ p)).congr_deriv ?_
  unfold liuPhi2
  have e2 : pval [2, 0, 0] p = 2 * p ^ 2 := by simp [pval]; ring
  have e1 : pval [1, 0, 0] p = p ^ 2 := by simp [pval]; ring
  have e4 : pval [4, 0] p = 4 * p := by simp [pval]
  simp only [pval_sub, pval_mul, pval_pow, pval_scale, pval_add, e2, e1, e4, id, Pi.sub_apply,
    Pi.mul_apply, Pi.pow_apply]
  generalize pval liuQ p = b at hq
  generalize pval (pderiv liuQ) p = b1
  generalize pval (pderiv (pderiv liuQ)) p = b2
  generalize pval (pderiv (pderiv (pmul liuP [1, 0]))) p = c
  push_cast
  field_simp
  ring

theorem liu_pv0 : basePv0 liuZ = fun f => liuPhi (f2vf f) := rfl

theorem liu_hasDeriv {f : ℝ} (hf : 1 + f ≠ 0) (hq : pval liuQ (f2vf f) ≠ 0)
    (ha : 1 - liuA * f2vf f ≠ 0) : HasDerivAt (basePv0 liuZ) (liuPv01 f) f := by
  rw [liu_pv0]
  exact (liu_phi_hasDeriv hq ha).comp f (f2vf_hasDeriv hf)

theorem liu_hasDeriv2 {f : ℝ} (hf : 1 + f ≠ 0) (hq : pval liuQ (f2vf f) ≠ 0)
    (ha : 1 - liuA * f2vf f ≠ 0) : HasDerivAt liuPv01 (liuPv02 f) f := by
  have d1 := (liu_phi_hasDeriv2 hq ha).comp f (f2vf_hasDeriv hf)
  have d2 := ((f2vf_hasDeriv hf).const_sub 1).pow 2
  refine (d1.mul d2).congr_deriv ?_
  unfold liuPv02
  simp only [Function.comp_apply, Pi.pow_apply]
  push_cast
  ring

theorem f2vf_lt {f v : ℝ} (h0 : 0 ≤ f) (hv0 : 0 ≤ v) (hv1 : v < 1) (h1 : f < vf2f v) : f2vf f < v := by
  have m := (C181_fraction 0 0).2.2.2.2
  have := m h0 ((C181_fraction 0 v).2.2.2.1 hv0 hv1) h1
  rwa [(C181_fraction 0 v).2.1 hv1.ne] at this

/-- the denominators of Liu do not vanish below the packing it is fitted for -/
theorem liu_defined {f : ℝ} (h0 : 0 ≤ f) (h1 : f < vf2f 0.635584) :
    pval liuQ (f2vf f) ≠ 0 ∧ 1 - liuA * f2vf f ≠ 0 := by
  have hp0 := ((C181_fraction f 0).2.2.1 h0).1
  have hp1 : f2vf f < 0.635584 := f2vf_lt h0 (by norm_num) (by norm_num) h1
  generalize f2vf f = p at *
  constructor
  · unfold liuQ
    rw [pval_scale]
    apply mul_ne_zero (by norm_num)
    have e : pval [-0.16012, -0.172284, 1.9499, -2.5848, 1] p
        = 1 - 2.5848 * p + 1.9499 * p ^ 2 - 0.172284 * p ^ 3 - 0.16012 * p ^ 4 := by
      simp [pval]; ring
    rw [e]
    apply ne_of_gt
    have h64 : p ≤ 0.64 := by norm_num at hp1 ⊢; linarith
    have e3 : p ^ 3 ≤ 0.64 * p ^ 2 := by nlinarith [sq_nonneg p]
    have e4 : p ^ 4 ≤ 0.4096 * p ^ 2 := by nlinarith [sq_nonneg p, mul_nonneg hp0 (sq_nonneg p)]
    norm_num at *
    nlinarith [sq_nonneg (p - 0.7285)]
  · unfold liuA
    intro h
    have : 1 / 0.635584 * p < 1 := by
      rw [one_div_mul_eq_div, div_lt_one (by norm_num)]; exact hp1
    linarith

/-- the denominator of Le Fevre is negative up to `1.7515` (random close packing is at `1.7515...`) -/
theorem lf_defined {f : ℝ} (h0 : 0 ≤ f) (h1 : f ≤ 1.7515) : pval lfQ f < 0 := by
  obtain ⟨u, hu⟩ : ∃ u : ℝ, f = 1.7515 * u := ⟨f / 1.7515, by field_simp⟩
  have hu0 : 0 ≤ u := by norm_num at hu h1; linarith
  have hu1 : 0 ≤ 1 - u := by norm_num at hu h1; linarith
  have e : pval lfQ f = -(103357/125000 * (1-u)^6 + 13159664031/2000000000 * (u * (1-u)^5)
      + 831784923644447/40000000000000 * (u^2 * (1-u)^4)
      + 32945409362261633/800000000000000 * (u^3 * (1-u)^3)
      + 9523806247113139813/320000000000000000 * (u^4 * (1-u)^2)
      + 103978505502250566353971/3200000000000000000000 * (u^5 * (1-u))
      + 1817632965497537521/3200000000000000000000 * u^6) := by
    rw [hu]
    simp only [pval, lfQ, List.foldl_cons, List.foldl_nil]
    norm_num only
    ring
  rw [e, neg_lt_zero]
  by_cases hu' : u = 0
  · subst hu'; norm_num
  · have : 0 < u := lt_of_le_of_ne hu0 (Ne.symm hu')
    positivity

/-- C183: `pv_0_1` and `pv_0_2` of Carnahan and Starling and of Kolafa are the first and second
derivatives of `pv_0`; `pv_0_ratio` is their ratio. -/
theorem C183_derivatives (lg : ℝ → ℝ) {f : ℝ} (hf : 0 ≤ f) (E : EOS)
    (hE : E = carnahanStarling lg ∨ E = kolafa lg) :
    deriv E.pv0 f = E.pv01 f ∧ deriv (deriv E.pv0) f = E.pv02 f ∧ E.ratio f = E.pv02 f / E.pv01 f := by
  have h1 : 1 + f ≠ 0 := by linarith
  have hn : ∀ᶠ x in nhds f, 1 + x ≠ 0 := by
    filter_upwards [lt_mem_nhds (show (-1 : ℝ) < f by linarith)] with x hx
    linarith
  rcases hE with rfl | rfl
  · refine ⟨(cs_hasDeriv h1).deriv, ?_, rfl⟩
    have : deriv csPv0 =ᶠ[nhds f] csPv01 := by
      filter_upwards [hn] with x hx using (cs_hasDeriv hx).deriv
    exact this.deriv_eq.trans (cs_hasDeriv2 h1).deriv
  · refine ⟨(kolafa_hasDeriv h1).deriv, ?_, rfl⟩
    have : deriv kolafaPv0 =ᶠ[nhds f] kolafaPv01 := by
      filter_upwards [hn] with x hx using (kolafa_hasDeriv hx).deriv
    exact this.deriv_eq.trans (kolafa_hasDeriv2 h1).deriv

example : (0 : ℝ) ≤ 0.97 ∧ (kolafa logOnePlusX = carnahanStarling logOnePlusX
    ∨ kolafa logOnePlusX = kolafa logOnePlusX) := ⟨by norm_num, Or.inr rfl⟩

/-- C183: the same for Le Fevre, between zero and random close packing. -/
theorem C183_leFevre (lg : ℝ → ℝ) {f : ℝ} (h0 : 0 < f) (h1 : f < 1.7515) :
    deriv (leFevre lg).pv0 f = (leFevre lg).pv01 f
    ∧ deriv (deriv (leFevre lg).pv0) f = (leFevre lg).pv02 f
    ∧ (leFevre lg).ratio f = (leFevre lg).pv02 f / (leFevre lg).pv01 f := by
  have hq := (lf_defined h0.le h1.le).ne
  refine ⟨(lf_hasDeriv hq).deriv, ?_, rfl⟩
  have : deriv lfPv0 =ᶠ[nhds f] lfPv01 := by
    filter_upwards [Ioo_mem_nhds h0 h1] with x hx
    exact (lf_hasDeriv (lf_defined hx.1.le hx.2.le).ne).deriv
  exact this.deriv_eq.trans (lf_hasDeriv2 hq).deriv

example : (0 : ℝ) < 1.5 ∧ (1.5 : ℝ) < 1.7515 := by norm_num

/-- C183: every fluid is an ideal gas at vanishing packing: no pressure, of slope one, and the second
coefficient is that of hard spheres (`6` is `2 (B2 - 1)` with `B2 = 4`), but for the rounded coefficients of
Le Fevre. -/
theorem C183_ideal_gas (lg : ℝ → ℝ) :
    (∀ E : EOS, E = carnahanStarling lg ∨ E = kolafa lg → E.pv0 0 = 0 ∧ E.pv01 0 = 1 ∧ E.pv02 0 = 6)
    ∧ (leFevre lg).pv0 0 = 0 ∧ (leFevre lg).pv01 0 = 1 ∧ |(leFevre lg).pv02 0 - 6| < 1e-3
    ∧ (carnahanStarling2 lg).pv0 0 = 0 ∧ (liu lg).pv0 0 = 0 := by
  refine ⟨?_, ?_, ?_, ?_, ?_, ?_⟩
  · rintro E (rfl | rfl)
    · show csPv0 0 = 0 ∧ csPv01 0 = 1 ∧ csPv02 0 = 6
      unfold csPv0 csPv01 csPv02
      norm_num
    · show kolafaPv0 0 = 0 ∧ kolafaPv01 0 = 1 ∧ kolafaPv02 0 = 6
      unfold kolafaPv0 kolafaPv01 kolafaPv02
      norm_num
  · show lfPv0 0 = 0
    unfold lfPv0
    norm_num [pval, lfP]
  · show lfPv01 0 = 1
    unfold lfPv01
    simp only [pval_sub, pval_mul, pval_pow]
    simp only [pval, lfP, lfQ, pderiv, reduceCtorEq, if_false, if_true, List.foldl_cons, List.foldl_nil]
    norm_num
  · show |lfPv02 0 - 6| < 1e-3
    unfold lfPv02
    simp only [pval_sub, pval_mul, pval_pow, pval_add, pval_scale]
    simp only [pval, lfP, lfQ, pderiv, reduceCtorEq, if_false, if_true, List.foldl_cons, List.foldl_nil]
    norm_num [abs_lt]
  · show basePv0 csZ 0 = 0
    simp [basePv0]
  · show basePv0 liuZ 0 = 0
    simp [basePv0]

/-- C183: the same for Liu, whose derivatives are first taken with respect to the volume fraction. -/
theorem C183_liu (lg : ℝ → ℝ) {f : ℝ} (h0 : 0 < f) (h1 : f < (liu lg).maxf) :
    deriv (liu lg).pv0 f = (liu lg).pv01 f
    ∧ deriv (deriv (liu lg).pv0) f = (liu lg).pv02 f
    ∧ ((liu lg).pv01 f ≠ 0 → (liu lg).ratio f = (liu lg).pv02 f / (liu lg).pv01 f) := by
  have h1' : f < vf2f 0.635584 := h1
  have hf : 1 + f ≠ 0 := by linarith
  obtain ⟨hq, ha⟩ := liu_defined h0.le h1'
  refine ⟨(liu_hasDeriv hf hq ha).deriv, ?_, fun hne => ?_⟩
  · have : deriv (basePv0 liuZ) =ᶠ[nhds f] liuPv01 := by
      filter_upwards [Ioo_mem_nhds h0 h1'] with x hx
      obtain ⟨hq, ha⟩ := liu_defined hx.1.le hx.2
      exact (liu_hasDeriv (by linarith [hx.1]) hq ha).deriv
    exact this.deriv_eq.trans (liu_hasDeriv2 hf hq ha).deriv
  · have hne' : liuPhi1 (f2vf f) * (1 - f2vf f) ^ 2 ≠ 0 := hne
    show liuRatio f = liuPv02 f / liuPv01 f
    unfold liuRatio liuPv02 liuPv01
    have h2 : liuPhi1 (f2vf f) ≠ 0 := left_ne_zero_of_mul hne'
    have h3 : 1 - f2vf f ≠ 0 := fun e => hne' (by rw [e]; ring)
    field_simp

example : (0 : ℝ) < 1 ∧ (1 : ℝ) < (liu logOnePlusX).maxf := by
  refine ⟨by norm_num, ?_⟩
  show (1 : ℝ) < vf2f 0.635584
  unfold vf2f
  norm_num

/-- C183: the second class of Carnahan and Starling has the same pressure; the finite differences it
inherits are within `4 10^-12` and `10^-11` of the derivatives. -/
theorem C183_numeric (lg : ℝ → ℝ) {f : ℝ} (hf : 0 ≤ f) :
    (carnahanStarling2 lg).pv0 f = (carnahanStarling lg).pv0 f
    ∧ |(carnahanStarling2 lg).pv01 f - (carnahanStarling lg).pv01 f| ≤ 4e-12
    ∧ |(carnahanStarling2 lg).pv02 f - (carnahanStarling lg).pv02 f| ≤ 1e-11 := by
  have e0 : ∀ x : ℝ, 1 + x ≠ 0 → basePv0 csZ x = 1 - 1 / (1 + x) + 4 * x ^ 2 + 2 * x ^ 3 := by
    intro x hx
    unfold basePv0 csZ
    field_simp
    ring
  obtain ⟨s, hs⟩ : ∃ s, s = 1 + f := ⟨_, rfl⟩
  have hs1 : 1 ≤ s := by linarith
  have hfs : f = s - 1 := by linarith
  refine ⟨?_, ?_, ?_⟩
  · exact ((C183_compressibility hf).1).symm
  · show |derivative1 (basePv0 csZ) 1e-6 f - csPv01 f| ≤ 4e-12
    obtain ⟨d, hd⟩ : ∃ d : ℝ, d = 1e-6 := ⟨_, rfl⟩
    have hd0 : 0 < d := by rw [hd]; norm_num
    have hd1 : d ≤ 0.1 := by rw [hd]; norm_num
    norm_num at hd1
    have k1 : s - d ≠ 0 := by linarith
    have k2 : s + d ≠ 0 := by linarith
    have k3 : s ≠ 0 := by linarith
    have k4 : s ^ 2 - d ^ 2 ≠ 0 := by
      rw [show s ^ 2 - d ^ 2 = (s - d) * (s + d) by ring]; exact mul_ne_zero k1 k2
    have e : derivative1 (basePv0 csZ) 1e-6 f - csPv01 f
        = 2 * d ^ 2 + d ^ 2 / (s ^ 2 * (s ^ 2 - d ^ 2)) := by
      rw [← hd]
      unfold derivative1 csPv01
      rw [hfs, e0 _ (by rw [show 1 + (s - 1 - d) = s - d by ring]; exact k1),
        e0 _ (by rw [show 1 + (s - 1 + d) = s + d by ring]; exact k2),
        show 1 + (s - 1 - d) = s - d by ring, show 1 + (s - 1 + d) = s + d by ring,
        show 1 + (s - 1) = s by ring, show (-2 : ℤ) = -((2 : ℕ) : ℤ) from rfl, zpow_neg, zpow_natCast,
        show s ^ 2 - d ^ 2 = (s - d) * (s + d) by ring]
      field_simp
      ring
    rw [e]
    have hden : 0.9 ≤ s ^ 2 * (s ^ 2 - d ^ 2) := by
      have : 1 ≤ s ^ 2 := one_le_pow₀ hs1
      have hd2 : d ^ 2 ≤ 0.1 := by rw [hd]; norm_num
      have : (1 : ℝ) * 0.9 ≤ s ^ 2 * (s ^ 2 - d ^ 2) :=
        mul_le_mul this (by norm_num at hd2 ⊢; linarith) (by norm_num) (by positivity)
      rwa [one_mul] at this
    have hpos : 0 < s ^ 2 * (s ^ 2 - d ^ 2) := lt_of_lt_of_le (by norm_num) hden
    have hle : d ^ 2 / (s ^ 2 * (s ^ 2 - d ^ 2)) ≤ d ^ 2 / 0.9 :=
      div_le_div_of_nonneg_left (sq_nonneg d) (by norm_num) hden
    rw [abs_of_nonneg (by positivity)]
    rw [hd] at hle ⊢
    norm_num at hle ⊢
    linarith
  · show |derivative2 (basePv0 csZ) 1e-3 f - csPv02 f| ≤ 1e-11
    obtain ⟨d, hd⟩ : ∃ d : ℝ, d = 1e-3 := ⟨_, rfl⟩
    have hd0 : 0 < d := by rw [hd]; norm_num
    have hd1 : d ≤ 0.1 := by rw [hd]; norm_num
    norm_num at hd1
    have k1 : s - d ≠ 0 := by linarith
    have k2 : s + d ≠ 0 := by linarith
    have k3 : s ≠ 0 := by linarith
    have k5 : s - 2 * d ≠ 0 := by linarith
    have k6 : s + 2 * d ≠ 0 := by linarith
    have e : derivative2 (basePv0 csZ) 1e-3 f - csPv02 f
        = 8 * d ^ 4 / (s ^ 3 * ((s - 2 * d) * (s + 2 * d)) * ((s - d) * (s + d))) := by
      rw [← hd]
      unfold derivative2 csPv02
      rw [hfs, e0 (s - 1 - d) (by rw [show 1 + (s - 1 - d) = s - d by ring]; exact k1),
        e0 (s - 1 + d) (by rw [show 1 + (s - 1 + d) = s + d by ring]; exact k2),
        e0 (s - 1 - 2 * d) (by rw [show 1 + (s - 1 - 2 * d) = s - 2 * d by ring]; exact k5),
        e0 (s - 1 + 2 * d) (by rw [show 1 + (s - 1 + 2 * d) = s + 2 * d by ring]; exact k6),
        e0 (s - 1) (by rw [show 1 + (s - 1) = s by ring]; exact k3),
        show 1 + (s - 1 - d) = s - d by ring, show 1 + (s - 1 + d) = s + d by ring,
        show 1 + (s - 1 - 2 * d) = s - 2 * d by ring, show 1 + (s - 1 + 2 * d) = s + 2 * d by ring,
        show 1 + (s - 1) = s by ring, show (-3 : ℤ) = -((3 : ℕ) : ℤ) from rfl, zpow_neg, zpow_natCast]
      field_simp
      ring
    rw [e]
    have hden : 0.9 ≤ s ^ 3 * ((s - 2 * d) * (s + 2 * d)) * ((s - d) * (s + d)) := by
      have h3 : 1 ≤ s ^ 3 := one_le_pow₀ hs1
      have hsq : 1 ≤ s ^ 2 := one_le_pow₀ hs1
      have hA : 0.95 ≤ (s - 2 * d) * (s + 2 * d) := by
        have : 4 * d ^ 2 ≤ 0.05 := by rw [hd]; norm_num
        norm_num at this ⊢
        nlinarith
      have hB : 0.95 ≤ (s - d) * (s + d) := by
        have : d ^ 2 ≤ 0.05 := by rw [hd]; norm_num
        norm_num at this ⊢
        nlinarith
      have : (1 * 0.95) * 0.95 ≤ s ^ 3 * ((s - 2 * d) * (s + 2 * d)) * ((s - d) * (s + d)) := by
        apply mul_le_mul (mul_le_mul h3 hA (by norm_num) (by positivity)) hB (by norm_num)
        apply mul_nonneg (by positivity)
        linarith [show (0 : ℝ) ≤ 0.95 by norm_num]
      norm_num at this ⊢
      linarith
    have hpos := lt_of_lt_of_le (show (0 : ℝ) < 0.9 by norm_num) hden
    have hle := div_le_div_of_nonneg_left (show 0 ≤ 8 * d ^ 4 by positivity)
      (show (0 : ℝ) < 0.9 by norm_num) hden
    rw [abs_of_nonneg (div_nonneg (by positivity) hpos.le)]
    refine hle.trans ?_
    rw [hd]
    norm_num

example : (0 : ℝ) ≤ 0.97 := by norm_num

/-- C183: in the class of the crystal, `Z` and `pv_0` are two different equations of state: at a volume
fraction of 0.7 the pressure from `Z` is larger than 39, that of `pv_0` smaller than 38.5. -/
theorem C183_hall_counterexample :
    hall.pv0 (vf2f 0.7) < 38.5 ∧ 39 < f2vf (vf2f 0.7) * hallZ (vf2f 0.7) := by
  obtain ⟨h1, h2, h3, h4, -⟩ := C181_close_packing
  have e7 : f2vf (vf2f 0.7) = 0.7 := (C181_fraction 0 0.7).2.1 (by norm_num)
  constructor
  · show hallPv0 (vf2f 0.7) < 38.5
    unfold hallPv0
    have hi : 1 / etaCp < 1 / 0.74048 := one_div_lt_one_div_of_lt (by norm_num) h1
    have e : 1 / vf2f 0.7 = 3 / 7 := by unfold vf2f; norm_num
    rw [e, h4]
    have hp : 0.078 < 3 / 7 - (1 / etaCp - 1) := by norm_num at hi ⊢; linarith
    rw [div_lt_iff₀ (lt_trans (by norm_num) hp)]
    norm_num at hp ⊢
    linarith
  · unfold hallZ
    simp only [e7, h3]
    have hx : exp ((etaCp - 0.7) * (7.9 - 3.9 * (etaCp - 0.7))) ≤ 1.4566 := by
      have hle : (etaCp - 0.7) * (7.9 - 3.9 * (etaCp - 0.7)) ≤ 0.31344 := by
        norm_num at h1 h2 ⊢
        nlinarith
      have : exp 0.31344 ≤ 1.4566 := by
        have := Real.add_one_le_exp (-0.31344)
        rw [Real.exp_neg] at this
        have hp := Real.exp_pos 0.31344
        have h := mul_le_mul_of_nonneg_right this hp.le
        rw [inv_mul_cancel₀ hp.ne'] at h
        norm_num at h ⊢
        linarith
      exact (exp_le_exp.2 hle).trans this
    generalize exp ((etaCp - 0.7) * (7.9 - 3.9 * (etaCp - 0.7))) = x at hx
    rw [← mul_div_assoc, lt_div_iff₀ (by norm_num)]
    norm_num at hx ⊢
    linarith

/-- C183: without polymers the pressure of the fluids of Carnahan and Starling and of Kolafa grows with
the packing: a fluid alone does not separate. -/
theorem C183_increasing (lg : ℝ → ℝ) (E : EOS) (hE : E = carnahanStarling lg ∨ E = kolafa lg) :
    (∀ f, 0 ≤ f → 0 < E.pv01 f) ∧ StrictMonoOn E.pv0 (Set.Ici 0) := by
  have key : ∀ f, 0 ≤ f → 0 < E.pv01 f := by
    intro f hf
    rcases hE with rfl | rfl
    · show 0 < csPv01 f
      unfold csPv01
      have : 0 < (1 + f) ^ (-2 : ℤ) := zpow_pos (by linarith) _
      positivity
    · show 0 < kolafaPv01 f
      obtain ⟨i, hi⟩ : ∃ i, i = (1 + f)⁻¹ := ⟨_, rfl⟩
      have hs : 0 < 1 + f := by linarith
      have hi0 : 0 < i := by rw [hi]; positivity
      have hi1 : i ≤ 1 := by rw [hi]; exact inv_le_one_of_one_le₀ (by linarith)
      have e : i * (1 + f) = 1 := by rw [hi]; exact inv_mul_cancel₀ hs.ne'
      unfold kolafaPv01
      rw [show (-2 : ℤ) = -((2 : ℕ) : ℤ) from rfl, zpow_neg, zpow_natCast,
        show (-3 : ℤ) = -((3 : ℕ) : ℤ) from rfl, zpow_neg, zpow_natCast, ← inv_pow, ← inv_pow, ← hi]
      have hf1 : f = (1 - i) / i := by field_simp; linarith
      have h3 : i ^ 3 ≤ i ^ 2 := by nlinarith [sq_nonneg i]
      have hi2 : 1 - 2 * f ≤ i ^ 2 := by
        have : 1 - f ≤ i := by nlinarith
        nlinarith
      nlinarith
  refine ⟨key, ?_⟩
  have hd : ∀ f, 0 ≤ f → HasDerivAt E.pv0 (E.pv01 f) f := by
    intro f hf
    rcases hE with rfl | rfl
    · exact cs_hasDeriv (by linarith)
    · exact kolafa_hasDeriv (by linarith)
  apply strictMonoOn_of_deriv_pos (convex_Ici 0)
  · intro f hf
    exact (hd f hf).continuousAt.continuousWithinAt
  · intro f hf
    rw [interior_Ici] at hf
    rw [(hd f hf.le).deriv]
    exact key f hf.le

example : carnahanStarling logOnePlusX = carnahanStarling logOnePlusX
    ∨ carnahanStarling logOnePlusX = kolafa logOnePlusX := Or.inl rfl

end Phase
end Py
end Colloids
