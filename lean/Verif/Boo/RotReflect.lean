import Verif.Boo.RotProps2

/-! # C84 : reflections of the bond order tensors -/

namespace Colloids
namespace Boo
open ComplexConjugate Finset

/-- The axis around which `reflect` effectively turns: the azimuth of the normal is lost. -/
noncomputable def lostAxis (n : Fin 3 → ℝ) : Fin 3 → ℝ := ![-√(n 0 ^ 2 + n 1 ^ 2), 0, |n 2|]

theorem lostAxis_len (n : Fin 3 → ℝ) : len (lostAxis n) = len n := by
  unfold len lostAxis
  refine congrArg Real.sqrt ?_
  show (-√(n 0 ^ 2 + n 1 ^ 2)) ^ 2 + 0 ^ 2 + |n 2| ^ 2 = _
  rw [neg_sq, Real.sq_sqrt (by positivity), sq_abs]
  ring

theorem lostAxis_ne {n : Fin 3 → ℝ} (hn : n ≠ 0) : lostAxis n ≠ 0 := by
  intro h
  have h1 := lostAxis_len n
  have h2 := len_pos hn
  rw [h] at h1
  have : len (0 : Fin 3 → ℝ) = 0 := by unfold len; simp
  rw [this] at h1
  linarith

theorem reflect_dir {n : Fin 3 → ℝ} (hn : n ≠ 0) :
    Real.cos (thOf n) = lostAxis n 2 / len n ∧ Real.sin (thOf n) = -(lostAxis n 0 / len n) := by
  have hup2 : upward n 2 = |n 2| := by
    unfold upward
    split
    · rw [abs_of_neg (by assumption)]; ring
    · rw [abs_of_nonneg (by linarith)]; ring
  have hup : upward n ≠ 0 := by
    intro h
    apply hn
    funext i
    have := congrFun h i
    unfold upward at this
    split at this <;> simpa using this
  have hlen : len (upward n) = len n := by
    unfold upward
    apply len_smul
    split <;> norm_num
  obtain ⟨h0, hpi, e, _, he, hc, _⟩ := c2s_dir hup
  rw [he (by rw [hup2]; exact abs_nonneg _), one_mul, hup2, hlen] at hc
  have hsin : 0 ≤ Real.sin (thOf n) := Real.sin_nonneg_of_nonneg_of_le_pi h0 hpi
  have hc' : Real.cos (thOf n) = |n 2| / len n := hc
  refine ⟨hc', ?_⟩
  have hp := len_pos hn
  have hsq := len_sq n
  have h1 := Real.sin_sq_add_cos_sq (thOf n)
  have h2 : Real.sin (thOf n) ^ 2 = (√(n 0 ^ 2 + n 1 ^ 2) / len n) ^ 2 := by
    rw [div_pow, Real.sq_sqrt (by positivity)]
    rw [hc', div_pow, sq_abs] at h1
    have : (n 0 ^ 2 + n 1 ^ 2) / len n ^ 2 + n 2 ^ 2 / len n ^ 2 = 1 := by
      rw [← add_div, ← hsq]
      field_simp
    linarith
  have h3 := (pow_left_inj₀ hsin (by positivity) (by norm_num)).1 h2
  rw [h3]
  show _ = -(-√(n 0 ^ 2 + n 1 ^ 2) / len n)
  ring

theorem gen_alt (l : Nat) (q : Int → ℂ) (x y : ℂ) :
    gen l (fun m => (-1) ^ m * q m) x y = gen l q (-Complex.I * x) (Complex.I * y) := by
  have h := gen_phase Real.pi l q x y
  have e1 : Complex.exp (-(Real.pi : ℂ) * Complex.I) = -1 := by
    rw [neg_mul, Complex.exp_neg, Complex.exp_pi_mul_I]; norm_num
  have e2 : Complex.exp ((Real.pi : ℂ) / 2 * Complex.I) = Complex.I := Complex.exp_pi_div_two_mul_I
  have e3 : Complex.exp (-((Real.pi : ℂ) / 2) * Complex.I) = -Complex.I := by
    rw [neg_mul, Complex.exp_neg, e2, Complex.inv_I]
  rw [e1, e2, e3] at h
  exact h

theorem realC_alt {l : Nat} {q : Int → ℂ} (h : RealC l q) : RealC l (fun m => (-1) ^ m * q m) := by
  intro m hm
  have := h m hm
  unfold conjC at this ⊢
  beta_reduce
  rw [map_mul, map_zpow₀, map_neg, map_one, ← this]
  have e : ((-1 : ℂ)) ^ (-m) = (-1) ^ m := by
    rw [zpow_neg, ← inv_zpow]; norm_num
  rw [e]

theorem gen_reflect {n : Fin 3 → ℝ} (hn : n ≠ 0) {l : Nat} (h2 : 2 ∣ l) (q : Int → ℂ) (x y : ℂ) :
    gen l (rotC 0 (-thOf n) (-phOf n) l (fun m => (-1) ^ m * rotC (phOf n) (thOf n) 0 l q m)) x y
      = gen l (hT (lostAxis n) l q) x y := by
  rw [gen_rotC, gen_alt, gen_rotC, gen_hT (lostAxis_ne hn) h2, lostAxis_len]
  obtain ⟨hc, hs⟩ := reflect_dir hn
  have hs' : lostAxis n 0 / len n = -Real.sin (thOf n) := by rw [hs]; ring
  have h1 : lostAxis n 1 = 0 := rfl
  rw [← hc, hs', h1]
  have hcos : Real.cos (thOf n) = Real.cos (thOf n / 2) ^ 2 - Real.sin (thOf n / 2) ^ 2 := by
    rw [← Real.cos_two_mul']; congr 1; ring
  have hsin : Real.sin (thOf n) = 2 * Real.sin (thOf n / 2) * Real.cos (thOf n / 2) := by
    rw [← Real.sin_two_mul]; congr 1; ring
  have hE : Complex.exp ((phOf n : ℂ) / 2 * Complex.I) * Complex.exp (-((phOf n : ℂ) / 2) * Complex.I)
      = 1 := by
    rw [← Complex.exp_add]
    simp
  have hconj : ∀ t : ℝ, conj (Complex.exp (((t : ℂ) / 2) * Complex.I))
      = Complex.exp (-((t : ℂ) / 2) * Complex.I) := by
    intro t
    have := conj_expI (t / 2)
    push_cast at this
    exact this
  have hconj' : ∀ t : ℝ, conj (Complex.exp (-((t : ℂ) / 2) * Complex.I))
      = Complex.exp (((t : ℂ) / 2) * Complex.I) := by
    intro t
    rw [← hconj, Complex.conj_conj]
  have a1 : rotA 0 (-thOf n) (-phOf n)
      = Complex.exp ((phOf n : ℂ) / 2 * Complex.I) * Real.cos (thOf n / 2) := by
    unfold rotA
    rw [neg_div, Real.cos_neg]
    push_cast
    rw [show -(-(phOf n : ℂ) / 2) * Complex.I = (phOf n : ℂ) / 2 * Complex.I by ring]
    simp
  have b1 : rotB 0 (-thOf n) (-phOf n)
      = -(Complex.exp ((phOf n : ℂ) / 2 * Complex.I) * Real.sin (thOf n / 2)) := by
    unfold rotB
    rw [neg_div, Real.sin_neg]
    push_cast
    rw [show -(-(phOf n : ℂ) / 2) * Complex.I = (phOf n : ℂ) / 2 * Complex.I by ring]
    simp
  have a2 : rotA (phOf n) (thOf n) 0
      = Complex.exp (-((phOf n : ℂ) / 2) * Complex.I) * Real.cos (thOf n / 2) := by
    unfold rotA
    simp
    ring
  have b2 : rotB (phOf n) (thOf n) 0
      = Complex.exp ((phOf n : ℂ) / 2 * Complex.I) * Real.sin (thOf n / 2) := by
    unfold rotB
    simp
    ring
  rw [a1, b1, a2, b2, hcos, hsin]
  simp only [map_neg, map_mul, Complex.conj_ofReal, hconj, hconj']
  generalize Complex.exp ((phOf n : ℂ) / 2 * Complex.I) = E at hE ⊢
  generalize Complex.exp (-((phOf n : ℂ) / 2) * Complex.I) = F at hE ⊢
  generalize Real.cos (thOf n / 2) = c
  generalize Real.sin (thOf n / 2) = s
  have key := gen_smul l q (-Complex.I) ((((c ^ 2 - s ^ 2 : ℝ)) : ℂ) * x
          + (((-(2 * s * c) : ℝ) : ℂ) - ((0 / len n : ℝ) : ℂ) * Complex.I) * y)
        ((((-(2 * s * c) : ℝ) : ℂ) + ((0 / len n : ℝ) : ℂ) * Complex.I) * x
          - ((c ^ 2 - s ^ 2 : ℝ) : ℂ) * y)
  have hpow : (-Complex.I) ^ (2 * l) = 1 := by
    obtain ⟨k, rfl⟩ := h2
    rw [pow_mul, neg_sq, Complex.I_sq, pow_mul]
    norm_num
  rw [hpow, one_mul] at key
  rw [← key]
  have e1 : F * (c : ℂ) * (-Complex.I * (E * (c : ℂ) * x + -(E * (s : ℂ)) * y))
      + E * (s : ℂ) * (Complex.I * (- -(F * (s : ℂ)) * x + F * (c : ℂ) * y))
      = -Complex.I * ((((c ^ 2 - s ^ 2 : ℝ)) : ℂ) * x
          + (((-(2 * s * c) : ℝ) : ℂ) - ((0 / len n : ℝ) : ℂ) * Complex.I) * y) := by
    push_cast
    linear_combination (-Complex.I * ((c ^ 2 - s ^ 2 : ℂ) * x - 2 * s * c * y)) * hE
  have e2 : -(F * (s : ℂ)) * (-Complex.I * (E * (c : ℂ) * x + -(E * (s : ℂ)) * y))
      + E * (c : ℂ) * (Complex.I * (- -(F * (s : ℂ)) * x + F * (c : ℂ) * y))
      = -Complex.I * ((((-(2 * s * c) : ℝ) : ℂ) + ((0 / len n : ℝ) : ℂ) * Complex.I) * x
          - ((c ^ 2 - s ^ 2 : ℝ) : ℂ) * y) := by
    push_cast
    linear_combination (Complex.I * (2 * s * c * x + (c ^ 2 - s ^ 2 : ℂ) * y)) * hE
  rw [e1, e2]

/-- What `reflect` computes: the half turn around an axis of azimuth π and of the same inclination as
the normal, whatever the azimuth of the normal. -/
theorem C84_actual (q : BooData) (hq : RealTensor q) (n : Fin 3 → ℝ) (hn : n ≠ 0) :
    reflect q n = rotateByPi q ![-√(n 0 ^ 2 + n 1 ^ 2), 0, |n 2|] := by
  show reflect q n = rotateByPi q (lostAxis n)
  obtain ⟨q1, e1, l1, s1⟩ := applyD_ok (fun l m2 => if (l - m2) % 2 ≠ 0 then -1 else 1) (phOf n)
    (thOf n) 0 hq.1
  obtain ⟨q2, e2, l2, s2⟩ := applyD_ok (fun _ _ => 1) 0 (-thOf n) (-phOf n) l1
  obtain ⟨q3, e3, l3, s3⟩ := rotate_st hq.1 (lostAxis n)
  have h1 : reflect q n = .ok q2 := by
    unfold reflect
    show (applyD _ (WignerD.mk' (phOf n) (thOf n) 0) q >>= _) = _
    rw [e1, ok_bind]
    exact e2
  rw [h1, e3]
  refine congrArg Except.ok ?_
  apply boo_ext l2 l3
  intro l h2 hl m hm
  have hcf1 : ∀ m : Int, m.natAbs ≤ l → cf q1 l m
      = (fun m => (-1) ^ m * rotC (phOf n) (thOf n) 0 l (cf q l) m) m := by
    apply cf_of_st (A := fun m => (-1) ^ m * rotC (phOf n) (thOf n) 0 l (cf q l) m)
    · exact realC_alt (realC_rotC (realC_cf (hq.im h2 hl)) _ _ _)
    · intro m hm
      rw [s1 l m h2 hl hm]
      refine congrArg₂ _ ?_ rfl
      rw [zpow_natCast]
      obtain ⟨k, rfl⟩ := h2
      split
      · rw [Odd.neg_one_pow]
        rw [Nat.odd_iff]; omega
      · rw [Even.neg_one_pow]
        rw [Nat.even_iff]; omega
  have c2 : cf q2 l m = st q2 l m := by simp [cf]
  have c3 : cf q3 l m = st q3 l m := by simp [cf]
  rw [c2, c3, s2 l m h2 hl hm, s3 l m h2 hl hm, one_mul]
  refine gen_unique (l := l) ?_ m (by omega)
  intro x
  rw [← gen_reflect hn h2, gen_rotC, gen_rotC]
  exact gen_congr hcf1 _ _

/-- A plane of any inclination. -/
example (q : BooData) (h : ofBond ![1, 2, 3] = .ok q) :
    reflect q ![3, 4, -2] = rotateByPi q ![-5, 0, 2] := by
  rw [C84_actual q (bond_real (vec_ne three_ne_zero) h) _ (vec_ne (by norm_num))]
  have h5 : √((![3, 4, -2] : Fin 3 → ℝ) 0 ^ 2 + (![3, 4, -2] : Fin 3 → ℝ) 1 ^ 2) = 5 := by
    rw [show (![3, 4, -2] : Fin 3 → ℝ) 0 ^ 2 + (![3, 4, -2] : Fin 3 → ℝ) 1 ^ 2 = 5 ^ 2 by norm_num]
    exact Real.sqrt_sq (by norm_num)
  have h2 : |(![3, 4, -2] : Fin 3 → ℝ) 2| = 2 := by norm_num [vec_two]
  rw [h5, h2]

/-- Mirror image of a bond by the plane of normal `n`. -/
noncomputable def mirror (n v : Fin 3 → ℝ) : Fin 3 → ℝ := fun i =>
  v i - 2 * (v 0 * n 0 + v 1 * n 1 + v 2 * n 2) / (n 0 ^ 2 + n 1 ^ 2 + n 2 ^ 2) * n i

theorem mirror_eq (n v : Fin 3 → ℝ) : mirror n v = fun i => (-1) * halfTurn n v i := by
  funext i
  unfold mirror halfTurn
  ring

theorem ofBond_mirror {n v : Fin 3 → ℝ} (hn : n ≠ 0) (hv : v ≠ 0) :
    ofBond (mirror n v) = ofBond (halfTurn n v) := by
  rw [mirror_eq]
  exact C83_direction _ (halfTurn_ne hn hv) (-1) (by norm_num)

theorem sumBonds_mirror {n : Fin 3 → ℝ} (hn : n ≠ 0) (vs : List (Fin 3 → ℝ)) (hv : ∀ v ∈ vs, v ≠ 0) :
    sumBonds (vs.map (mirror n)) = sumBonds (vs.map (halfTurn n)) := by
  induction vs using List.reverseRecOn with
  | nil => rfl
  | append_singleton vs v ih =>
    rw [List.map_append, List.map_append, List.map_singleton, List.map_singleton, sumBonds_append,
      sumBonds_append, ih (fun w hw => hv w (by simp [hw])), ofBond_mirror hn (hv v (by simp))]

theorem sumBonds_real (vs : List (Fin 3 → ℝ)) (hv : ∀ v ∈ vs, v ≠ 0) {q : BooData}
    (h : sumBonds vs = .ok q) : RealTensor q := by
  induction vs using List.reverseRecOn generalizing q with
  | nil =>
    have : q = blank := (Except.ok.inj h).symm
    subst q
    refine realTensor_of (by simp [blank]) ?_
    intro l h2 hl
    rw [cf_blank]
    rfl
  | append_singleton vs v ih =>
    obtain ⟨q1, e1, hq1⟩ := sumBonds_len vs
    obtain ⟨p, e2, hp, _⟩ := ofBond_ok v
    rw [sumBonds_append, e1, ok_bind, e2, ok_bind] at h
    have : q = combine 1 1 q1 p := by rw [combine_one]; exact (Except.ok.inj h).symm
    have hq : q.length = 36 := by
      obtain ⟨r, e, hr⟩ := sumBonds_len (vs ++ [v])
      rw [sumBonds_append, e1, ok_bind, e2, ok_bind] at e
      rw [h] at e
      rw [Except.ok.inj e]; exact hr
    refine realTensor_of hq ?_
    intro l h2 hl
    rw [this, cf_combine hq1 hp h2 hl (by simp)]
    have i1 := (ih (fun w hw => hv w (by simp [hw])) e1).im h2 hl
    have i2 := (bond_real (hv v (by simp)) e2).im h2 hl
    simp [i1, i2]

/-- Partial: `reflect` gives the tensor of the mirror image only for the normals of the half plane
`y = 0, x z ≤ 0`; missing: all the other normals, for which it is false
(`C84_mirror_counterexample`). -/
theorem C84_mirror_partial (n : Fin 3 → ℝ) (hn : n ≠ 0) (h1 : n 1 = 0) (h02 : n 0 * n 2 ≤ 0)
    (vs : List (Fin 3 → ℝ)) (hv : ∀ v ∈ vs, v ≠ 0) :
    ∃ q q', sumBonds vs = .ok q ∧ sumBonds (vs.map (mirror n)) = .ok q' ∧ reflect q n = .ok q' := by
  obtain ⟨q, q', e1, e2, e3⟩ := C82_cluster n hn vs hv
  refine ⟨q, q', e1, (sumBonds_mirror hn vs hv).trans e2, ?_⟩
  have hR := sumBonds_real vs hv e1
  rw [C84_actual q hR n hn, ← e3]
  have hax : ∃ t : ℝ, t ≠ 0 ∧ (![-√(n 0 ^ 2 + n 1 ^ 2), 0, |n 2|] : Fin 3 → ℝ) = fun i => t * n i := by
    have h0 : √(n 0 ^ 2 + n 1 ^ 2) = |n 0| := by rw [h1, zero_pow (by norm_num), add_zero, Real.sqrt_sq_eq_abs]
    rw [h0]
    by_cases hz : n 2 < 0 ∨ (n 2 = 0 ∧ 0 ≤ n 0)
    · refine ⟨-1, by norm_num, ?_⟩
      have hx : 0 ≤ n 0 := by
        rcases hz with h | h
        · by_contra hc
          have := mul_pos_of_neg_of_neg (not_le.1 hc) h
          linarith
        · exact h.2
      have hzz : n 2 ≤ 0 := by
        rcases hz with h | h
        · exact h.le
        · exact h.1.le
      funext i
      fin_cases i
      · show -|n 0| = -1 * n 0; rw [abs_of_nonneg hx]; ring
      · show 0 = -1 * n 1; rw [h1]; ring
      · show |n 2| = -1 * n 2; rw [abs_of_nonpos hzz]; ring
    · refine ⟨1, by norm_num, ?_⟩
      push Not at hz
      have hx : n 0 ≤ 0 := by
        by_contra hc
        rcases hz.1.lt_or_eq with h | h
        · have := mul_pos (not_le.1 hc) h
          linarith
        · have := hz.2 h.symm
          linarith
      funext i
      fin_cases i
      · show -|n 0| = 1 * n 0; rw [abs_of_nonpos hx]; ring
      · show 0 = 1 * n 1; rw [h1]; ring
      · show |n 2| = 1 * n 2; rw [abs_of_nonneg hz.1]; ring
  obtain ⟨t, ht, hax⟩ := hax
  rw [hax]
  exact C82_axis q hR.1 n hn t ht

/-- A plane that contains the axis `y`, with its two bonds off the axes. -/
example : ∃ q q', sumBonds [![1, 2, 3], ![0, 1, -1]] = .ok q ∧
    sumBonds ([![1, 2, 3], ![0, 1, -1]].map (mirror ![-1, 0, 2])) = .ok q' ∧
    reflect q ![-1, 0, 2] = .ok q' := by
  apply C84_mirror_partial
  · intro h; have := congrFun h 0; simp at this
  · rfl
  · show (-1 : ℝ) * 2 ≤ 0; norm_num
  · intro v hv
    simp only [List.mem_cons, List.not_mem_nil, or_false] at hv
    rcases hv with rfl | rfl
    · intro h; have := congrFun h 0; simp at this
    · intro h; have := congrFun h 1; simp at this

/-- The azimuth of the normal is lost: turning the plane around the axis `z` or reversing its normal
changes nothing. -/
theorem C84_azimuth_lost_counterexample (q : BooData) (hq : RealTensor q) (n n' : Fin 3 → ℝ)
    (hn : n ≠ 0) (h : n' 0 ^ 2 + n' 1 ^ 2 = n 0 ^ 2 + n 1 ^ 2) (hz : |n' 2| = |n 2|) :
    reflect q n' = reflect q n := by
  have hn' : n' ≠ 0 := by
    intro e
    have h1 := len_pos hn
    have h2 := len_sq n
    rw [← h, ← sq_abs (n 2), ← hz, e] at h2
    simp at h2
    linarith
  rw [C84_actual q hq n hn, C84_actual q hq n' hn', h, hz]

/-- The normals `x + z` and `y - z`, which are not parallel, are not distinguished. -/
example (q : BooData) (hq : RealTensor q) : reflect q ![1, 0, 1] = reflect q ![0, 1, -1] := by
  apply C84_azimuth_lost_counterexample q hq
  · intro h; have := congrFun h 1; simp at this
  · simp
  · simp

/-- Two reflections cancel and a reflection preserves the rotational invariants, even though the plane
is wrong. -/
theorem C84_isometry (q : BooData) (hq : RealTensor q) (n : Fin 3 → ℝ) (hn : n ≠ 0) :
    ∃ r, reflect q n = .ok r ∧ reflect r n = .ok q ∧ ∀ l : Nat, 2 ∣ l → l ≤ 10 →
      sumNorm r l = sumNorm q l ∧ getQl r l = getQl q l := by
  obtain ⟨r, e, _, _⟩ := rotate_st hq.1 (lostAxis n)
  have hr := rotate_real hq e
  refine ⟨r, (C84_actual q hq n hn).trans e, ?_, ?_⟩
  · rw [C84_actual r hr n hn]
    exact C82_involution q hq _ (lostAxis_ne hn) r e
  · intro l h2 hl
    exact C82_norm q hq _ (lostAxis_ne hn) r e l h2 hl

/-- The tensor of a bond. -/
example (q : BooData) (h : ofBond ![1, 2, 3] = .ok q) : ∃ r, reflect q ![3, 4, -2] = .ok r ∧
    reflect r ![3, 4, -2] = .ok q := by
  obtain ⟨r, e1, e2, _⟩ := C84_isometry q (bond_real (vec_ne three_ne_zero) h) ![3, 4, -2]
    (vec_ne (by norm_num))
  exact ⟨r, e1, e2⟩

/-- The bond of direction `y + z` is its own mirror image by the plane orthogonal to it, but `reflect`
gives the tensor of the bond `x + y`. -/
theorem C84_mirror_counterexample : ∃ q q', ofBond ![0, 1, 1] = .ok q ∧
    ofBond (mirror ![0, 1, 1] ![0, 1, 1]) = .ok q ∧ ofBond ![1, 1, 0] = .ok q' ∧
    reflect q ![0, 1, 1] = .ok q' ∧ q ≠ q' := by
  have hn : (![0, 1, 1] : Fin 3 → ℝ) ≠ 0 := by
    intro h; have := congrFun h 1; simp at this
  have hw : (![1, 1, 0] : Fin 3 → ℝ) ≠ 0 := by
    intro h; have := congrFun h 1; simp at this
  obtain ⟨q, h1, _, _⟩ := ofBond_ok ![0, 1, 1]
  obtain ⟨q', h2, _, _⟩ := ofBond_ok ![1, 1, 0]
  refine ⟨q, q', h1, ?_, h2, ?_, ?_⟩
  · have : mirror ![0, 1, 1] ![0, 1, 1] = fun i => (-1) * (![0, 1, 1] : Fin 3 → ℝ) i := by
      funext i
      unfold mirror
      fin_cases i <;> norm_num [vec_two]
    rw [this, C83_direction _ hn (-1) (by norm_num)]
    exact h1
  · rw [C84_actual q (bond_real hn h1) _ hn]
    have hb : (![-√((![0, 1, 1] : Fin 3 → ℝ) 0 ^ 2 + (![0, 1, 1] : Fin 3 → ℝ) 1 ^ 2), 0,
        |(![0, 1, 1] : Fin 3 → ℝ) 2|] : Fin 3 → ℝ) = ![-1, 0, 1] := by
      simp
    rw [hb]
    have hb0 : (![-1, 0, 1] : Fin 3 → ℝ) ≠ 0 := by
      intro h; have := congrFun h 0; simp at this
    obtain ⟨p, p', e1, e2, e3⟩ := C82_half_turn ![-1, 0, 1] ![0, 1, 1] hb0 hn
    have : p = q := by rw [h1] at e1; exact (Except.ok.inj e1).symm
    subst p
    rw [e3, ← e2, ← h2]
    have : halfTurn ![-1, 0, 1] ![0, 1, 1] = fun i => (-1) * (![1, 1, 0] : Fin 3 → ℝ) i := by
      funext i
      unfold halfTurn
      fin_cases i <;> norm_num [vec_two]
    rw [this]
    exact C83_direction _ hw (-1) (by norm_num)
  · intro e
    have g1 := bond_gen hn h1 (l := 2) (by norm_num) (by norm_num) 0 1
    have g2 := bond_gen hw h2 (l := 2) (by norm_num) (by norm_num) 0 1
    rw [← e, g1] at g2
    have l1 : len ![0, 1, 1] = √2 := by
      unfold len; norm_num [vec_two]
    have l2 : len ![1, 1, 0] = √2 := by
      unfold len; norm_num [vec_two]
    have hy : (y0 2 : ℂ) ≠ 0 := by
      have : y0 2 ≠ 0 := by
        unfold y0
        have := Real.pi_pos
        exact Real.sqrt_ne_zero'.2 (by positivity)
      exact_mod_cast this
    have hf : ((Nat.factorial 2 : ℂ))⁻¹ ≠ 0 := by
      exact inv_ne_zero (by exact_mod_cast Nat.factorial_ne_zero 2)
    have g3 := mul_left_cancel₀ (mul_ne_zero hy hf) g2
    rw [l1, l2] at g3
    unfold formQ at g3
    have hs : ((√2 : ℝ) : ℂ) ≠ 0 := by
      have : √2 ≠ 0 := by positivity
      exact_mod_cast this
    have g4 := congrArg (fun z => z * (((√2 : ℝ) : ℂ)) ^ 2) g3
    simp at g4
    field_simp at g4
    have := congrArg Complex.re g4
    simp [pow_two] at this

end Boo
end Colloids
