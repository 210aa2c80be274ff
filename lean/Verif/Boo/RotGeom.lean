import Verif.Boo.RotBond

/-! # Bonds, axes and the change of variables of a half turn -/

namespace Colloids
namespace Boo
open ComplexConjugate Finset

/-- Euclidean length. -/
noncomputable def len (v : Fin 3 → ℝ) : ℝ := √(v 0 ^ 2 + v 1 ^ 2 + v 2 ^ 2)

theorem len_sq (v : Fin 3 → ℝ) : len v ^ 2 = v 0 ^ 2 + v 1 ^ 2 + v 2 ^ 2 :=
  Real.sq_sqrt (by positivity)

theorem len_nonneg (v : Fin 3 → ℝ) : 0 ≤ len v := Real.sqrt_nonneg _

theorem len_pos {v : Fin 3 → ℝ} (hv : v ≠ 0) : 0 < len v := by
  rcases (len_nonneg v).lt_or_eq with h | h
  · exact h
  · exfalso
    apply hv
    have := len_sq v
    rw [← h] at this
    have h0 : v 0 ^ 2 = 0 := by nlinarith [sq_nonneg (v 0), sq_nonneg (v 1), sq_nonneg (v 2)]
    have h1 : v 1 ^ 2 = 0 := by nlinarith [sq_nonneg (v 0), sq_nonneg (v 1), sq_nonneg (v 2)]
    have h2 : v 2 ^ 2 = 0 := by nlinarith [sq_nonneg (v 0), sq_nonneg (v 1), sq_nonneg (v 2)]
    funext i
    fin_cases i
    · simpa using h0
    · simpa using h1
    · simpa using h2

/-- The angles of a vector are those of its direction, or of the opposite one for a vector along
the axis `z` downward. -/
theorem c2s_dir {v : Fin 3 → ℝ} (hv : v ≠ 0) :
    0 ≤ (cartesian2spherical v).2.1 ∧ (cartesian2spherical v).2.1 ≤ Real.pi ∧
    ∃ e : ℝ, e ^ 2 = 1 ∧ (0 ≤ v 2 → e = 1) ∧
      Real.cos (cartesian2spherical v).2.1 = e * (v 2 / len v) ∧
      (Real.sin (cartesian2spherical v).2.1 : ℂ)
        * Complex.exp ((cartesian2spherical v).2.2 * Complex.I)
        = e * (((v 0 / len v : ℝ) : ℂ) + ((v 1 / len v : ℝ) : ℂ) * Complex.I) := by
  have hr := len_pos hv
  have hsq := len_sq v
  unfold cartesian2spherical
  simp only
  rw [show √(v 0 ^ 2 + v 1 ^ 2 + v 2 ^ 2) = len v from rfl]
  by_cases h : |v 2| = len v ∨ len v ^ 2 = 0
  · have h2 : |v 2| = len v := by
      rcases h with h | h
      · exact h
      · exact absurd h (by positivity)
    rw [if_pos h]
    have hv2 : v 2 ^ 2 = len v ^ 2 := by rw [← h2, sq_abs]
    have h0 : v 0 = 0 := by
      have : v 0 ^ 2 = 0 := by nlinarith [sq_nonneg (v 0), sq_nonneg (v 1)]
      simpa using this
    have h1 : v 1 = 0 := by
      have : v 1 ^ 2 = 0 := by nlinarith [sq_nonneg (v 0), sq_nonneg (v 1)]
      simpa using this
    refine ⟨le_refl _, Real.pi_pos.le, v 2 / len v, ?_, ?_, ?_, ?_⟩
    · rw [div_pow, hv2]; field_simp
    · intro hn
      rw [abs_of_nonneg hn] at h2
      rw [h2]; field_simp
    · rw [Real.cos_zero, ← pow_two, div_pow, hv2]; field_simp
    · simp [h0, h1]
  · rw [if_neg h]
    simp only
    have hle : |v 2| ≤ len v := by
      apply abs_le_of_sq_le_sq _ hr.le
      nlinarith [sq_nonneg (v 0), sq_nonneg (v 1)]
    have habs := abs_le.1 hle
    refine ⟨Real.arccos_nonneg _, Real.arccos_le_pi _, 1, by norm_num, fun _ => rfl, ?_, ?_⟩
    · rw [Real.cos_arccos, one_mul]
      · rw [le_div_iff₀ hr]; linarith
      · rw [div_le_iff₀ hr]; linarith
    · have hexp : Complex.exp (((if Complex.arg ⟨v 0, v 1⟩ < 0 then Complex.arg ⟨v 0, v 1⟩ + 2 * Real.pi
          else Complex.arg ⟨v 0, v 1⟩ : ℝ) : ℂ) * Complex.I)
          = Complex.exp ((Complex.arg ⟨v 0, v 1⟩ : ℝ) * Complex.I) := by
        split
        · push_cast
          rw [add_mul, Complex.exp_add, Complex.exp_two_pi_mul_I, mul_one]
        · rfl
      rw [hexp, Real.sin_arccos]
      have hn : √(1 - (v 2 / len v) ^ 2) = ‖(⟨v 0, v 1⟩ : ℂ)‖ / len v := by
        rw [Complex.norm_eq_sqrt_sq_add_sq]
        rw [← Real.sqrt_sq hr.le, ← Real.sqrt_div (by positivity), Real.sqrt_sq hr.le]
        congr 1
        have : v 0 ^ 2 + v 1 ^ 2 = len v ^ 2 - v 2 ^ 2 := by rw [hsq]; ring
        simp only
        rw [this]
        field_simp
      rw [hn]
      have := Complex.norm_mul_exp_arg_mul_I ⟨v 0, v 1⟩
      push_cast
      rw [div_mul_eq_mul_div, this]
      have e : (⟨v 0, v 1⟩ : ℂ) = (v 0 : ℂ) + (v 1 : ℂ) * Complex.I := by
        apply Complex.ext <;> simp
      rw [e]
      ring

/-- The loop of the constructor. -/
theorem ofBond_ok (v : Fin 3 → ℝ) :
    ∃ q, ofBond v = .ok q ∧ q.length = 36 ∧ ∀ l m : Nat, 2 ∣ l → l ≤ 10 → m ≤ l →
      st q l m = sphericalHarmonic l m (cartesian2spherical v).2.1 (cartesian2spherical v).2.2 := by
  obtain ⟨hl, hm, hi, hs⟩ := C36_tables
  refine ⟨tab 36 (fun i => if i < 36 then sphericalHarmonic (i2l[i]?.getD 0) (i2m[i]?.getD 0)
      (cartesian2spherical v).2.1 (cartesian2spherical v).2.2 else 0), ?_, tab_length _ _, ?_⟩
  · unfold ofBond
    have hb : blank = tab 36 (fun i => if i < 0 then sphericalHarmonic (i2l[i]?.getD 0)
        (i2m[i]?.getD 0) (cartesian2spherical v).2.1 (cartesian2spherical v).2.2 else 0) := by
      unfold blank tab; simp [List.map_const']
    simp only
    rw [hb]
    refine Octave.fold_closed _ (fun k => tab 36 (fun i => if i < k then
      sphericalHarmonic (i2l[i]?.getD 0) (i2m[i]?.getD 0)
        (cartesian2spherical v).2.1 (cartesian2spherical v).2.2 else 0)) 36 ?_
    intro i hi36
    obtain ⟨l, m, e1, e2, _⟩ := hi i hi36
    have g1 : getR i2l i = .ok l := getR_ok.2 e1
    have g2 : getR i2m i = .ok m := getR_ok.2 e2
    rw [g1, ok_bind, g2, ok_bind, setR_tab _ hi36]
    congr 1
    apply tab_congr
    intro j _
    by_cases h1 : j = i
    · subst j
      rw [if_pos rfl, if_pos (by omega), e1, e2]; rfl
    · rw [if_neg h1]
      by_cases h2 : j < i
      · rw [if_pos h2, if_pos (by omega)]
      · rw [if_neg h2, if_neg (by omega)]
  · intro l m h2 hl10 hml
    have hlt := slot_lt h2 hl10 hml
    obtain ⟨e1, e2⟩ := hs l m h2 hl10 hml
    rw [st_tab hlt, if_pos hlt, e1, e2]
    rfl

/-- The value read is determined by the values stored, when the order 0 is real. -/
theorem cf_of_st {q : BooData} {l : Nat} {A : Int → ℂ} (hA : RealC l A)
    (h : ∀ m : Nat, m ≤ l → st q l m = A m) (m : Int) (hm : m.natAbs ≤ l) : cf q l m = A m := by
  unfold cf
  by_cases h0 : 0 ≤ m
  · rw [if_pos h0, h _ (by omega)]
    congr 1; omega
  · rw [if_neg h0, h _ (by omega), ← hA m hm]
    unfold conjC
    have e : (((-m).toNat : Nat) : Int) = -m := by omega
    rw [e]
    congr 1
    have e2 : m = -(((-m).toNat : Nat) : Int) := by omega
    conv_rhs => rw [e2]
    rw [zpow_neg, zpow_natCast]
    rcases Nat.even_or_odd (-m).toNat with h | h <;> simp [h.neg_one_pow]

theorem realC_cf {q : BooData} {l : Nat} (h0 : (cf q l 0).im = 0) : RealC l (cf q l) := by
  intro m _
  unfold conjC
  rcases lt_trichotomy m 0 with h | h | h
  · unfold cf
    rw [if_pos (by omega), if_neg (by omega)]
    congr 1
    have e2 : m = -(((-m).toNat : Nat) : Int) := by omega
    conv_lhs => rw [e2]
    rw [zpow_neg, zpow_natCast]
    rcases Nat.even_or_odd (-m).toNat with h | h <;> simp [h.neg_one_pow]
  · subst h
    rw [zpow_zero, one_mul, neg_zero]
    exact Complex.conj_eq_iff_im.2 h0
  · unfold cf
    rw [if_neg (by omega), if_pos (by omega)]
    have e : (-(-m)).toNat = m.toNat := by omega
    have e2 : m = ((m.toNat : Nat) : Int) := by omega
    rw [e]
    conv_lhs => rw [e2]
    simp only [map_mul, map_pow, map_neg, map_one, Complex.conj_conj, zpow_natCast, Int.toNat_natCast]
    rw [← mul_assoc, ← mul_pow]
    simp

theorem im_of_realC {l : Nat} {A : Int → ℂ} (h : RealC l A) : (A 0).im = 0 := by
  have := h 0 (by simp)
  unfold conjC at this
  rw [zpow_zero, one_mul, neg_zero] at this
  exact Complex.conj_eq_iff_im.1 this

/-- Two tensors with the same polynomials of all degrees are equal. -/
theorem boo_ext {q q' : BooData} (hq : q.length = 36) (hq' : q'.length = 36)
    (h : ∀ l : Nat, 2 ∣ l → l ≤ 10 → ∀ m : Nat, m ≤ l → cf q l m = cf q' l m) : q = q' := by
  apply List.ext_getElem?
  intro i
  by_cases hi : i < 36
  · obtain ⟨l, m, _, _, h2, hl, hm, rfl⟩ := C36_tables.2.2.1 i hi
    have := h l h2 hl m hm
    unfold cf at this
    rw [if_pos (by omega), if_pos (by omega)] at this
    have r1 := getR_slot hq h2 hl hm
    have r2 := getR_slot hq' h2 hl hm
    rw [getR_ok] at r1 r2
    rw [r1, r2]
    simpa using this
  · rw [List.getElem?_eq_none (by omega), List.getElem?_eq_none (by omega)]

/-- The quadratic form of a direction. -/
noncomputable def formQ (n : Fin 3 → ℝ) (x y : ℂ) : ℂ :=
  -(1 / 2) * (n 0 + n 1 * Complex.I) * x ^ 2 + n 2 * (x * y) + 1 / 2 * (n 0 - n 1 * Complex.I) * y ^ 2

theorem gen_const_mul (l : Nat) (z : ℂ) (q : Int → ℂ) (x y : ℂ) :
    gen l (fun m => z * q m) x y = z * gen l q x y := by
  unfold gen
  rw [mul_sum]
  apply sum_congr rfl
  intro p _
  ring

/-- The rotation that brings the pole on a direction. -/
theorem rot_pole (theta phi : ℝ) (x y : ℂ) :
    (rotA (-phi) theta 0 * x + rotB (-phi) theta 0 * y)
      * (-conj (rotB (-phi) theta 0) * x + conj (rotA (-phi) theta 0) * y)
    = -(1 / 2) * (Real.sin theta * Complex.exp (phi * Complex.I)) * x ^ 2
      + Real.cos theta * (x * y)
      + 1 / 2 * conj (Real.sin theta * Complex.exp (phi * Complex.I)) * y ^ 2 := by
  have h1 : Complex.exp (phi * Complex.I)
      = Complex.exp (phi / 2 * Complex.I) * Complex.exp (phi / 2 * Complex.I) := by
    rw [← Complex.exp_add]; congr 1; ring
  have h2 : Complex.exp (phi / 2 * Complex.I) * Complex.exp (-(phi / 2) * Complex.I) = 1 := by
    rw [← Complex.exp_add, ← add_mul, add_neg_cancel, zero_mul, Complex.exp_zero]
  have h3 : conj (Complex.exp (phi / 2 * Complex.I)) = Complex.exp (-(phi / 2) * Complex.I) := by
    have := conj_expI (phi / 2)
    push_cast at this
    exact this
  have h4 : conj (Complex.exp (-(phi / 2) * Complex.I)) = Complex.exp (phi / 2 * Complex.I) := by
    rw [← h3, Complex.conj_conj]
  have hc : Real.cos theta = Real.cos (theta / 2) ^ 2 - Real.sin (theta / 2) ^ 2 := by
    have := Real.cos_two_mul' (theta / 2)
    rwa [show 2 * (theta / 2) = theta by ring] at this
  have hs : Real.sin theta = 2 * Real.sin (theta / 2) * Real.cos (theta / 2) := by
    have := Real.sin_two_mul (theta / 2)
    rwa [show 2 * (theta / 2) = theta by ring] at this
  have hA : rotA (-phi) theta 0 = Real.cos (theta / 2) * Complex.exp (phi / 2 * Complex.I) := by
    unfold rotA
    rw [show (-(((-phi : ℝ) : ℂ) / 2)) * Complex.I = phi / 2 * Complex.I by push_cast; ring]
    simp
  have hB : rotB (-phi) theta 0 = Real.sin (theta / 2) * Complex.exp (-(phi / 2) * Complex.I) := by
    unfold rotB
    rw [show (((-phi : ℝ) : ℂ) / 2) * Complex.I = -(phi / 2) * Complex.I by push_cast; ring]
    simp
  rw [hA, hB, map_mul, map_mul, map_mul, Complex.conj_ofReal, Complex.conj_ofReal,
    Complex.conj_ofReal, h1, map_mul, h3, h4, hc, hs]
  push_cast
  generalize Complex.exp (phi / 2 * Complex.I) = E at *
  generalize Complex.exp (-(phi / 2) * Complex.I) = F at *
  generalize Complex.cos (theta / 2) = c
  generalize Complex.sin (theta / 2) = s
  linear_combination (c ^ 2 - s ^ 2) * (x * y) * h2

/-- The coefficients of a bond. -/
theorem bond_cf (v : Fin 3 → ℝ) (hv : v ≠ 0) {q : BooData} (h : ofBond v = .ok q) {l : Nat}
    (h2 : 2 ∣ l) (hl : l ≤ 10) (m : Int) (hm : m.natAbs ≤ l) :
    cf q l m = (y0 l : ℂ) * rotC (-(cartesian2spherical v).2.2) (cartesian2spherical v).2.1 0 l
      delta m := by
  obtain ⟨q', e, hq, hst⟩ := ofBond_ok v
  have : q' = q := by rw [h] at e; exact (Except.ok.inj e).symm
  subst q'
  obtain ⟨t0, t1, _⟩ := c2s_dir hv
  refine cf_of_st (A := fun m => (y0 l : ℂ)
    * rotC (-(cartesian2spherical v).2.2) (cartesian2spherical v).2.1 0 l delta m) ?_ ?_ m hm
  · intro k hk
    have := realC_rotC (realC_delta l) (-(cartesian2spherical v).2.2) (cartesian2spherical v).2.1 0 k hk
    unfold conjC at this ⊢
    rw [map_mul, Complex.conj_ofReal]
    rw [mul_left_comm, this]
  · intro k hk
    rw [hst l k h2 hl hk, sphericalHarmonic_eq hk t0 t1]

/-- The polynomial of a bond. -/
theorem bond_gen {v : Fin 3 → ℝ} (hv : v ≠ 0) {q : BooData} (h : ofBond v = .ok q) {l : Nat}
    (h2 : 2 ∣ l) (hl : l ≤ 10) (x y : ℂ) :
    gen l (cf q l) x y = (y0 l : ℂ) * ((l.factorial : ℂ))⁻¹
      * formQ (fun i => v i / len v) x y ^ l := by
  have hcf := bond_cf v hv h h2 hl
  obtain ⟨_, _, e, he, _, hc, hs⟩ := c2s_dir hv
  generalize (cartesian2spherical v).2.1 = theta at *
  generalize (cartesian2spherical v).2.2 = phi at *
  have h5 : gen l (cf q l) x y = gen l (fun m => (y0 l : ℂ) * rotC (-phi) theta 0 l delta m) x y :=
    gen_congr hcf x y
  rw [h5, gen_const_mul, gen_rotC, gen_delta, rot_pole]
  rw [hs, hc]
  have he' : (e : ℂ) ^ 2 = 1 := by exact_mod_cast he
  have hE : -(1 / 2) * ((e : ℂ) * (((v 0 / len v : ℝ) : ℂ) + ((v 1 / len v : ℝ) : ℂ) * Complex.I))
        * x ^ 2 + ((e * (v 2 / len v) : ℝ) : ℂ) * (x * y)
        + 1 / 2 * conj ((e : ℂ) * (((v 0 / len v : ℝ) : ℂ) + ((v 1 / len v : ℝ) : ℂ) * Complex.I))
        * y ^ 2 = e * formQ (fun i => v i / len v) x y := by
    unfold formQ
    simp only [map_mul, map_add, Complex.conj_ofReal, Complex.conj_I]
    push_cast
    ring
  rw [hE, mul_pow]
  obtain ⟨k, rfl⟩ := h2
  rw [pow_mul (e : ℂ), he', one_pow, one_mul, mul_assoc]

end Boo
end Colloids
