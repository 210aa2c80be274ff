import Verif.Boo.RotGeom

/-! # Half turns as changes of variables -/

namespace Colloids
namespace Boo
open ComplexConjugate Finset

theorem rotA_half (theta phi : ℝ) :
    rotA (Real.pi - phi) (-2 * theta) phi = -Complex.I * Real.cos theta := by
  unfold rotA
  rw [show -2 * theta / 2 = -theta by ring, Real.cos_neg, mul_right_comm, ← Complex.exp_add,
    show (-((phi : ℂ) / 2) * Complex.I + -(((Real.pi - phi : ℝ) : ℂ) / 2) * Complex.I)
      = -((Real.pi : ℂ) / 2 * Complex.I) by push_cast; ring, Complex.exp_neg, Complex.exp_pi_div_two_mul_I,
    Complex.inv_I]

theorem rotB_half (theta phi : ℝ) :
    rotB (Real.pi - phi) (-2 * theta) phi
      = -Complex.I * conj (Real.sin theta * Complex.exp (phi * Complex.I)) := by
  unfold rotB
  rw [show -2 * theta / 2 = -theta by ring, Real.sin_neg, mul_right_comm, ← Complex.exp_add,
    show (-((phi : ℂ) / 2) * Complex.I + (((Real.pi - phi : ℝ) : ℂ) / 2) * Complex.I)
      = ((Real.pi : ℂ) / 2 * Complex.I) + -phi * Complex.I by push_cast; ring, Complex.exp_add,
    Complex.exp_pi_div_two_mul_I, map_mul, conj_expI, Complex.conj_ofReal]
  push_cast
  ring

/-- The change of variables of the half turn around the unit vector `n`. -/
theorem gen_half {theta phi : ℝ} {n : Fin 3 → ℝ} (hc : Real.cos theta = n 2)
    (hs : (Real.sin theta : ℂ) * Complex.exp (phi * Complex.I) = n 0 + n 1 * Complex.I) {l : Nat}
    (h2 : 2 ∣ l) (q : Int → ℂ) (x y : ℂ) :
    gen l (rotC (Real.pi - phi) (-2 * theta) phi l q) x y
      = gen l q (n 2 * x + (n 0 - n 1 * Complex.I) * y) ((n 0 + n 1 * Complex.I) * x - n 2 * y) := by
  rw [gen_rotC, rotA_half, rotB_half, hs, hc]
  have e1 : -Complex.I * ((n 2 : ℝ) : ℂ) * x + -Complex.I * conj ((n 0 : ℂ) + n 1 * Complex.I) * y
      = -Complex.I * (n 2 * x + (n 0 - n 1 * Complex.I) * y) := by
    simp only [map_add, map_mul, Complex.conj_ofReal, Complex.conj_I]; ring
  have e2 : -conj (-Complex.I * conj ((n 0 : ℂ) + n 1 * Complex.I)) * x
        + conj (-Complex.I * ((n 2 : ℝ) : ℂ)) * y
      = -Complex.I * ((n 0 + n 1 * Complex.I) * x - n 2 * y) := by
    simp only [map_add, map_mul, map_neg, Complex.conj_ofReal, Complex.conj_I]; ring
  rw [e1, e2, gen_smul]
  obtain ⟨k, rfl⟩ := h2
  have : (-Complex.I) ^ (2 * (2 * k)) = 1 := by
    rw [show 2 * (2 * k) = 4 * k by ring, pow_mul]
    have : (-Complex.I) ^ 4 = 1 := by
      rw [show (4 : Nat) = 2 * 2 by norm_num, pow_mul]; simp
    rw [this, one_pow]
  rw [this, one_mul]

/-- The half turn of a vector around an axis. -/
noncomputable def halfTurn (a v : Fin 3 → ℝ) : Fin 3 → ℝ := fun i =>
  2 * (v 0 * a 0 + v 1 * a 1 + v 2 * a 2) / (a 0 ^ 2 + a 1 ^ 2 + a 2 ^ 2) * a i - v i

/-- The half turn changes the quadratic form of a direction into the one of the turned direction. -/
theorem formQ_half {n u w : Fin 3 → ℝ} (hn : n 0 ^ 2 + n 1 ^ 2 + n 2 ^ 2 = 1)
    (hw : ∀ i, w i = 2 * (u 0 * n 0 + u 1 * n 1 + u 2 * n 2) * n i - u i) (x y : ℂ) :
    formQ u (n 2 * x + (n 0 - n 1 * Complex.I) * y) ((n 0 + n 1 * Complex.I) * x - n 2 * y)
      = -formQ w x y := by
  have hn' : (n 0 : ℂ) ^ 2 + (n 1 : ℂ) ^ 2 + (n 2 : ℂ) ^ 2 = 1 := by exact_mod_cast hn
  have hI : Complex.I ^ 2 = -1 := Complex.I_sq
  unfold formQ
  rw [hw 0, hw 1, hw 2]
  push_cast
  generalize (n 0 : ℂ) = a at *
  generalize (n 1 : ℂ) = b at *
  generalize (n 2 : ℂ) = c at *
  generalize (u 0 : ℂ) = p at *
  generalize (u 1 : ℂ) = q at *
  generalize (u 2 : ℂ) = r at *
  generalize Complex.I = j at *
  have hd : p * a + q * b + r * c
      = r * c + 1 / 2 * ((p + q * j) * (a - b * j) + (p - q * j) * (a + b * j)) := by
    linear_combination (q * b) * hI
  have hPM : (a + b * j) * (a - b * j) + c ^ 2 = 1 := by linear_combination hn' - b ^ 2 * hI
  rw [show 2 * (p * a + q * b + r * c) * a - p + (2 * (p * a + q * b + r * c) * b - q) * j
      = 2 * (p * a + q * b + r * c) * (a + b * j) - (p + q * j) by ring,
    show 2 * (p * a + q * b + r * c) * a - p - (2 * (p * a + q * b + r * c) * b - q) * j
      = 2 * (p * a + q * b + r * c) * (a - b * j) - (p - q * j) by ring, hd]
  generalize a + b * j = P at *
  generalize a - b * j = M at *
  generalize p + q * j = V at *
  generalize p - q * j = W at *
  linear_combination (-(1 / 2) * V * x ^ 2 + r * (x * y) + 1 / 2 * W * y ^ 2) * hPM

/-- Colatitude of the axis. -/
noncomputable def thOf (a : Fin 3 → ℝ) : ℝ := (cartesian2spherical (upward a)).2.1
/-- Azimuth of the axis. -/
noncomputable def phOf (a : Fin 3 → ℝ) : ℝ := (cartesian2spherical (upward a)).2.2
/-- The coefficients after the half turn. -/
noncomputable def hT (a : Fin 3 → ℝ) (l : Nat) (q : Int → ℂ) : Int → ℂ :=
  rotC (Real.pi - phOf a) (-2 * thOf a) (phOf a) l q

theorem len_smul {e : ℝ} (he : e ^ 2 = 1) (a : Fin 3 → ℝ) : len (fun i => a i * e) = len a := by
  unfold len
  congr 1
  simp only [mul_pow, he, mul_one]

theorem upward_dir {a : Fin 3 → ℝ} (ha : a ≠ 0) :
    ∃ e : ℝ, e ^ 2 = 1 ∧ Real.cos (thOf a) = e * (a 2 / len a) ∧
      (Real.sin (thOf a) : ℂ) * Complex.exp (phOf a * Complex.I)
        = ((e * (a 0 / len a) : ℝ) : ℂ) + ((e * (a 1 / len a) : ℝ) : ℂ) * Complex.I := by
  obtain ⟨e, he, hup⟩ : ∃ e : ℝ, e ^ 2 = 1 ∧ upward a = fun i => a i * e := by
    unfold upward
    split
    · exact ⟨-1, by norm_num, rfl⟩
    · exact ⟨1, by norm_num, rfl⟩
  have hne : upward a ≠ 0 := by
    rw [hup]
    intro h
    apply ha
    funext i
    have := congrFun h i
    simp only [Pi.zero_apply, mul_eq_zero] at this
    rcases this with h | h
    · exact h
    · rw [h] at he; norm_num at he
  have hpos : 0 ≤ upward a 2 := by
    unfold upward
    split <;> linarith
  obtain ⟨_, _, f, _, hf, hc, hs⟩ := c2s_dir hne
  have hlen : len (upward a) = len a := by rw [hup]; exact len_smul he a
  rw [hf hpos, one_mul, hlen] at hc
  rw [hf hpos, hlen, Complex.ofReal_one, one_mul] at hs
  refine ⟨e, he, ?_, ?_⟩
  · rw [thOf, hc, hup]; ring
  · rw [thOf, phOf, hs, hup]
    push_cast
    ring

/-- The half turn of the coefficients is a change of variables. -/
theorem gen_hT {a : Fin 3 → ℝ} (ha : a ≠ 0) {l : Nat} (h2 : 2 ∣ l) (q : Int → ℂ) (x y : ℂ) :
    gen l (hT a l q) x y
      = gen l q (((a 2 / len a : ℝ) : ℂ) * x
          + (((a 0 / len a : ℝ) : ℂ) - ((a 1 / len a : ℝ) : ℂ) * Complex.I) * y)
        ((((a 0 / len a : ℝ) : ℂ) + ((a 1 / len a : ℝ) : ℂ) * Complex.I) * x
          - ((a 2 / len a : ℝ) : ℂ) * y) := by
  obtain ⟨e, he, hc, hs⟩ := upward_dir ha
  unfold hT
  rw [gen_half (n := fun i => e * (a i / len a)) hc hs h2]
  have he' : (e : ℂ) ^ (2 * l) = 1 := by
    rw [pow_mul]
    have : (e : ℂ) ^ 2 = 1 := by exact_mod_cast he
    rw [this, one_pow]
  have := gen_smul l q e (((a 2 / len a : ℝ) : ℂ) * x
          + (((a 0 / len a : ℝ) : ℂ) - ((a 1 / len a : ℝ) : ℂ) * Complex.I) * y)
        ((((a 0 / len a : ℝ) : ℂ) + ((a 1 / len a : ℝ) : ℂ) * Complex.I) * x
          - ((a 2 / len a : ℝ) : ℂ) * y)
  rw [he', one_mul] at this
  rw [← this]
  congr 1 <;> (push_cast; ring)

theorem rotate_st {q : BooData} (hq : q.length = 36) (a : Fin 3 → ℝ) :
    ∃ res, rotateByPi q a = .ok res ∧ res.length = 36 ∧
      ∀ l m : Nat, 2 ∣ l → l ≤ 10 → m ≤ l → st res l m = hT a l (cf q l) m := by
  obtain ⟨res, h1, h2, h3⟩ := applyD_ok (fun _ _ => 1) (Real.pi - phOf a) (-2 * thOf a) (phOf a) hq
  refine ⟨res, h1, h2, ?_⟩
  intro l m hl hl' hm
  rw [h3 l m hl hl' hm, one_mul, hT]

theorem rotate_cf {q : BooData} (hq : q.length = 36) (a : Fin 3 → ℝ) {res : BooData}
    (h : rotateByPi q a = .ok res) {l : Nat} (h2 : 2 ∣ l) (hl : l ≤ 10)
    (h0 : (cf q l 0).im = 0) : (∀ m : Int, m.natAbs ≤ l → cf res l m = hT a l (cf q l) m) ∧
      RealC l (cf res l) := by
  obtain ⟨res', e, _, hst⟩ := rotate_st hq a
  have : res' = res := by rw [h] at e; exact (Except.ok.inj e).symm
  subst res'
  have hR : RealC l (hT a l (cf q l)) := realC_rotC (realC_cf h0) _ _ _
  have hcf := cf_of_st hR (fun m hm => hst l m h2 hl hm)
  refine ⟨hcf, realC_cf ?_⟩
  rw [hcf 0 (by simp)]
  exact im_of_realC hR

/-- The norm is one. -/
theorem unit_sq {a : Fin 3 → ℝ} (ha : a ≠ 0) :
    (a 0 / len a) ^ 2 + (a 1 / len a) ^ 2 + (a 2 / len a) ^ 2 = 1 := by
  have := len_sq a
  have hp := len_pos ha
  rw [div_pow, div_pow, div_pow, ← add_div, ← add_div, ← this]
  field_simp

/-- Twice the half turn is the identity on the coefficients. -/
theorem hT_hT {a : Fin 3 → ℝ} (ha : a ≠ 0) {l : Nat} (h2 : 2 ∣ l) (q : Int → ℂ) (m : Int)
    (hm : m.natAbs ≤ l) : hT a l (hT a l q) m = q m := by
  refine gen_unique (l := l) ?_ m hm
  intro x
  rw [gen_hT ha h2, gen_hT ha h2]
  have hu : ((a 0 / len a : ℝ) : ℂ) ^ 2 + ((a 1 / len a : ℝ) : ℂ) ^ 2 + ((a 2 / len a : ℝ) : ℂ) ^ 2
      = 1 := by exact_mod_cast unit_sq ha
  have hI : Complex.I ^ 2 = -1 := Complex.I_sq
  generalize ((a 0 / len a : ℝ) : ℂ) = u at *
  generalize ((a 1 / len a : ℝ) : ℂ) = v at *
  generalize ((a 2 / len a : ℝ) : ℂ) = w at *
  congr 1
  · linear_combination x * hu - x * v ^ 2 * hI
  · linear_combination hu - v ^ 2 * hI

/-- Element of the matrix of the half turn. -/
noncomputable def hTmat (a : Fin 3 → ℝ) (l r p : Nat) : ℂ :=
  hT a l (fun m => if m = (p : Int) - l then 1 else 0) ((r : Int) - l)

theorem hT_sum (a : Fin 3 → ℝ) (l : Nat) (q : Int → ℂ) (r : Nat) :
    hT a l q ((r : Int) - l) = ∑ p ∈ range (2 * l + 1), hTmat a l r p * q ((p : Int) - l) := by
  unfold hTmat hT rotC
  rw [mul_sum]
  apply sum_congr rfl
  intro p hp
  rw [sum_eq_single p]
  · simp only [if_true]; ring
  · intro p' _ hne
    simp only
    rw [if_neg (by omega)]; ring
  · intro h
    exact absurd hp h

/-- The matrix of the half turn is Hermitian. -/
theorem hTmat_symm {a : Fin 3 → ℝ} (ha : a ≠ 0) {l : Nat} (h2 : 2 ∣ l) {r p : Nat}
    (hr : r < 2 * l + 1) (hp : p < 2 * l + 1) : hTmat a l r p = conj (hTmat a l p r) := by
  -- the polynomial of the columns
  have hcol : ∀ p < 2 * l + 1, ∀ x : ℂ,
      ∑ r ∈ range (2 * l + 1), (gwt (2 * l) r : ℂ) * hTmat a l r p * x ^ r
      = (gwt (2 * l) p : ℂ) * (((a 2 / len a : ℝ) : ℂ) * x
          + (((a 0 / len a : ℝ) : ℂ) - ((a 1 / len a : ℝ) : ℂ) * Complex.I)) ^ p
        * ((((a 0 / len a : ℝ) : ℂ) + ((a 1 / len a : ℝ) : ℂ) * Complex.I) * x
          - ((a 2 / len a : ℝ) : ℂ)) ^ (2 * l - p) := by
    intro p hp x
    have := gen_hT ha h2 (fun m => if m = (p : Int) - l then 1 else 0) x 1
    unfold gen at this
    simp only [one_pow, mul_one] at this
    unfold hTmat
    rw [this, sum_eq_single p]
    · simp only [if_true, mul_one]
    · intro p' _ hne
      rw [if_neg (by omega)]; ring
    · intro h
      exact absurd (mem_range.2 hp) h
  -- the generating function of the matrix
  let G : ℂ → ℂ → ℂ := fun x u => ((2 * l).factorial : ℂ)⁻¹
    * (u * (((a 2 / len a : ℝ) : ℂ) * x
          + (((a 0 / len a : ℝ) : ℂ) - ((a 1 / len a : ℝ) : ℂ) * Complex.I))
        + ((((a 0 / len a : ℝ) : ℂ) + ((a 1 / len a : ℝ) : ℂ) * Complex.I) * x
          - ((a 2 / len a : ℝ) : ℂ))) ^ (2 * l)
  have hG : ∀ x u : ℂ, ∑ p ∈ range (2 * l + 1), (∑ r ∈ range (2 * l + 1),
      (gwt (2 * l) p : ℂ) * ((gwt (2 * l) r : ℂ) * hTmat a l r p * x ^ r)) * u ^ p = G x u := by
    intro x u
    simp only [G]
    rw [add_pow, mul_sum]
    apply sum_congr rfl
    intro p hp
    rw [mem_range] at hp
    rw [← mul_sum, hcol p hp x, mul_pow]
    have hw : (gwt (2 * l) p : ℂ) * (gwt (2 * l) p : ℂ)
        = ((2 * l).factorial : ℂ)⁻¹ * ((2 * l).choose p : ℂ) := by
      have h1 := gwt_sq (2 * l) p
      have h2 := Nat.cast_choose ℝ (by omega : p ≤ 2 * l)
      have n1 : ((2 * l).factorial : ℝ) ≠ 0 := by exact_mod_cast (2 * l).factorial_ne_zero
      have n2 : (p.factorial : ℝ) ≠ 0 := by exact_mod_cast p.factorial_ne_zero
      have n3 : ((2 * l - p).factorial : ℝ) ≠ 0 := by exact_mod_cast (2 * l - p).factorial_ne_zero
      have : gwt (2 * l) p * gwt (2 * l) p = ((2 * l).factorial : ℝ)⁻¹ * ((2 * l).choose p : ℝ) := by
        rw [h1, h2]
        push_cast
        field_simp
      have := congrArg (fun t : ℝ => (t : ℂ)) this
      simpa using this
    linear_combination (u ^ p * (((a 2 / len a : ℝ) : ℂ) * x
          + (((a 0 / len a : ℝ) : ℂ) - ((a 1 / len a : ℝ) : ℂ) * Complex.I)) ^ p
        * ((((a 0 / len a : ℝ) : ℂ) + ((a 1 / len a : ℝ) : ℂ) * Complex.I) * x
          - ((a 2 / len a : ℝ) : ℂ)) ^ (2 * l - p)) * hw
  have hGc : ∀ x u : ℂ, conj (G (conj u) (conj x)) = G x u := by
    intro x u
    simp only [G, map_mul, map_inv₀, map_natCast, map_pow, map_add, map_sub, Complex.conj_conj,
      Complex.conj_ofReal, Complex.conj_I]
    congr 2
    ring
  -- the same with the conjugate transposed matrix
  have hG' : ∀ x u : ℂ, ∑ p ∈ range (2 * l + 1), (∑ r ∈ range (2 * l + 1),
      (gwt (2 * l) p : ℂ) * ((gwt (2 * l) r : ℂ) * conj (hTmat a l p r) * x ^ r)) * u ^ p = G x u := by
    intro x u
    rw [← hGc, ← hG, map_sum]
    simp only [map_mul, map_sum, map_pow, Complex.conj_conj, Complex.conj_ofReal, sum_mul]
    rw [sum_comm]
    apply sum_congr rfl
    intro r _
    apply sum_congr rfl
    intro p _
    ring
  have h1 : ∀ x : ℂ, ∑ r ∈ range (2 * l + 1),
      (gwt (2 * l) p : ℂ) * ((gwt (2 * l) r : ℂ) * hTmat a l r p * x ^ r)
      = ∑ r ∈ range (2 * l + 1),
      (gwt (2 * l) p : ℂ) * ((gwt (2 * l) r : ℂ) * conj (hTmat a l p r) * x ^ r) := by
    intro x
    exact poly_unique (n := 2 * l + 1) (a := fun p => ∑ r ∈ range (2 * l + 1),
      (gwt (2 * l) p : ℂ) * ((gwt (2 * l) r : ℂ) * hTmat a l r p * x ^ r))
      (b := fun p => ∑ r ∈ range (2 * l + 1),
      (gwt (2 * l) p : ℂ) * ((gwt (2 * l) r : ℂ) * conj (hTmat a l p r) * x ^ r))
      (fun u => by rw [hG, hG']) p hp
  have h3 := poly_unique (n := 2 * l + 1)
    (a := fun r => (gwt (2 * l) p : ℂ) * (gwt (2 * l) r : ℂ) * hTmat a l r p)
    (b := fun r => (gwt (2 * l) p : ℂ) * (gwt (2 * l) r : ℂ) * conj (hTmat a l p r)) (by
      intro x
      have := h1 x
      simp only [← mul_assoc] at this
      exact this) r hr
  exact mul_left_cancel₀ (mul_ne_zero (gwt_ne _ _) (gwt_ne _ _)) h3

/-- The half turn preserves the Hermitian product. -/
theorem hT_hermitian {a : Fin 3 → ℝ} (ha : a ≠ 0) {l : Nat} (h2 : 2 ∣ l) (A B : Int → ℂ) :
    ∑ m ∈ Finset.Icc (-(l : Int)) l, hT a l A m * conj (hT a l B m)
      = ∑ m ∈ Finset.Icc (-(l : Int)) l, A m * conj (B m) := by
  have hIcc : ∀ f : Int → ℂ, ∑ m ∈ Finset.Icc (-(l : Int)) l, f m
      = ∑ r ∈ range (2 * l + 1), f ((r : Int) - l) := by
    intro f
    apply sum_nbij' (fun (m : Int) => (m + l).toNat) (fun (r : Nat) => (r : Int) - l)
    · intro m hm; rw [mem_Icc] at hm; rw [mem_range]; omega
    · intro r hr; rw [mem_range] at hr; rw [mem_Icc]; omega
    · intro m hm; rw [mem_Icc] at hm; omega
    · intro r hr; omega
    · intro m hm
      rw [mem_Icc] at hm
      congr 1; omega
  rw [hIcc, hIcc]
  have h1 : ∀ r ∈ range (2 * l + 1), hT a l A ((r : Int) - l) * conj (hT a l B ((r : Int) - l))
      = ∑ p ∈ range (2 * l + 1), conj (B ((p : Int) - l))
        * (hTmat a l p r * hT a l A ((r : Int) - l)) := by
    intro r hr
    rw [mem_range] at hr
    rw [hT_sum a l B r, map_sum, mul_sum]
    apply sum_congr rfl
    intro p hp
    rw [mem_range] at hp
    rw [map_mul, ← hTmat_symm ha h2 hp hr]
    ring
  rw [sum_congr rfl h1, sum_comm]
  apply sum_congr rfl
  intro p hp
  rw [mem_range] at hp
  rw [← mul_sum, ← hT_sum, hT_hT ha h2 _ _ (by omega), mul_comm]

end Boo
end Colloids
