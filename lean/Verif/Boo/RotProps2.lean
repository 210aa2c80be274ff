import Verif.Boo.RotProps

/-! # C83 : the tensor of bonds, C84 : reflections -/

namespace Colloids
namespace Boo
open ComplexConjugate Finset

/-! ## C83 -/

/-- `BooData::isnull`, lib/boo_data.hpp:74; `norm + 1.0 == 1.0` is modelled by `norm = 0`. -/
noncomputable def isnull (q : BooData) : R Bool := do
  let z ← getR q 0
  pure (decide (Complex.normSq z = 0))

/-- Neither the length nor the orientation of a bond matter. -/
theorem C83_direction (v : Fin 3 → ℝ) (hv : v ≠ 0) (t : ℝ) (ht : t ≠ 0) :
    ofBond (fun i => t * v i) = ofBond v := by
  have htv : (fun i => t * v i) ≠ 0 := by
    intro h
    apply hv
    funext i
    have := congrFun h i
    simp only [Pi.zero_apply, mul_eq_zero] at this
    rcases this with h | h
    · exact absurd h ht
    · exact h
  obtain ⟨q, h1, hq, _⟩ := ofBond_ok v
  obtain ⟨q', h2, hq', _⟩ := ofBond_ok (fun i => t * v i)
  rw [h1, h2]
  refine congrArg Except.ok ?_
  apply boo_ext hq' hq
  intro l hl2 hl m hm
  refine gen_unique (l := l) ?_ m (by omega)
  intro x
  rw [bond_gen hv h1 hl2 hl, bond_gen htv h2 hl2 hl]
  have hlen : len (fun i => t * v i) = |t| * len v := by
    unfold len
    rw [show (t * v 0) ^ 2 + (t * v 1) ^ 2 + (t * v 2) ^ 2 = t ^ 2 * (v 0 ^ 2 + v 1 ^ 2 + v 2 ^ 2) by
      ring, Real.sqrt_mul (sq_nonneg t), Real.sqrt_sq_eq_abs]
  have h1 : |t| ≠ 0 := abs_ne_zero.2 ht
  have h2 := (len_pos hv).ne'
  have hf : formQ (fun i => t * v i / len (fun i => t * v i)) x 1
      = ((t / |t| : ℝ) : ℂ) * formQ (fun i => v i / len v) x 1 := by
    have hc : ∀ i, t * v i / len (fun i => t * v i) = t / |t| * (v i / len v) := by
      intro i
      rw [hlen]
      field_simp
    unfold formQ
    beta_reduce
    rw [hc 0, hc 1, hc 2]
    push_cast
    ring
  rw [hf, mul_pow]
  have he : ((t / |t| : ℝ) : ℂ) ^ l = 1 := by
    obtain ⟨k, rfl⟩ := hl2
    rw [pow_mul]
    have : (t / |t|) ^ 2 = 1 := by
      rw [div_pow, sq_abs]; field_simp
    have : ((t / |t| : ℝ) : ℂ) ^ 2 = 1 := by exact_mod_cast this
    rw [this, one_pow]
  rw [he, one_mul]

/-- The same bond seen from its two ends. -/
example : ofBond (fun i => (-1) * (![1, 2, 3] : Fin 3 → ℝ) i) = ofBond ![1, 2, 3] :=
  C83_direction _ (vec_ne three_ne_zero) (-1) (by norm_num)

/-- A bond of null length is silently taken as a bond along the axis `z`. -/
theorem C83_null_bond : ofBond 0 = ofBond ![0, 0, 1] := by
  have h1 : cartesian2spherical 0 = (0, 0, 0) := by
    unfold cartesian2spherical
    simp
  have h2 : cartesian2spherical ![0, 0, 1] = (1, 0, 0) := by
    unfold cartesian2spherical
    simp
  unfold ofBond
  rw [h1, h2]

theorem pole_cf {v : Fin 3 → ℝ} (hv : v ≠ 0) (h0 : v 0 = 0) (h1 : v 1 = 0) {q : BooData}
    (h : ofBond v = .ok q) {l : Nat} (h2 : 2 ∣ l) (hl : l ≤ 10) (m : Int) (hm : m.natAbs ≤ l) :
    cf q l m = (y0 l : ℂ) * delta m := by
  refine gen_unique (l := l) (q' := fun m => (y0 l : ℂ) * delta m) ?_ m hm
  intro x
  rw [bond_gen hv h h2 hl, gen_const_mul, gen_delta, mul_assoc]
  have hsq := len_sq v
  rw [h0, h1] at hsq
  have hp := (len_pos hv).ne'
  have hf : formQ (fun i => v i / len v) x 1 = ((v 2 / len v : ℝ) : ℂ) * (x * 1) := by
    unfold formQ
    beta_reduce
    rw [h0, h1]
    simp
  rw [hf, mul_pow ((v 2 / len v : ℝ) : ℂ)]
  have he : ((v 2 / len v : ℝ) : ℂ) ^ l = 1 := by
    obtain ⟨k, rfl⟩ := h2
    rw [pow_mul]
    have : (v 2 / len v) ^ 2 = 1 := by
      rw [div_pow, hsq]
      have : v 2 ^ 2 ≠ 0 := by
        intro h; rw [h] at hsq; simp at hsq; exact hp hsq
      field_simp
      ring
    have : ((v 2 / len v : ℝ) : ℂ) ^ 2 = 1 := by exact_mod_cast this
    rw [this, one_pow]
  rw [he, one_mul]

theorem y0_sq (l : Nat) : y0 l * y0 l = (2 * l + 1) / (4 * Real.pi) :=
  Real.mul_self_sqrt (by have := Real.pi_pos; positivity)

theorem legendre_one (l : Nat) : (legendre l).eval 1 = 1 := by
  have h := legendreP_eq (l := l) (m := 0) (Nat.zero_le _) (c := 1) (s := 0) (x := 1) (by norm_num)
    (by norm_num) (by norm_num)
  unfold legendreP at h
  simp only [pow_zero, one_mul, Function.iterate_zero, id] at h
  rw [h, Nat.add_zero, div_self (by exact_mod_cast l.factorial_ne_zero), one_mul, mCoef,
    sum_eq_single 0]
  · unfold mTerm
    simp
  · intro k hk hne
    unfold mTerm
    rw [zero_pow hne]
    ring
  · intro h
    exfalso; apply h
    rw [mem_filter, mem_range]; omega

theorem legendre_neg_one {l : Nat} (h2 : 2 ∣ l) : (legendre l).eval (-1) = 1 := by
  have h := legendreP_eq (l := l) (m := 0) (Nat.zero_le _) (c := 0) (s := 1) (x := -1) (by norm_num)
    (by norm_num) (by norm_num)
  unfold legendreP at h
  simp only [pow_zero, one_mul, Function.iterate_zero, id] at h
  rw [h, Nat.add_zero, div_self (by exact_mod_cast l.factorial_ne_zero), one_mul, mCoef,
    sum_eq_single l]
  · unfold mTerm
    obtain ⟨k, rfl⟩ := h2
    have e : 0 + 2 * k + 2 * k - 2 * k = 2 * k := by omega
    have e' : 2 * (2 * k) - 2 * k = 2 * k := by omega
    rw [e, e']
    simp
  · intro k hk hne
    rw [mem_filter, mem_range] at hk
    unfold mTerm
    rw [zero_pow (show l - k ≠ 0 by omega)]
    ring
  · intro h
    exfalso; apply h
    rw [mem_filter, mem_range]; omega

/-- The coefficient of order 0 is the Legendre polynomial of the cosine of the colatitude. -/
theorem bond_order_zero {v : Fin 3 → ℝ} (hv : v ≠ 0) {q : BooData} (h : ofBond v = .ok q) {l : Nat}
    (h2 : 2 ∣ l) (hl : l ≤ 10) : cf q l 0 = ((y0 l * (legendre l).eval (v 2 / len v) : ℝ) : ℂ) := by
  by_cases hz : v 0 = 0 ∧ v 1 = 0
  · rw [pole_cf hv hz.1 hz.2 h h2 hl 0 (by simp)]
    have hsq := len_sq v
    rw [hz.1, hz.2] at hsq
    have hp := (len_pos hv).ne'
    have hs : (v 2 / len v) ^ 2 = 1 := by
      rw [div_pow]
      have : v 2 ^ 2 = len v ^ 2 := by rw [hsq]; ring
      rw [this]; field_simp
    have : (legendre l).eval (v 2 / len v) = 1 := by
      rcases (sq_eq_sq_iff_eq_or_eq_neg.1 (hs.trans (one_pow 2).symm)) with h | h
      · rw [h]; exact legendre_one l
      · rw [h]; exact legendre_neg_one h2
    rw [this]
    simp [delta]
  · obtain ⟨q', e, hq, hst⟩ := ofBond_ok v
    have : q' = q := by rw [h] at e; exact (Except.ok.inj e).symm
    subst q'
    have hst0 := hst l 0 h2 hl (Nat.zero_le _)
    have hcf : cf q l 0 = st q l 0 := by simp [cf]
    rw [hcf, hst0]
    have hcos : Real.cos (cartesian2spherical v).2.1 = v 2 / len v := by
      obtain ⟨_, _, f, hf, _, hc, hs⟩ := c2s_dir hv
      rw [hc]
      have hsq := len_sq v
      have hr := len_pos hv
      unfold cartesian2spherical at hc
      simp only at hc
      rw [show √(v 0 ^ 2 + v 1 ^ 2 + v 2 ^ 2) = len v from rfl, if_neg] at hc
      · have hle : |v 2| ≤ len v := by
          apply abs_le_of_sq_le_sq _ hr.le
          nlinarith [sq_nonneg (v 0), sq_nonneg (v 1)]
        have habs := abs_le.1 hle
        rw [Real.cos_arccos] at hc
        · exact hc.symm
        · rw [le_div_iff₀ hr]; linarith
        · rw [div_le_iff₀ hr]; linarith
      · rintro (h | h)
        · apply hz
          have : v 2 ^ 2 = len v ^ 2 := by rw [← h, sq_abs]
          constructor
          · have : v 0 ^ 2 = 0 := by nlinarith [sq_nonneg (v 0), sq_nonneg (v 1)]
            simpa using this
          · have : v 1 ^ 2 = 0 := by nlinarith [sq_nonneg (v 0), sq_nonneg (v 1)]
            simpa using this
        · exact absurd h (by positivity)
    unfold sphericalHarmonic legendreP
    rw [hcos]
    have hf : ((l - 0).factorial : ℝ) / ((l + 0).factorial : ℝ) = 1 :=
      div_self (by exact_mod_cast l.factorial_ne_zero)
    rw [hf]
    simp [y0]

/-- The case of a bond along the axis `z`. -/
theorem pole_product {v w : Fin 3 → ℝ} (hv : v ≠ 0) (hw : w ≠ 0) (h0 : v 0 = 0) (h1 : v 1 = 0)
    (hz : 0 < v 2) {q p : BooData} (h : ofBond v = .ok q) (h' : ofBond w = .ok p) {l : Nat}
    (h2 : 2 ∣ l) (hl : l ≤ 10) : innerProduct q p l = .ok ((2 * l + 1) / (4 * Real.pi)
      * (legendre l).eval ((v 0 * w 0 + v 1 * w 1 + v 2 * w 2) / (len v * len w))) := by
  have hR := bond_real hv h
  have hR' := bond_real hw h'
  rw [innerProduct_eq hR.1 hR'.1 h2 hl, hR.im h2 hl, h0, h1]
  have hlen : len v = v 2 := by
    unfold len
    rw [h0, h1]
    simp [Real.sqrt_sq hz.le]
  have hsum : ∑ m ∈ Finset.Icc (-(l : Int)) l, cf q l m * conj (cf p l m)
      = (y0 l : ℂ) * conj (cf p l 0) := by
    rw [sum_eq_single 0]
    · rw [pole_cf hv h0 h1 h h2 hl 0 (by simp)]
      simp [delta]
    · intro m hm hne
      rw [mem_Icc] at hm
      rw [pole_cf hv h0 h1 h h2 hl m (by omega)]
      simp [delta, hne]
    · intro hn
      exfalso; apply hn
      rw [mem_Icc]; omega
  rw [hsum, bond_order_zero hw h' h2 hl, Complex.conj_ofReal, ← Complex.ofReal_mul,
    Complex.ofReal_re, hlen, ← mul_assoc, y0_sq]
  have : (0 * w 0 + 0 * w 1 + v 2 * w 2) / (v 2 * len w) = w 2 / len w := by
    have := (len_pos hw).ne'
    field_simp
    ring
  rw [this, mul_zero, zero_mul, sub_zero]

/-- A half turn preserves the scalar products. -/
theorem halfTurn_dot {a : Fin 3 → ℝ} (ha : a ≠ 0) (v w : Fin 3 → ℝ) :
    halfTurn a v 0 * halfTurn a w 0 + halfTurn a v 1 * halfTurn a w 1
      + halfTurn a v 2 * halfTurn a w 2 = v 0 * w 0 + v 1 * w 1 + v 2 * w 2 := by
  have hn0 : a 0 ^ 2 + a 1 ^ 2 + a 2 ^ 2 ≠ 0 := by
    rw [← len_sq]; exact pow_ne_zero 2 (len_pos ha).ne'
  unfold halfTurn
  field_simp
  ring

theorem len_neg' (v : Fin 3 → ℝ) : len (fun i => (-1) * v i) = len v := by
  unfold len
  refine congrArg Real.sqrt ?_
  ring

/-- The addition theorem: the scalar product of the tensors of two bonds depends only on the angle
between them, through the Legendre polynomial. -/
theorem C83_addition (v w : Fin 3 → ℝ) (hv : v ≠ 0) (hw : w ≠ 0) (q p : BooData)
    (h : ofBond v = .ok q) (h' : ofBond w = .ok p) (l : Nat) (h2 : 2 ∣ l) (hl : l ≤ 10) :
    innerProduct q p l = .ok ((2 * l + 1) / (4 * Real.pi)
      * (legendre l).eval ((v 0 * w 0 + v 1 * w 1 + v 2 * w 2) / (len v * len w))) := by
  by_cases hz : v 0 = 0 ∧ v 1 = 0
  · have hv2 : v 2 ≠ 0 := by
      intro e
      apply hv
      funext i
      fin_cases i
      · exact hz.1
      · exact hz.2
      · exact e
    rcases lt_or_gt_of_ne hv2 with hneg | hpos
    · have hv' : (fun i => (-1) * v i) ≠ 0 := by
        intro e
        have := congrFun e 2
        simp at this
        exact hv2 this
      have hw' : (fun i => (-1) * w i) ≠ 0 := by
        intro e
        apply hw
        funext i
        have := congrFun e i
        simpa using this
      have e1 := C83_direction v hv (-1) (by norm_num)
      have e2 := C83_direction w hw (-1) (by norm_num)
      have := pole_product hv' hw' (by simp [hz.1])
        (by simp [hz.2]) (by simp; exact hneg) (e1.trans h) (e2.trans h') h2 hl
      rw [this]
      rw [len_neg', len_neg']
      rw [show -1 * v 0 * (-1 * w 0) + -1 * v 1 * (-1 * w 1) + -1 * v 2 * (-1 * w 2)
        = v 0 * w 0 + v 1 * w 1 + v 2 * w 2 by ring]
    · exact pole_product hv hw hz.1 hz.2 hpos h h' h2 hl
  · -- half turn around the bisector of the bond and the axis z
    let a : Fin 3 → ℝ := ![v 0, v 1, v 2 + len v]
    have hr := len_pos hv
    have hsq := len_sq v
    have ha : a ≠ 0 := by
      intro e
      apply hz
      exact ⟨congrFun e 0, congrFun e 1⟩
    have a0 : a 0 = v 0 := rfl
    have a1 : a 1 = v 1 := rfl
    have a2 : a 2 = v 2 + len v := rfl
    have hn : a 0 ^ 2 + a 1 ^ 2 + a 2 ^ 2 = 2 * len v * (v 2 + len v) := by
      rw [a0, a1, a2]
      linear_combination -hsq
    have hn0 : a 0 ^ 2 + a 1 ^ 2 + a 2 ^ 2 ≠ 0 := by
      rw [← len_sq]; exact pow_ne_zero 2 (len_pos ha).ne'
    have hs0 : v 2 + len v ≠ 0 := by
      intro e
      rw [hn, e, mul_zero] at hn0
      exact hn0 rfl
    have hd : v 0 * a 0 + v 1 * a 1 + v 2 * a 2 = len v * (v 2 + len v) := by
      rw [a0, a1, a2]
      linear_combination -hsq
    have ht : halfTurn a v = ![0, 0, len v] := by
      funext i
      unfold halfTurn
      rw [hd, hn]
      have : 2 * (len v * (v 2 + len v)) / (2 * len v * (v 2 + len v)) = 1 := by
        field_simp
      rw [this, one_mul]
      fin_cases i
      · show v 0 - v 0 = 0; ring
      · show v 1 - v 1 = 0; ring
      · show v 2 + len v - v 2 = len v; ring
    obtain ⟨q1, q', e1, e2, e3⟩ := C82_half_turn a v ha hv
    have : q1 = q := by rw [h] at e1; exact (Except.ok.inj e1).symm
    subst q1
    obtain ⟨p1, p', f1, f2, f3⟩ := C82_half_turn a w ha hw
    have : p1 = p := by rw [h'] at f1; exact (Except.ok.inj f1).symm
    subst p1
    rw [← C82_product q p (bond_real hv h) (bond_real hw h') a ha q' p' e3 f3 l h2 hl]
    rw [pole_product (halfTurn_ne ha hv) (halfTurn_ne ha hw) (by rw [ht]; rfl)
      (by rw [ht]; rfl) (by rw [ht]; exact hr) e2 f2 h2 hl]
    rw [halfTurn_len ha, halfTurn_len ha, halfTurn_dot ha]

/-- Two orthogonal bonds. -/
example (q p : BooData) (h : ofBond ![1, 2, 1] = .ok q) (h' : ofBond ![1, 0, -1] = .ok p) :
    innerProduct q p 6 = .ok ((2 * (6 : Nat) + 1) / (4 * Real.pi) * (legendre 6).eval 0) := by
  rw [C83_addition _ _ (vec_ne one_ne_zero) (vec_ne (by norm_num)) q p h h' 6 (by norm_num) (by norm_num)]
  norm_num [vec_two]

/-- The sum of norms of a single bond, whatever its direction, and hence its `Q_l` which is 1. -/
theorem C83_unit (v : Fin 3 → ℝ) (hv : v ≠ 0) (q : BooData) (h : ofBond v = .ok q) (l : Nat)
    (h2 : 2 ∣ l) (hl : l ≤ 10) :
    sumNorm q l = .ok ((2 * l + 1) / (4 * Real.pi)) ∧ getQl q l = .ok 1 := by
  have hR := bond_real hv h
  have hs : sumNorm q l = .ok ((2 * l + 1) / (4 * Real.pi)) := by
    obtain ⟨x, hx⟩ := hR.2 l h2 hl
    rw [← (C37_self q hR.1 l h2 hl _ hx).2 (by simp), C83_addition v v hv hv q q h h l h2 hl]
    have hp := (len_pos hv).ne'
    have : (v 0 * v 0 + v 1 * v 1 + v 2 * v 2) / (len v * len v) = 1 := by
      have := len_sq v
      rw [div_eq_one_iff_eq (mul_ne_zero hp hp)]
      linear_combination -this
    rw [this, legendre_one, mul_one]
  refine ⟨hs, ?_⟩
  unfold getQl
  rw [hs, ok_bind]
  show Except.ok _ = Except.ok _
  refine congrArg Except.ok ?_
  have hpi := Real.pi_pos.ne'
  have : 4 * Real.pi * ((2 * (l : ℝ) + 1) / (4 * Real.pi)) / (2 * l + 1) = 1 := by
    have : (2 * (l : ℝ) + 1) ≠ 0 := by positivity
    field_simp
  rw [this, Real.sqrt_one]

/-- A bond off the axes. -/
example (q : BooData) (h : ofBond ![1, 2, 3] = .ok q) : getQl q 6 = .ok 1 :=
  (C83_unit _ (vec_ne three_ne_zero) q h 6 (by norm_num) (by norm_num)).2

/-- The normed product of two bonds is the Legendre polynomial of the cosine of their angle. -/
theorem C83_normed (v w : Fin 3 → ℝ) (hv : v ≠ 0) (hw : w ≠ 0) (q p : BooData)
    (h : ofBond v = .ok q) (h' : ofBond w = .ok p) (l : Nat) (h2 : 2 ∣ l) (hl : l ≤ 10) :
    normedProduct q p l
      = .ok ((legendre l).eval ((v 0 * w 0 + v 1 * w 1 + v 2 * w 2) / (len v * len w))) := by
  unfold normedProduct
  rw [C83_addition v w hv hw q p h h' l h2 hl, ok_bind, (C83_unit v hv q h l h2 hl).1, ok_bind,
    (C83_unit w hw p h' l h2 hl).1, ok_bind]
  show Except.ok _ = Except.ok _
  refine congrArg Except.ok ?_
  have hpos : 0 < (2 * (l : ℝ) + 1) / (4 * Real.pi) := by have := Real.pi_pos; positivity
  rw [Real.sqrt_mul_self hpos.le]
  field_simp

/-- A bond with itself. -/
example (q : BooData) (h : ofBond ![1, 2, 2] = .ok q) : normedProduct q q 4 = .ok 1 := by
  rw [C83_normed _ _ (vec_ne two_ne_zero) (vec_ne two_ne_zero) q q h h 4 (by norm_num) (by norm_num)]
  have hl : len ![1, 2, 2] * len ![1, 2, 2] = 9 := by
    rw [← pow_two, len_sq]
    norm_num [vec_two]
  rw [hl]
  have : ((![1, 2, 2] : Fin 3 → ℝ) 0 * (![1, 2, 2] : Fin 3 → ℝ) 0 + (![1, 2, 2] : Fin 3 → ℝ) 1
      * (![1, 2, 2] : Fin 3 → ℝ) 1 + (![1, 2, 2] : Fin 3 → ℝ) 2 * (![1, 2, 2] : Fin 3 → ℝ) 2) / 9 = 1 := by
    norm_num [vec_two]
  rw [this, legendre_one]

theorem sq_sum_list (xs : List ℝ) : xs.sum ^ 2 ≤ xs.length * (xs.map (fun x => x ^ 2)).sum := by
  induction xs with
  | nil => simp
  | cons x xs ih =>
    rw [List.sum_cons, List.map_cons, List.sum_cons, List.length_cons]
    push_cast
    by_cases h : xs.length = 0
    · have : xs = [] := List.length_eq_zero_iff.1 h
      subst this
      simp
    · have hn : (0 : ℝ) < xs.length := by
        have : 0 < xs.length := Nat.pos_of_ne_zero h
        exact_mod_cast this
      set n : ℝ := (xs.length : ℝ)
      set S := xs.sum
      set Q := (xs.map (fun x => x ^ 2)).sum
      have h1 : 0 ≤ (n * x - S) ^ 2 := sq_nonneg _
      have h2 : 2 * x * S ≤ n * x ^ 2 + Q := by
        have : n * (2 * x * S) ≤ n * (n * x ^ 2 + Q) := by nlinarith
        exact le_of_mul_le_mul_left this hn
      nlinarith

theorem norm_sum_list (zs : List ℂ) :
    Complex.normSq zs.sum ≤ zs.length * (zs.map Complex.normSq).sum := by
  have h1 : ‖zs.sum‖ ≤ (zs.map (fun z => ‖z‖)).sum := by
    induction zs with
    | nil => simp
    | cons z zs ih =>
      rw [List.sum_cons, List.map_cons, List.sum_cons]
      exact (norm_add_le _ _).trans (by linarith)
  have h2 := sq_sum_list (zs.map (fun z => ‖z‖))
  rw [List.length_map, List.map_map] at h2
  rw [Complex.normSq_eq_norm_sq]
  have e : (zs.map Complex.normSq) = zs.map ((fun x => x ^ 2) ∘ fun z => ‖z‖) := by
    apply List.map_congr_left
    intro z _
    exact Complex.normSq_eq_norm_sq z
  rw [e]
  exact (pow_le_pow_left₀ (norm_nonneg _) h1 2).trans h2

theorem sumBonds_cf (vs : List (Fin 3 → ℝ)) {q : BooData} (h : sumBonds vs = .ok q) {l : Nat}
    (h2 : 2 ∣ l) (hl : l ≤ 10) (m : Int) (hm : m.natAbs ≤ l) :
    ∃ qs : List BooData, vs.mapM ofBond = .ok qs ∧ cf q l m = (qs.map (fun p => cf p l m)).sum := by
  induction vs using List.reverseRecOn generalizing q with
  | nil =>
    have : q = blank := (Except.ok.inj h).symm
    subst q
    exact ⟨[], rfl, by rw [cf_blank]; rfl⟩
  | append_singleton vs v ih =>
    obtain ⟨q1, e1, hq1⟩ := sumBonds_len vs
    obtain ⟨p, e2, hp, _⟩ := ofBond_ok v
    rw [sumBonds_append, e1, ok_bind, e2, ok_bind] at h
    have : q = combine 1 1 q1 p := by rw [combine_one]; exact (Except.ok.inj h).symm
    subst q
    obtain ⟨qs, e3, e4⟩ := ih e1
    refine ⟨qs ++ [p], ?_, ?_⟩
    · rw [List.mapM_append, e3, ok_bind]
      simp [e2, ok_bind, pure_eq_ok]
    · rw [cf_combine hq1 hp h2 hl hm, e4]
      simp

theorem mapM_ofBond {vs : List (Fin 3 → ℝ)} {qs : List BooData} (h : vs.mapM ofBond = .ok qs) :
    qs.length = vs.length ∧ ∀ p ∈ qs, ∃ v ∈ vs, ofBond v = .ok p := by
  induction vs generalizing qs with
  | nil =>
    have : qs = [] := (Except.ok.inj h).symm
    subst this
    simp
  | cons v vs ih =>
    obtain ⟨p, e2, _, _⟩ := ofBond_ok v
    rw [List.mapM_cons, e2, ok_bind] at h
    cases h3 : vs.mapM ofBond with
    | error e => rw [h3] at h; exact absurd h (by simp [error_bind])
    | ok qs' =>
      rw [h3, ok_bind] at h
      have : qs = p :: qs' := (Except.ok.inj h).symm
      subst this
      obtain ⟨i1, i2⟩ := ih h3
      refine ⟨by simp [i1], ?_⟩
      intro p' hp'
      rcases List.mem_cons.1 hp' with rfl | hp'
      · exact ⟨v, by simp, e2⟩
      · obtain ⟨w, hw, e⟩ := i2 p' hp'
        exact ⟨w, by simp [hw], e⟩

/-- The order parameter `Q_l` of the average of the tensors of any non empty set of bonds is between
0 and 1. -/
theorem C83_bounded (vs : List (Fin 3 → ℝ)) (hv : ∀ v ∈ vs, v ≠ 0) (hne : vs ≠ []) (q : BooData)
    (h : sumBonds vs = .ok q) (l : Nat) (h2 : 2 ∣ l) (hl : l ≤ 10) :
    ∃ x, getQl (q.map (fun z => z / (vs.length : ℂ))) l = .ok x ∧ 0 ≤ x ∧ x ≤ 1 := by
  have hq : q.length = 36 := by
    obtain ⟨r, e, hr⟩ := sumBonds_len vs
    rw [h] at e
    rw [Except.ok.inj e]; exact hr
  have hn : (0 : ℝ) < vs.length := by exact_mod_cast List.length_pos_iff.2 hne
  have hdiv : ∀ m : Int, m.natAbs ≤ l → cf (q.map (fun z => z / (vs.length : ℂ))) l m
      = cf q l m / (vs.length : ℂ) := by
    have hst : ∀ m : Nat, st (q.map (fun z => z / (vs.length : ℂ))) l m
        = st q l m / (vs.length : ℂ) := by
      intro m
      unfold st
      rw [List.getElem?_map]
      cases q[slot l m]? <;> simp
    intro m _
    unfold cf
    rw [hst, hst]
    split
    · rfl
    · rw [map_div₀, Complex.conj_natCast]; ring
  unfold getQl
  rw [sumNorm_eq (by rw [List.length_map, hq]) h2 hl, ok_bind]
  refine ⟨_, rfl, Real.sqrt_nonneg _, ?_⟩
  refine le_of_le_of_eq (Real.sqrt_le_sqrt ?_) Real.sqrt_one
  have hpi := Real.pi_pos
  rw [div_le_one (by positivity)]
  -- each coefficient
  obtain ⟨qs, eqs, _⟩ := sumBonds_cf vs h h2 hl 0 (by simp)
  obtain ⟨hlen, hmem⟩ := mapM_ofBond eqs
  have hterm : ∀ m ∈ Finset.Icc (-(l : Int)) l,
      Complex.normSq (cf (q.map (fun z => z / (vs.length : ℂ))) l m)
      ≤ (vs.length : ℝ)⁻¹ * (qs.map (fun p => Complex.normSq (cf p l m))).sum := by
    intro m hm
    rw [mem_Icc] at hm
    obtain ⟨qs', e, hc⟩ := sumBonds_cf vs h h2 hl m (by omega)
    have : qs' = qs := by rw [eqs] at e; exact (Except.ok.inj e).symm
    subst qs'
    rw [hdiv m (by omega), hc, Complex.normSq_div, Complex.normSq_natCast]
    have := norm_sum_list (qs.map (fun p => cf p l m))
    rw [List.length_map, List.map_map, hlen] at this
    rw [div_le_iff₀ (by positivity)]
    refine this.trans (le_of_eq ?_)
    have e : (List.map (Complex.normSq ∘ fun p => cf p l m) qs)
        = qs.map (fun p => Complex.normSq (cf p l m)) := rfl
    rw [e]
    field_simp
  have hsum := Finset.sum_le_sum hterm
  rw [← mul_sum] at hsum
  have hswap : ∀ ps : List BooData, (∀ p ∈ ps, ∃ v ∈ vs, ofBond v = .ok p) →
      ∑ m ∈ Finset.Icc (-(l : Int)) l, (ps.map (fun p => Complex.normSq (cf p l m))).sum
      = ps.length * ((2 * l + 1) / (4 * Real.pi)) := by
    intro ps
    induction ps with
    | nil => intro _; simp
    | cons p ps ih =>
      intro hps
      obtain ⟨v, hvm, e⟩ := hps p (by simp)
      have hu := (C83_unit v (hv v hvm) p e l h2 hl).1
      rw [sumNorm_eq (ofBond_len e) h2 hl] at hu
      simp only [List.map_cons, List.sum_cons, List.length_cons]
      rw [sum_add_distrib, Except.ok.inj hu, ih (fun p hp => hps p (by simp [hp]))]
      push_cast
      ring
  rw [hswap qs hmem, hlen] at hsum
  have : 4 * Real.pi * ((vs.length : ℝ)⁻¹ * (vs.length * ((2 * l + 1) / (4 * Real.pi))))
      = 2 * l + 1 := by
    field_simp
  rw [← this]
  exact mul_le_mul_of_nonneg_left hsum (by positivity)

/-- Two bonds. -/
example (q : BooData) (h : sumBonds [![1, 2, 3], ![0, 0, 1]] = .ok q) :
    ∃ x, getQl (q.map (fun z => z / ((2 : Nat) : ℂ))) 6 = .ok x ∧ 0 ≤ x ∧ x ≤ 1 := by
  refine C83_bounded [![1, 2, 3], ![0, 0, 1]] ?_ (by simp) q h 6 (by norm_num) (by norm_num)
  intro v hv
  simp only [List.mem_cons, List.not_mem_nil, or_false] at hv
  rcases hv with rfl | rfl
  · exact vec_ne three_ne_zero
  · exact vec_ne one_ne_zero

/-- `isnull` recognises the particles without any bond. -/
theorem C83_isnull (vs : List (Fin 3 → ℝ)) (hv : ∀ v ∈ vs, v ≠ 0) (q : BooData)
    (h : sumBonds vs = .ok q) : isnull q = .ok (decide (vs = [])) := by
  have hq : q.length = 36 := by
    obtain ⟨r, e, hr⟩ := sumBonds_len vs
    rw [h] at e
    rw [Except.ok.inj e]; exact hr
  have h1 := getR_slot (l := 0) (m := 0) hq (by norm_num) (by norm_num) (le_refl _)
  have h1' : getR q 0 = .ok (st q 0 0) := h1
  obtain ⟨qs, eqs, hc⟩ := sumBonds_cf vs h (l := 0) (by norm_num) (by norm_num) 0 (by simp)
  obtain ⟨hlen, hmem⟩ := mapM_ofBond eqs
  have hval : ∀ p ∈ qs, cf p 0 0 = (y0 0 : ℂ) := by
    intro p hp
    obtain ⟨v, hvm, e⟩ := hmem p hp
    have := bond_order_zero (hv v hvm) e (l := 0) (by norm_num) (by norm_num)
    rw [this]
    simp [legendre]
  have hcf : cf q 0 0 = st q 0 0 := by simp [cf]
  have hy : y0 0 ≠ 0 := by
    unfold y0
    have := Real.pi_pos
    exact Real.sqrt_ne_zero'.2 (by positivity)
  have hsum : st q 0 0 = (vs.length : ℂ) * (y0 0 : ℂ) := by
    rw [← hcf, hc, List.map_congr_left hval, List.map_const', List.sum_replicate, hlen, nsmul_eq_mul]
  unfold isnull
  rw [h1', ok_bind]
  show Except.ok _ = Except.ok _
  refine congrArg Except.ok ?_
  rw [decide_eq_decide, hsum, Complex.normSq_eq_zero, mul_eq_zero]
  constructor
  · rintro (h | h)
    · have : vs.length = 0 := by exact_mod_cast h
      exact List.length_eq_zero_iff.1 this
    · exact absurd (by exact_mod_cast h) hy
  · intro h
    left
    rw [h]; simp

/-- With one bond and without bond. -/
example (q : BooData) (h : sumBonds [![1, 2, 3]] = .ok q) : isnull q = .ok false := by
  rw [C83_isnull [![1, 2, 3]] (by intro v hv; simp at hv; rw [hv]; exact vec_ne three_ne_zero) q h]
  simp

example : isnull blank = .ok true := by
  rw [C83_isnull [] (by simp) blank rfl]
  simp

end Boo
end Colloids
