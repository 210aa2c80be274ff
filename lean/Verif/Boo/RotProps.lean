import Verif.Boo.RotHalf

/-! # C82-C84 : bonds, half turns and reflections -/

namespace Colloids
namespace Boo
open ComplexConjugate Finset

theorem vec_two (a b c : ℝ) : (![a, b, c] : Fin 3 → ℝ) 2 = c := rfl

theorem vec_ne {a b c : ℝ} (h : c ≠ 0) : (![a, b, c] : Fin 3 → ℝ) ≠ 0 := by
  intro e
  have := congrFun e 2
  exact h this

/-- A tensor that can be the one of real functions: 36 coefficients, those of order 0 being real. -/
def RealTensor (q : BooData) : Prop :=
  q.length = 36 ∧ ∀ l : Nat, 2 ∣ l → l ≤ 10 → ∃ x : ℝ, coef q l 0 = .ok (x : ℂ)

theorem RealTensor.im {q : BooData} (h : RealTensor q) {l : Nat} (h2 : 2 ∣ l) (hl : l ≤ 10) :
    (cf q l 0).im = 0 := by
  obtain ⟨x, hx⟩ := h.2 l h2 hl
  rw [coef_eq h.1 h2 hl (by simp)] at hx
  rw [Except.ok.inj hx]
  simp

theorem realTensor_of {q : BooData} (hq : q.length = 36)
    (h : ∀ l : Nat, 2 ∣ l → l ≤ 10 → (cf q l 0).im = 0) : RealTensor q := by
  refine ⟨hq, ?_⟩
  intro l h2 hl
  refine ⟨(cf q l 0).re, ?_⟩
  rw [coef_eq hq h2 hl (by simp)]
  congr 1
  apply Complex.ext
  · simp
  · simp [h l h2 hl]

/-! ## C82 : the half turn of a tensor -/

/-- The half turn never reads nor writes out of its tables, whatever the tensor and the axis. -/
theorem C82_total (q : BooData) (hq : q.length = 36) (a : Fin 3 → ℝ) :
    ∃ res, rotateByPi q a = .ok res ∧ res.length = 36 := by
  obtain ⟨res, h1, h2, _⟩ := rotate_st hq a
  exact ⟨res, h1, h2⟩

/-- Any tensor around any axis, for instance the null one. -/
example : ∃ res, rotateByPi blank ![1, 2, 3] = .ok res ∧ res.length = 36 :=
  C82_total blank (by simp [blank]) _

theorem ofBond_len {v : Fin 3 → ℝ} {q : BooData} (h : ofBond v = .ok q) : q.length = 36 := by
  obtain ⟨q', e, hq, _⟩ := ofBond_ok v
  have : q' = q := by rw [h] at e; exact (Except.ok.inj e).symm
  subst q'
  exact hq

/-- The tensor of a bond is real. -/
theorem bond_real {v : Fin 3 → ℝ} (hv : v ≠ 0) {q : BooData} (h : ofBond v = .ok q) :
    RealTensor q := by
  refine realTensor_of (ofBond_len h) ?_
  intro l h2 hl
  rw [bond_cf v hv h h2 hl 0 (by simp)]
  have := im_of_realC (realC_rotC (realC_delta l) (-(cartesian2spherical v).2.2)
    (cartesian2spherical v).2.1 0)
  rw [Complex.mul_im, this]
  simp

/-- A real tensor stays real. -/
theorem rotate_real {q : BooData} (hq : RealTensor q) {a : Fin 3 → ℝ} {res : BooData}
    (h : rotateByPi q a = .ok res) : RealTensor res := by
  obtain ⟨res', e, hlen, _⟩ := rotate_st hq.1 a
  have : res' = res := by rw [h] at e; exact (Except.ok.inj e).symm
  subst res'
  refine realTensor_of hlen ?_
  intro l h2 hl
  exact im_of_realC (rotate_cf hq.1 a h h2 hl (hq.im h2 hl)).2

theorem halfTurn_sq {a : Fin 3 → ℝ} (ha : a ≠ 0) (v : Fin 3 → ℝ) :
    halfTurn a v 0 ^ 2 + halfTurn a v 1 ^ 2 + halfTurn a v 2 ^ 2 = v 0 ^ 2 + v 1 ^ 2 + v 2 ^ 2 := by
  have h := len_sq a
  have hp : a 0 ^ 2 + a 1 ^ 2 + a 2 ^ 2 ≠ 0 := by
    rw [← h]; exact pow_ne_zero 2 (len_pos ha).ne'
  unfold halfTurn
  field_simp
  ring

theorem halfTurn_len {a : Fin 3 → ℝ} (ha : a ≠ 0) (v : Fin 3 → ℝ) : len (halfTurn a v) = len v := by
  unfold len
  rw [halfTurn_sq ha]

theorem halfTurn_ne {a v : Fin 3 → ℝ} (ha : a ≠ 0) (hv : v ≠ 0) : halfTurn a v ≠ 0 := by
  intro h
  have := len_pos hv
  rw [← halfTurn_len ha v, h] at this
  simp [len] at this

/-- The half turn of the tensor of a bond is the tensor of the turned bond. -/
theorem C82_half_turn (a v : Fin 3 → ℝ) (ha : a ≠ 0) (hv : v ≠ 0) :
    ∃ q q', ofBond v = .ok q ∧ ofBond (halfTurn a v) = .ok q' ∧ rotateByPi q a = .ok q' := by
  obtain ⟨q, h1, hq, _⟩ := ofBond_ok v
  obtain ⟨q', h2, hq', _⟩ := ofBond_ok (halfTurn a v)
  obtain ⟨res, h3, hres, _⟩ := rotate_st hq a
  refine ⟨q, q', h1, h2, ?_⟩
  rw [h3]
  refine congrArg Except.ok ?_
  apply boo_ext hres hq'
  intro l hl2 hl m hm
  have hR := bond_real hv h1
  have hcf := (rotate_cf hq a h3 hl2 hl (hR.im hl2 hl)).1
  refine gen_unique (l := l) ?_ m (by omega)
  intro x
  rw [gen_congr hcf, gen_hT ha hl2, bond_gen hv h1 hl2 hl, bond_gen (halfTurn_ne ha hv) h2 hl2 hl]
  have hf := formQ_half (n := fun i => a i / len a) (u := fun i => v i / len v)
    (w := fun i => halfTurn a v i / len (halfTurn a v)) (unit_sq ha) (by
      intro i
      rw [halfTurn_len ha]
      have hs := len_sq a
      have hp := (len_pos ha).ne'
      have hp' := (len_pos hv).ne'
      unfold halfTurn
      rw [← hs]
      field_simp) x 1
  rw [hf]
  obtain ⟨k, rfl⟩ := hl2
  rw [Even.neg_pow (even_two_mul k)]

/-- A bond and an axis which are neither parallel nor orthogonal. -/
example : ∃ q q', ofBond ![1, 2, 3] = .ok q ∧ ofBond (halfTurn ![0, 1, 1] ![1, 2, 3]) = .ok q' ∧
    rotateByPi q ![0, 1, 1] = .ok q' :=
  C82_half_turn _ _ (vec_ne one_ne_zero) (vec_ne three_ne_zero)

/-- The bond `(1, 2, 3)` turned around `(0, 1, 1)`. -/
example : halfTurn ![0, 1, 1] ![1, 2, 3] = ![-1, 3, 2] := by
  funext i
  unfold halfTurn
  fin_cases i <;> norm_num [vec_two]

/-- The half turn preserves what is along the axis and reverses what is perpendicular to it: there is
only one such linear map. -/
theorem C82_axis_fixed (a v : Fin 3 → ℝ) (ha : a ≠ 0) (t : ℝ)
    (hv : v 0 * a 0 + v 1 * a 1 + v 2 * a 2 = 0) :
    halfTurn a (fun i => t * a i + v i) = fun i => t * a i - v i := by
  have h := len_sq a
  have hp : a 0 ^ 2 + a 1 ^ 2 + a 2 ^ 2 ≠ 0 := by
    rw [← h]; exact pow_ne_zero 2 (len_pos ha).ne'
  funext i
  unfold halfTurn
  have e : (t * a 0 + v 0) * a 0 + (t * a 1 + v 1) * a 1 + (t * a 2 + v 2) * a 2
      = t * (a 0 ^ 2 + a 1 ^ 2 + a 2 ^ 2) := by linear_combination hv
  simp only [e]
  field_simp
  ring

/-- Around the axis `z` the horizontal component is reversed. -/
example : halfTurn ![0, 0, 1] (fun i => 5 * (![0, 0, 1] : Fin 3 → ℝ) i + (![1, 2, 0] : Fin 3 → ℝ) i)
    = fun i => 5 * (![0, 0, 1] : Fin 3 → ℝ) i - (![1, 2, 0] : Fin 3 → ℝ) i :=
  C82_axis_fixed _ _ (vec_ne one_ne_zero) 5 (by norm_num [vec_two])

/-- Linear combination of two tensors with real factors. -/
noncomputable def combine (s t : ℝ) (q q' : BooData) : BooData :=
  List.zipWith (fun x y => (s : ℂ) * x + (t : ℂ) * y) q q'

theorem combine_len {s t : ℝ} {q q' : BooData} (hq : q.length = 36) (hq' : q'.length = 36) :
    (combine s t q q').length = 36 := by
  unfold combine; rw [List.length_zipWith, hq, hq']; rfl

theorem st_combine {s t : ℝ} {q q' : BooData} (hq : q.length = 36) (hq' : q'.length = 36) {l m : Nat}
    (h2 : 2 ∣ l) (hl : l ≤ 10) (hm : m ≤ l) :
    st (combine s t q q') l m = s * st q l m + t * st q' l m := by
  have := slot_lt h2 hl hm
  unfold st combine
  rw [List.getElem?_zipWith]
  rw [List.getElem?_eq_getElem (by omega), List.getElem?_eq_getElem (by omega)]
  simp

theorem cf_combine {s t : ℝ} {q q' : BooData} (hq : q.length = 36) (hq' : q'.length = 36) {l : Nat}
    (h2 : 2 ∣ l) (hl : l ≤ 10) {m : Int} (hm : m.natAbs ≤ l) :
    cf (combine s t q q') l m = s * cf q l m + t * cf q' l m := by
  unfold cf
  split
  · exact st_combine hq hq' h2 hl (by omega)
  · rw [st_combine hq hq' h2 hl (by omega), map_add, map_mul, map_mul, Complex.conj_ofReal,
      Complex.conj_ofReal]
    ring

theorem hT_congr {a : Fin 3 → ℝ} {l : Nat} {A B : Int → ℂ} (h : ∀ m : Int, m.natAbs ≤ l → A m = B m)
    (m : Int) : hT a l A m = hT a l B m := by
  unfold hT rotC
  congr 1
  apply sum_congr rfl
  intro p hp
  rw [mem_range] at hp
  rw [h _ (by omega)]

theorem hT_lin (a : Fin 3 → ℝ) (l : Nat) (s t : ℂ) (A B : Int → ℂ) (m : Int) :
    hT a l (fun m => s * A m + t * B m) m = s * hT a l A m + t * hT a l B m := by
  unfold hT rotC
  rw [mul_sum, mul_sum, mul_sum, mul_sum, mul_sum, ← sum_add_distrib]
  apply sum_congr rfl
  intro p _
  ring

/-- The half turn is linear, so that the previous theorem extends to all the sums and averages of
tensors of bonds. -/
theorem C82_linear (s t : ℝ) (q q' : BooData) (hq : q.length = 36) (hq' : q'.length = 36)
    (a : Fin 3 → ℝ) (r r' : BooData) (h : rotateByPi q a = .ok r) (h' : rotateByPi q' a = .ok r') :
    rotateByPi (combine s t q q') a = .ok (combine s t r r') := by
  obtain ⟨r1, e1, l1, s1⟩ := rotate_st hq a
  have : r1 = r := by rw [h] at e1; exact (Except.ok.inj e1).symm
  subst r1
  obtain ⟨r2, e2, l2, s2⟩ := rotate_st hq' a
  have : r2 = r' := by rw [h'] at e2; exact (Except.ok.inj e2).symm
  subst r2
  obtain ⟨r3, e3, l3, s3⟩ := rotate_st (combine_len (s := s) (t := t) hq hq') a
  rw [e3]
  refine congrArg Except.ok ?_
  apply boo_ext l3 (combine_len l1 l2)
  intro l h2 hl m hm
  unfold cf
  rw [if_pos (by omega), if_pos (by omega), Int.toNat_natCast, s3 l m h2 hl hm,
    st_combine l1 l2 h2 hl hm, s1 l m h2 hl hm, s2 l m h2 hl hm,
    hT_congr (fun m hm => cf_combine hq hq' h2 hl hm), hT_lin]

/-- The mean of the tensors of two bonds. -/
example (q q' r r' : BooData) (h : ofBond ![1, 2, 3] = .ok q) (h' : ofBond ![0, 0, 1] = .ok q')
    (e : rotateByPi q ![0, 1, 1] = .ok r) (e' : rotateByPi q' ![0, 1, 1] = .ok r') :
    rotateByPi (combine (1 / 2) (1 / 2) q q') ![0, 1, 1] = .ok (combine (1 / 2) (1 / 2) r r') :=
  C82_linear _ _ q q' (ofBond_len h) (ofBond_len h') _ r r' e e'

/-- The sum of the tensors of bonds, `BOO[p] += ...` as in lib/particles.cpp:359-375. -/
noncomputable def sumBonds (vs : List (Fin 3 → ℝ)) : R BooData :=
  vs.foldlM (fun s v => do
    let q ← ofBond v
    pure (List.zipWith (· + ·) s q)) blank

theorem combine_one (q q' : BooData) : combine 1 1 q q' = List.zipWith (· + ·) q q' := by
  unfold combine; simp

theorem blank_len : blank.length = 36 := by simp [blank]

theorem st_blank (l m : Nat) : st blank l m = 0 := by
  unfold st blank
  rw [List.getElem?_replicate]
  split <;> rfl

theorem cf_blank (l : Nat) (m : Int) : cf blank l m = 0 := by
  unfold cf
  rw [st_blank, st_blank]
  simp

theorem rotate_blank (a : Fin 3 → ℝ) : rotateByPi blank a = .ok blank := by
  obtain ⟨r, e, hl, hs⟩ := rotate_st blank_len a
  rw [e]
  refine congrArg Except.ok ?_
  apply boo_ext hl blank_len
  intro l h2 hl10 m hm
  rw [cf_blank]
  unfold cf
  rw [if_pos (by omega), Int.toNat_natCast, hs l m h2 hl10 hm,
    hT_congr (B := fun m => (0 : ℂ)) (fun m _ => cf_blank l m)]
  simp [hT, rotC]

theorem sumBonds_append (vs : List (Fin 3 → ℝ)) (v : Fin 3 → ℝ) :
    sumBonds (vs ++ [v]) = (do
      let s ← sumBonds vs
      let q ← ofBond v
      pure (List.zipWith (· + ·) s q)) := by
  unfold sumBonds
  rw [List.foldlM_append]
  simp only [List.foldlM_cons, List.foldlM_nil, bind_pure]

theorem sumBonds_len (vs : List (Fin 3 → ℝ)) : ∃ q, sumBonds vs = .ok q ∧ q.length = 36 := by
  induction vs using List.reverseRecOn with
  | nil => exact ⟨blank, rfl, blank_len⟩
  | append_singleton vs v ih =>
    obtain ⟨q, h, hq⟩ := ih
    obtain ⟨q', h', hq', _⟩ := ofBond_ok v
    refine ⟨List.zipWith (· + ·) q q', ?_, ?_⟩
    · rw [sumBonds_append, h, ok_bind, h', ok_bind]; rfl
    · rw [List.length_zipWith, hq, hq']; rfl

/-- The half turn of the tensor of any set of bonds is the tensor of the set of the turned bonds. -/
theorem C82_cluster (a : Fin 3 → ℝ) (ha : a ≠ 0) (vs : List (Fin 3 → ℝ)) (hv : ∀ v ∈ vs, v ≠ 0) :
    ∃ q q', sumBonds vs = .ok q ∧ sumBonds (vs.map (halfTurn a)) = .ok q' ∧
      rotateByPi q a = .ok q' := by
  induction vs using List.reverseRecOn with
  | nil => exact ⟨blank, blank, rfl, rfl, rotate_blank a⟩
  | append_singleton vs v ih =>
    obtain ⟨q, q', h1, h2, h3⟩ := ih (fun w hw => hv w (by simp [hw]))
    obtain ⟨p, p', h4, h5, h6⟩ := C82_half_turn a v ha (hv v (by simp))
    have hq : q.length = 36 := by
      obtain ⟨r, e, hr⟩ := sumBonds_len vs
      rw [h1] at e
      rw [Except.ok.inj e]; exact hr
    refine ⟨combine 1 1 q p, combine 1 1 q' p', ?_, ?_, ?_⟩
    · rw [sumBonds_append, h1, ok_bind, h4, ok_bind, combine_one]; rfl
    · rw [List.map_append, List.map_singleton, sumBonds_append, h2, ok_bind, h5, ok_bind,
        combine_one]; rfl
    · exact C82_linear 1 1 q p hq (ofBond_len h4) a q' p' h3 h6

/-- Three bonds. -/
example : ∃ q q', sumBonds [![1, 2, 3], ![0, 0, 1], ![1, 0, 1]] = .ok q ∧
    sumBonds ([![1, 2, 3], ![0, 0, 1], ![1, 0, 1]].map (halfTurn ![0, 1, 1])) = .ok q' ∧
    rotateByPi q ![0, 1, 1] = .ok q' := by
  apply C82_cluster _ (vec_ne one_ne_zero)
  intro v hv
  simp only [List.mem_cons, List.not_mem_nil, or_false] at hv
  rcases hv with rfl | rfl | rfl
  · exact vec_ne three_ne_zero
  · exact vec_ne one_ne_zero
  · exact vec_ne one_ne_zero

/-- Turning twice around the same axis gives back the tensor. -/
theorem C82_involution (q : BooData) (hq : RealTensor q) (a : Fin 3 → ℝ) (ha : a ≠ 0) (r : BooData)
    (h : rotateByPi q a = .ok r) : rotateByPi r a = .ok q := by
  have hr := rotate_real hq h
  obtain ⟨r', e, hl, _⟩ := rotate_st hr.1 a
  rw [e]
  refine congrArg Except.ok ?_
  apply boo_ext hl hq.1
  intro l h2 hl10 m hm
  rw [(rotate_cf hr.1 a e h2 hl10 (hr.im h2 hl10)).1 m (by omega),
    hT_congr (rotate_cf hq.1 a h h2 hl10 (hq.im h2 hl10)).1, hT_hT ha h2 _ _ (by omega)]

/-- The tensor of a bond. -/
example (q r : BooData) (h : ofBond ![1, 2, 3] = .ok q) (e : rotateByPi q ![0, 1, 1] = .ok r) :
    rotateByPi r ![0, 1, 1] = .ok q :=
  C82_involution q (bond_real (vec_ne three_ne_zero) h) _ (vec_ne one_ne_zero) r e

/-- Turning two tensors around the same axis preserves their scalar product. -/
theorem C82_product (q p : BooData) (hq : RealTensor q) (hp : RealTensor p) (a : Fin 3 → ℝ)
    (ha : a ≠ 0) (q' p' : BooData) (h : rotateByPi q a = .ok q') (h' : rotateByPi p a = .ok p')
    (l : Nat) (h2 : 2 ∣ l) (hl : l ≤ 10) : innerProduct q' p' l = innerProduct q p l := by
  have hr := rotate_real hq h
  have hr' := rotate_real hp h'
  rw [innerProduct_eq hr.1 hr'.1 h2 hl, innerProduct_eq hq.1 hp.1 h2 hl]
  refine congrArg Except.ok ?_
  rw [hr.im h2 hl, hq.im h2 hl, ← hT_hermitian ha h2 (cf q l) (cf p l)]
  have e : ∑ m ∈ Finset.Icc (-(l : Int)) l, cf q' l m * conj (cf p' l m)
      = ∑ m ∈ Finset.Icc (-(l : Int)) l, hT a l (cf q l) m * conj (hT a l (cf p l) m) := by
    apply sum_congr rfl
    intro m hm
    rw [mem_Icc] at hm
    rw [(rotate_cf hq.1 a h h2 hl (hq.im h2 hl)).1 m (by omega),
      (rotate_cf hp.1 a h' h2 hl (hp.im h2 hl)).1 m (by omega)]
  rw [e]
  ring

/-- The tensors of two bonds. -/
example (q p q' p' : BooData) (h : ofBond ![1, 2, 3] = .ok q) (h' : ofBond ![0, 0, 1] = .ok p)
    (e : rotateByPi q ![0, 1, 1] = .ok q') (e' : rotateByPi p ![0, 1, 1] = .ok p') :
    innerProduct q' p' 6 = innerProduct q p 6 :=
  C82_product q p (bond_real (vec_ne three_ne_zero) h) (bond_real (vec_ne one_ne_zero) h') _
    (vec_ne one_ne_zero) q' p' e e' 6 (by norm_num) (by norm_num)

/-- A half turn preserves the sum of norms, hence `Q_l`. -/
theorem C82_norm (q : BooData) (hq : RealTensor q) (a : Fin 3 → ℝ) (ha : a ≠ 0) (q' : BooData)
    (h : rotateByPi q a = .ok q') (l : Nat) (h2 : 2 ∣ l) (hl : l ≤ 10) :
    sumNorm q' l = sumNorm q l ∧ getQl q' l = getQl q l := by
  have hr := rotate_real hq h
  have hs : ∀ p : BooData, RealTensor p → innerProduct p p l = sumNorm p l := by
    intro p hp
    obtain ⟨x, hx⟩ := hp.2 l h2 hl
    exact (C37_self p hp.1 l h2 hl _ hx).2 (by simp)
  have : sumNorm q' l = sumNorm q l := by
    rw [← hs q' hr, ← hs q hq]
    exact C82_product q q hq hq a ha q' q' h h l h2 hl
  refine ⟨this, ?_⟩
  unfold getQl
  rw [this]

/-- The tensor of a bond. -/
example (q q' : BooData) (h : ofBond ![1, 2, 3] = .ok q) (e : rotateByPi q ![0, 1, 1] = .ok q') :
    getQl q' 6 = getQl q 6 :=
  (C82_norm q (bond_real (vec_ne three_ne_zero) h) _ (vec_ne one_ne_zero) q' e 6 (by norm_num)
    (by norm_num)).2

/-- Neither the length of the axis nor its orientation matter. -/
theorem C82_axis (q : BooData) (hq : q.length = 36) (a : Fin 3 → ℝ) (ha : a ≠ 0) (t : ℝ) (ht : t ≠ 0) :
    rotateByPi q (fun i => t * a i) = rotateByPi q a := by
  have hta : (fun i => t * a i) ≠ 0 := by
    intro h
    apply ha
    funext i
    have := congrFun h i
    simp only [Pi.zero_apply, mul_eq_zero] at this
    rcases this with h | h
    · exact absurd h ht
    · exact h
  obtain ⟨r, e, hl, hs⟩ := rotate_st hq a
  obtain ⟨r', e', hl', hs'⟩ := rotate_st hq (fun i => t * a i)
  rw [e, e']
  refine congrArg Except.ok ?_
  apply boo_ext hl' hl
  intro l h2 hl10 m hm
  unfold cf
  rw [if_pos (by omega), if_pos (by omega), Int.toNat_natCast, hs l m h2 hl10 hm,
    hs' l m h2 hl10 hm]
  refine gen_unique (l := l) ?_ m (by omega)
  intro x
  rw [gen_hT ha h2, gen_hT hta h2]
  have hlen : len (fun i => t * a i) = |t| * len a := by
    unfold len
    rw [show (t * a 0) ^ 2 + (t * a 1) ^ 2 + (t * a 2) ^ 2 = t ^ 2 * (a 0 ^ 2 + a 1 ^ 2 + a 2 ^ 2) by
      ring, Real.sqrt_mul (sq_nonneg t), Real.sqrt_sq_eq_abs]
  obtain ⟨e, he, hte⟩ : ∃ e : ℝ, e ^ 2 = 1 ∧ t = e * |t| := by
    rcases le_total 0 t with h | h
    · exact ⟨1, by norm_num, by rw [abs_of_nonneg h]; ring⟩
    · exact ⟨-1, by norm_num, by rw [abs_of_nonpos h]; ring⟩
  have hc : ∀ i, t * a i / len (fun i => t * a i) = e * (a i / len a) := by
    intro i
    have h1 : |t| ≠ 0 := abs_ne_zero.2 ht
    have h2 := (len_pos ha).ne'
    rw [hlen]
    conv_lhs => rw [hte]
    rw [abs_mul, abs_abs, show |e| = 1 from by
      rw [← Real.sqrt_sq_eq_abs, he, Real.sqrt_one]]
    field_simp
  simp only [hc]
  have he' : (e : ℂ) ^ (2 * l) = 1 := by
    rw [pow_mul]
    have : (e : ℂ) ^ 2 = 1 := by exact_mod_cast he
    rw [this, one_pow]
  have := gen_smul l (cf q l) e (((a 2 / len a : ℝ) : ℂ) * x
          + (((a 0 / len a : ℝ) : ℂ) - ((a 1 / len a : ℝ) : ℂ) * Complex.I) * 1)
        ((((a 0 / len a : ℝ) : ℂ) + ((a 1 / len a : ℝ) : ℂ) * Complex.I) * x
          - ((a 2 / len a : ℝ) : ℂ) * 1)
  rw [he', one_mul] at this
  rw [← this]
  refine congrArg₂ (gen l (cf q l)) ?_ ?_ <;> (push_cast; ring)

/-- The reversed and stretched axis. -/
example (q : BooData) (hq : q.length = 36) :
    rotateByPi q (fun i => (-2) * (![0, 1, 1] : Fin 3 → ℝ) i) = rotateByPi q ![0, 1, 1] :=
  C82_axis q hq _ (vec_ne one_ne_zero) (-2) (by norm_num)

/-- A null axis is silently taken as the axis `z`. -/
theorem C82_null_axis (q : BooData) : rotateByPi q 0 = rotateByPi q ![0, 0, 1] := by
  have h1 : cartesian2spherical (upward 0) = (0, 0, 0) := by
    unfold cartesian2spherical upward
    simp
  have h2 : cartesian2spherical (upward ![0, 0, 1]) = (1, 0, 0) := by
    have : upward ![0, 0, 1] = ![0, 0, 1] := by
      funext i
      unfold upward
      rw [if_neg (by simp), mul_one]
    rw [this]
    unfold cartesian2spherical
    simp
  unfold rotateByPi
  rw [h1, h2]

end Boo
end Colloids
