import Verif.Boo.Wigner
import Verif.Boo.Props

/-! # Properties of the 3j coefficients and of the third order invariants: C38, C55, C56 -/

namespace Colloids
namespace Boo
open ComplexConjugate

/-! ## C38 : lookup -/

/-- Two triples of null sum are the same up to permutations and global change of sign. -/
inductive Same3 : Int × Int × Int → Int × Int × Int → Prop
  | refl (t) : Same3 t t
  | swap {t a b c} : Same3 t (a, b, c) → Same3 t (b, a, c)
  | rot {t a b c} : Same3 t (a, b, c) → Same3 t (b, c, a)
  | neg {t a b c} : Same3 t (a, b, c) → Same3 t (-a, -b, -c)

theorem Same3.absSame {t u : Int × Int × Int} (h : Same3 t u) (ht : t.1 + t.2.1 + t.2.2 = 0) :
    u.1 + u.2.1 + u.2.2 = 0 ∧
    max u.1.natAbs (max u.2.1.natAbs u.2.2.natAbs) = max t.1.natAbs (max t.2.1.natAbs t.2.2.natAbs) ∧
    min u.1.natAbs (min u.2.1.natAbs u.2.2.natAbs) = min t.1.natAbs (min t.2.1.natAbs t.2.2.natAbs) := by
  induction h with
  | refl => exact ⟨ht, rfl, rfl⟩
  | swap _ ih =>
    obtain ⟨h1, h2, h3⟩ := ih
    simp only at h1 h2 h3 ⊢
    rw [← h2, ← h3]
    exact ⟨by omega, max_left_comm _ _ _, min_left_comm _ _ _⟩
  | rot _ ih =>
    obtain ⟨h1, h2, h3⟩ := ih
    simp only at h1 h2 h3 ⊢
    rw [← h2, ← h3]
    exact ⟨by omega, by rw [← max_assoc, max_comm], by rw [← min_assoc, min_comm]⟩
  | neg _ ih =>
    obtain ⟨h1, h2, h3⟩ := ih
    simp only [Int.natAbs_neg] at h1 h2 h3 ⊢
    exact ⟨by omega, h2, h3⟩

theorem Same3.trans {t u v : Int × Int × Int} (h : Same3 t u) (h' : Same3 u v) : Same3 t v := by
  induction h' with
  | refl => exact h
  | swap _ ih => exact ih.swap
  | rot _ ih => exact ih.rot
  | neg _ ih => exact ih.neg

theorem Same3.symm {t u : Int × Int × Int} (h : Same3 t u) : Same3 u t := by
  induction h with
  | refl => exact .refl _
  | swap _ ih => exact (Same3.refl _).swap.trans ih
  | rot _ ih => exact (Same3.refl _).rot.rot.trans ih
  | @neg a b c _ ih =>
    have := (Same3.refl (-a, -b, -c)).neg
    rw [neg_neg, neg_neg, neg_neg] at this
    exact this.trans ih

theorem same3_canon (a b : Int) (m M : Nat)
    (hM : M = max a.natAbs (max b.natAbs (a + b).natAbs))
    (hm : m = min a.natAbs (min b.natAbs (a + b).natAbs)) :
    Same3 (a, b, -(a + b)) ((m : Int), (M : Int) - m, -(M : Int)) := by
  have r : Same3 (a, b, -(a + b)) (a, b, -(a + b)) := .refl _
  have fin : ∀ x y : Int, Same3 (a, b, -(a + b)) (x, y, -(x + y)) → (M : Int) = x + y →
      ((m : Int) = x ∨ (m : Int) = y) →
      Same3 (a, b, -(a + b)) ((m : Int), (M : Int) - m, -(M : Int)) := by
    intro x y h e1 e2
    rcases e2 with e2 | e2
    · rw [e1, e2, show x + y - x = y by ring]; exact h
    · rw [e1, e2, show x + y - y = x by ring]; exact h.swap
  rcases le_total 0 a with ha | ha <;> rcases le_total 0 b with hb | hb
  · exact fin a b r (by omega) (by omega)
  · rcases le_total 0 (a + b) with hc | hc
    · have := r.neg.rot
      rw [neg_neg] at this
      exact fin (-b) (a + b) (by rwa [show -(-b + (a + b)) = -a by ring]) (by omega) (by omega)
    · have := r.rot.rot
      exact fin (-(a + b)) a (by rwa [show -(-(a + b) + a) = b by ring]) (by omega) (by omega)
  · rcases le_total 0 (a + b) with hc | hc
    · have := r.neg.rot.rot
      rw [neg_neg] at this
      exact fin (a + b) (-a) (by rwa [show -(a + b + -a) = -b by ring]) (by omega) (by omega)
    · have := r.rot
      exact fin b (-(a + b)) (by rwa [show -(b + -(a + b)) = a by ring]) (by omega) (by omega)
  · have := r.neg
    exact fin (-a) (-b) (by rwa [show -(-a + -b) = - -(a + b) by ring]) (by omega) (by omega)

theorem same3_of (a b a' b' : Int)
    (hmax : max a.natAbs (max b.natAbs (a + b).natAbs) = max a'.natAbs (max b'.natAbs (a' + b').natAbs))
    (hmin : min a.natAbs (min b.natAbs (a + b).natAbs) = min a'.natAbs (min b'.natAbs (a' + b').natAbs)) :
    Same3 (a, b, -(a + b)) (a', b', -(a' + b')) :=
  (same3_canon a b _ _ rfl rfl).trans (same3_canon a' b' _ _ hmax hmin).symm

/-- The domain of the 3j coefficients: even degree at most 10, and the three orders of null sum between
`-l` and `l`. -/
structure Triple (l : Nat) (m1 m2 : Int) : Prop where
  even : 2 ∣ l
  deg : l ≤ 10
  b1 : m1.natAbs ≤ l
  b2 : m2.natAbs ≤ l
  b3 : (m1 + m2).natAbs ≤ l

/-- Every lookup stays inside of the table. -/
theorem C38_in_range {l : Nat} {m1 m2 : Int} (h : Triple l m1 m2) :
    ∃ i e, w3jIndex l m1 m2 = .ok i ∧ i < w3j.length ∧ getW3j l m1 m2 = .ok e ∧ w3j[i]? = some e := by
  obtain ⟨i, hi, hlt, _⟩ := w3jIndex_ok h.even h.deg h.b1 h.b2 h.b3
  have hlt' : i < w3j.length := by rw [w3j_length]; exact hlt
  refine ⟨i, w3j[i], hi, hlt', ?_, by simp [hlt']⟩
  unfold getW3j
  rw [hi, ok_bind, getR_of_lt hlt']

/-- Two lookups address the same slot exactly when the degrees are equal and the triples of orders are the same
up to permutations and global change of sign. -/
theorem C38_same_slot {l l' : Nat} {m1 m2 m1' m2' : Int} (h : Triple l m1 m2)
    (h' : Triple l' m1' m2') :
    w3jIndex l m1 m2 = w3jIndex l' m1' m2' ↔
      l = l' ∧ Same3 (m1, m2, -(m1 + m2)) (m1', m2', -(m1' + m2')) := by
  constructor
  · intro e
    obtain ⟨i, hi, _, k⟩ := w3jIndex_ok h.even h.deg h.b1 h.b2 h.b3
    obtain ⟨i', hi', _, k'⟩ := w3jIndex_ok h'.even h'.deg h'.b1 h'.b2 h'.b3
    rw [hi, hi', Except.ok.injEq] at e
    subst e
    rw [k, Option.some.injEq, Prod.mk.injEq, Prod.mk.injEq] at k'
    exact ⟨k'.1, same3_of _ _ _ _ k'.2.1 k'.2.2⟩
  · rintro ⟨rfl, hs⟩
    obtain ⟨_, h1, h2⟩ := hs.absSame (by dsimp only; ring)
    simp only [Int.natAbs_neg] at h1 h2
    unfold w3jIndex
    dsimp only
    rw [h1, h2]

/-- No slot of the table is wasted. -/
theorem C38_cover : ∀ i, i < w3j.length → ∃ l m1 m2, Triple l m1 m2 ∧ w3jIndex l m1 m2 = .ok i := by
  have : ∀ i, i < 91 → ∃ l ∈ [0, 2, 4, 6, 8, 10], ∃ m1 ∈ mRange l, ∃ m2 ∈ mRange l,
      (m1 + m2).natAbs ≤ l ∧ (w3jIndex l m1 m2).toOption = some i := by
    have h : ∀ i, i < 91 → ∃ k ∈ w3jKeys[i]?, k.1 ∈ [0, 2, 4, 6, 8, 10] ∧
        ((k.2.2 : Int)).natAbs ≤ k.1 ∧ ((k.2.1 : Int) - k.2.2).natAbs ≤ k.1 ∧
        ((k.2.2 : Int) + (k.2.1 - k.2.2)).natAbs ≤ k.1 ∧
        (w3jIndex k.1 k.2.2 (k.2.1 - k.2.2)).toOption = some i := by
      decide +kernel
    intro i hi
    obtain ⟨k, _, h1, h2, h3, h4, h5⟩ := h i hi
    exact ⟨_, h1, _, mem_mRange.2 h2, _, mem_mRange.2 h3, h4, h5⟩
  intro i hi
  rw [w3j_length] at hi
  obtain ⟨l, hl, m1, h1, m2, h2, h3, e⟩ := this i hi
  refine ⟨l, m1, m2, ⟨?_, ?_, mem_mRange.1 h1, mem_mRange.1 h2, h3⟩, ?_⟩
  · simp only [List.mem_cons, List.not_mem_nil, or_false] at hl; omega
  · simp only [List.mem_cons, List.not_mem_nil, or_false] at hl; omega
  · cases e' : w3jIndex l m1 m2 with
    | error _ => rw [e'] at e; simp [Except.toOption] at e
    | ok j => rw [e'] at e; simp [Except.toOption] at e; rw [e]

example : Triple 6 (-5) 3 := ⟨by decide, by decide, by decide, by decide, by decide⟩
example : w3jIndex 6 (-5) 3 = w3jIndex 6 2 3 :=
  (C38_same_slot ⟨by decide, by decide, by decide, by decide, by decide⟩
    ⟨by decide, by decide, by decide, by decide, by decide⟩).2
    ⟨rfl, (Same3.refl (-5, 3, 2)).rot.swap⟩

/-! ## C56 : values -/

/-- The coefficient that is looked up is Wigner's 3j symbol given by Racah's formula. -/
theorem C56_wigner {l : Nat} {m1 m2 : Int} (h : Triple l m1 m2) :
    ∃ e, getW3j l m1 m2 = .ok e ∧ e.val = wigner3j l l l m1 m2 := by
  obtain ⟨e, he⟩ := getW3j_ok h.even h.deg h.b1 h.b2 h.b3
  refine ⟨e, he, ?_⟩
  have := table_check l (even_mem h.even h.deg) m1 (mem_mRange.2 h.b1) m2 (mem_mRange.2 h.b2) h.b3
  rw [he] at this
  simp only [entryIs, Bool.and_eq_true, decide_eq_true_eq] at this
  obtain ⟨⟨⟨h1, h2⟩, h3⟩, h4⟩ := this
  unfold W3Entry.val wigner3j
  apply mul_sqrt_eq
  · exact_mod_cast h1
  · exact_mod_cast h2
  · exact_mod_cast h3
  · exact_mod_cast h4

theorem val_sq {l : Nat} {m1 m2 : Int} (e : W3Entry) (he : getW3j l m1 m2 = .ok e) :
    e.val ^ 2 = ((e.c ^ 2 * e.p : ℚ) : ℝ) := by
  have hmem : e ∈ w3j := by
    unfold getW3j at he
    obtain ⟨i, _, hi⟩ := bind_ok.1 he
    exact List.mem_of_getElem? (getR_ok.1 hi)
  unfold W3Entry.val
  rw [mul_pow, Real.sq_sqrt (by exact_mod_cast entries_nonneg e hmem)]
  push_cast
  rfl

theorem w3_sq_sum {l : Nat} (h2 : 2 ∣ l) (hl : l ≤ 10) {m1 : Int} (h1 : m1.natAbs ≤ l) :
    ∑ m2 ∈ Finset.Icc (-(l : Int)) l, (if (m1 + m2).natAbs ≤ l then w3 l m1 m2 ^ 2 else 0)
      = 1 / (2 * l + 1) := by
  have := table_norm l (even_mem h2 hl) m1 (mem_mRange.2 h1)
  rw [sum_mRange] at this
  have c := congrArg (fun x : ℚ => (x : ℝ)) this
  simp only [Rat.cast_sum] at c
  push_cast at c
  rw [← c]
  apply Finset.sum_congr rfl
  intro m2 hm
  rw [Finset.mem_Icc] at hm
  by_cases h3 : (m1 + m2).natAbs ≤ l
  · rw [if_pos h3, if_pos h3]
    obtain ⟨e, he⟩ := getW3j_ok h2 hl h1 (m2 := m2) (by omega) h3
    have := val_sq e he
    simp only [w3, he]
    exact this
  · rw [if_neg h3, if_neg h3]; simp

/-- Orthogonality: for a given order `m1`, the squares of the coefficients sum up to `1/(2l+1)`. -/
theorem C56_orthogonality {l : Nat} (h2 : 2 ∣ l) (hl : l ≤ 10) (m1 : Int) (h1 : m1.natAbs ≤ l)
    (w : Int → ℝ) (hw : ∀ m2, Triple l m1 m2 → ∃ e, getW3j l m1 m2 = .ok e ∧ e.val = w m2) :
    ∑ m2 ∈ Finset.Icc (-(l : Int)) l, (if (m1 + m2).natAbs ≤ l then w m2 ^ 2 else 0)
      = 1 / (2 * l + 1) := by
  rw [← w3_sq_sum h2 hl h1]
  apply Finset.sum_congr rfl
  intro m2 hm
  rw [Finset.mem_Icc] at hm
  by_cases h3 : (m1 + m2).natAbs ≤ l
  · rw [if_pos h3, if_pos h3]
    obtain ⟨e, he, ev⟩ := hw m2 ⟨h2, hl, h1, by omega, h3⟩
    simp only [w3, he, ev]
  · rw [if_neg h3, if_neg h3]

example : ∃ e, getW3j 10 3 (-7) = .ok e ∧ e.val = wigner3j 10 10 10 3 (-7) :=
  C56_wigner ⟨by decide, by decide, by decide, by decide, by decide⟩

/-! ## C55 : third order invariants -/

/-- The third order invariant is real when the coefficient of order 0 is. -/
theorem C55_real (q : BooData) (hq : q.length = 36) (l : Nat) (h2 : 2 ∣ l) (hl : l ≤ 10) (z : ℂ)
    (hz : coef q l 0 = .ok z) (h0 : z.im = 0) :
    ∃ Q W, getInvarients q l = .ok (Q, W) ∧ getQl q l = .ok Q ∧ W.im = 0 := by
  obtain ⟨n, hn, e⟩ := getInvarients_eq hq h2 hl
  refine ⟨_, _, e, ?_, ?_⟩
  · unfold getQl; rw [hn]; rfl
  · have e0 : (cf q l 0).im = 0 := by
      rw [coef_eq hq h2 hl (by simp)] at hz
      rw [Except.ok.inj hz]; exact h0
    unfold wNormalize
    split
    · rw [Complex.div_ofReal_im, sum_wt_real e0, zero_div]
    · exact sum_wt_real e0

theorem sum_wt_bound {q : BooData} {l : Nat} (h2 : 2 ∣ l) (hl : l ≤ 10) :
    Complex.normSq (∑ m1 ∈ Finset.Icc (-(l : Int)) l, ∑ m2 ∈ Finset.Icc (-(l : Int)) l, wt q l m1 m2)
      ≤ (∑ m ∈ Finset.Icc (-(l : Int)) l, Complex.normSq (cf q l m)) ^ 3 := by
  set I := Finset.Icc (-(l : Int)) l with hI
  set N := ∑ m ∈ I, Complex.normSq (cf q l m) with hN
  let w : Int × Int → ℝ := fun x => if (x.1 + x.2).natAbs ≤ l then |w3 l x.1 x.2| else 0
  let A : Int × Int → ℝ := fun x => if (x.1 + x.2).natAbs ≤ l then
    ‖cf q l x.1‖ * ‖cf q l x.2‖ * ‖cf q l (-(x.1 + x.2))‖ else 0
  have h1 : ‖∑ m1 ∈ I, ∑ m2 ∈ I, wt q l m1 m2‖ ≤ ∑ x ∈ I ×ˢ I, w x * A x := by
    rw [← Finset.sum_product']
    refine (norm_sum_le _ _).trans (Finset.sum_le_sum ?_)
    intro x _
    unfold wt
    dsimp only [w, A]
    split
    · rw [norm_mul, norm_mul, norm_mul, Complex.norm_real, Real.norm_eq_abs]
      apply le_of_eq; ring
    · simp
  have hw : ∑ x ∈ I ×ˢ I, w x ^ 2 = 1 := by
    rw [Finset.sum_product]
    have : ∀ m1 ∈ I, ∑ m2 ∈ I, w (m1, m2) ^ 2 = 1 / (2 * l + 1) := by
      intro m1 hm
      rw [hI, Finset.mem_Icc] at hm
      rw [← w3_sq_sum h2 hl (m1 := m1) (by omega)]
      apply Finset.sum_congr rfl
      intro m2 _
      dsimp only [w]
      split
      · rw [sq_abs]
      · simp
    rw [Finset.sum_congr rfl this, Finset.sum_const, nsmul_eq_mul, hI, Int.card_Icc]
    rw [show ((l : Int) + 1 - -(l : Int)).toNat = 2 * l + 1 by omega]
    push_cast
    have : (2 * (l : ℝ) + 1) ≠ 0 := by positivity
    field_simp
  have hA : ∑ x ∈ I ×ˢ I, A x ^ 2 ≤ N ^ 3 := by
    have hle : ∀ x ∈ I ×ˢ I, A x ^ 2
        ≤ Complex.normSq (cf q l x.1) * Complex.normSq (cf q l x.2) * N := by
      intro x hx
      have n1 := Complex.normSq_nonneg (cf q l x.1)
      have n2 := Complex.normSq_nonneg (cf q l x.2)
      have nN : 0 ≤ N := Finset.sum_nonneg (fun _ _ => Complex.normSq_nonneg _)
      dsimp only [A]
      split
      · rename_i h
        have : Complex.normSq (cf q l (-(x.1 + x.2))) ≤ N := by
          apply Finset.single_le_sum (f := fun m => Complex.normSq (cf q l m))
            (fun _ _ => Complex.normSq_nonneg _)
          rw [hI, Finset.mem_Icc]; omega
        rw [mul_pow, mul_pow, ← Complex.normSq_eq_norm_sq, ← Complex.normSq_eq_norm_sq,
          ← Complex.normSq_eq_norm_sq]
        exact mul_le_mul_of_nonneg_left this (mul_nonneg n1 n2)
      · rw [zero_pow (by norm_num)]
        exact mul_nonneg (mul_nonneg n1 n2) nN
    refine (Finset.sum_le_sum hle).trans (le_of_eq ?_)
    rw [← Finset.sum_mul, Finset.sum_product]
    simp only [← Finset.mul_sum]
    rw [← Finset.sum_mul]
    rw [← hN]; ring
  have cs := Finset.sum_mul_sq_le_sq_mul_sq (I ×ˢ I) w A
  rw [hw, one_mul] at cs
  have h0 : 0 ≤ ∑ x ∈ I ×ˢ I, w x * A x := (norm_nonneg _).trans h1
  rw [Complex.normSq_eq_norm_sq]
  calc _ ≤ (∑ x ∈ I ×ˢ I, w x * A x) ^ 2 := by
        exact pow_le_pow_left₀ (norm_nonneg _) h1 2
    _ ≤ _ := cs.trans hA

/-- The normalised third order invariant is at most 1 in modulus. -/
theorem C55_bounded (q : BooData) (hq : q.length = 36) (l : Nat) (h2 : 2 ∣ l) (hl : l ≤ 10) :
    ∃ Q W, getInvarients q l = .ok (Q, W) ∧ ‖W‖ ≤ 1 := by
  obtain ⟨n, hn, e⟩ := getInvarients_eq hq h2 hl
  refine ⟨_, _, e, ?_⟩
  rw [sumNorm_eq hq h2 hl, Except.ok.injEq] at hn
  have hb := sum_wt_bound (q := q) h2 hl
  rw [hn] at hb
  have n0 : 0 ≤ n := by rw [← hn]; exact Finset.sum_nonneg (fun _ _ => Complex.normSq_nonneg _)
  rw [Complex.normSq_eq_norm_sq] at hb
  unfold wNormalize
  split
  · rename_i hne
    have npos : 0 < n := lt_of_le_of_ne n0 (Ne.symm hne)
    rw [norm_div, Complex.norm_real, Real.norm_eq_abs, abs_of_nonneg (by positivity),
      div_le_one (pow_pos (Real.sqrt_pos.2 npos) 3)]
    apply abs_le_of_sq_le_sq' _ (by positivity) |>.2
    calc _ ≤ n ^ 3 := hb
      _ = (√n ^ 2) ^ 3 := by rw [Real.sq_sqrt n0]
      _ = (√n ^ 3) ^ 2 := by ring
  · rename_i hne
    have : n = 0 := by simpa using hne
    rw [this, zero_pow (by norm_num)] at hb
    have : ‖∑ m1 ∈ Finset.Icc (-(l : Int)) l, ∑ m2 ∈ Finset.Icc (-(l : Int)) l, wt q l m1 m2‖ = 0 := by
      have := le_antisymm hb (sq_nonneg _)
      simpa using this
    rw [this]; norm_num

theorem wt_rot {q : BooData} {l : Nat} (a b : Int) (hb : b.natAbs ≤ l) (ha : (a + b).natAbs ≤ l) :
    wt q l a (-(a + b)) = wt q l a b := by
  unfold wt w3
  rw [getW3j_rot, show a + -(a + b) = -b by ring, neg_neg, Int.natAbs_neg, if_pos hb, if_pos ha]
  ring

theorem wedge_excess (T : Int → Int → ℂ) {l : Nat} (hl : l ∈ [0, 2, 4, 6, 8, 10]) :
    ((wedge l).map (fun x =>
        (if x.1 = 0 ∧ x.2 = 0 then (11 : ℂ) else if x.1 = 0 ∨ x.1 = x.2 then 6 else 0)
          * T x.1 x.2)).sum
      = 11 * T 0 0 + 6 * ∑ m ∈ Finset.range l, T 0 (m + 1)
        + 6 * ∑ m ∈ Finset.range (l / 2), T (m + 1) (m + 1) := by
  simp only [List.mem_cons, List.not_mem_nil, or_false] at hl
  rcases hl with rfl | rfl | rfl | rfl | rfl | rfl <;>
    simp [wedge, List.range, List.range.loop, List.range', Finset.sum_range_succ] <;> ring

/-- What `getWl` adds to the invariant when the coefficient of order 0 is real: the terms `(0,0,0)`, `(0,m,-m)`
and `(m,m,-2m)` are counted 12 times instead of 1, 6 and 6 times. The real part of
`getWl` is the one of `getInvarients` plus this excess: both agree only where it vanishes.
Missing for the full claim (`getWl` gives the invariant): it is false, see `C55_getWl_counterexample`. -/
theorem C55_getWl_partial (q : BooData) (hq : q.length = 36) (l : Nat) (h2 : 2 ∣ l) (hl : l ≤ 10)
    (z : ℂ) (hz : coef q l 0 = .ok z) (h0 : z.im = 0) :
    ∃ Q W W' n, ∃ T : Int → Int → ℂ, getInvarients q l = .ok (Q, W) ∧ getWl q l = .ok W' ∧
      sumNorm q l = .ok n ∧ (∀ m1 m2, Triple l m1 m2 → wTerm q l m1 m2 = .ok (T m1 m2)) ∧
      W'.re = W.re + (wNormalize n (11 * T 0 0
        + 6 * ∑ m ∈ Finset.range l, T 0 (m + 1)
        + 6 * ∑ m ∈ Finset.range (l / 2), T (m + 1) (m + 1))).re := by
  obtain ⟨n, hn, e⟩ := getInvarients_eq hq h2 hl
  obtain ⟨n', hn', e'⟩ := getWl_eq hq h2 hl
  rw [hn, Except.ok.injEq] at hn'
  subst hn'
  refine ⟨_, _, _, n, wt q l, e, e', hn, ?_, ?_⟩
  · intro m1 m2 h
    rw [wTerm_eq hq h2 hl h.b1 h.b2 h.b3]
    unfold wt
    rw [if_pos h.b3]
  · rw [← wedge_excess (wt q l) (even_mem h2 hl)]
    have e0 : (cf q l 0).im = 0 := by
      rw [coef_eq hq h2 hl (by simp)] at hz
      rw [Except.ok.inj hz]; exact h0
    have hre : ∀ x y : ℂ, x.re = y.re → (wNormalize n x).re = (wNormalize n y).re := by
      intro x y h
      unfold wNormalize
      split
      · rw [Complex.div_ofReal_re, Complex.div_ofReal_re, h]
      · exact h
    have hadd : ∀ x y : ℂ, wNormalize n (x + y) = wNormalize n x + wNormalize n y := by
      intro x y
      unfold wNormalize
      split
      · rw [add_div]
      · rfl
    rw [← Complex.add_re, ← hadd]
    apply hre
    -- the symmetric function
    let F : Int → Int → ℝ := fun a b =>
      if a.natAbs ≤ l ∧ b.natAbs ≤ l ∧ (a + b).natAbs ≤ l then (wt q l a b).re else 0
    have hs : ∀ a b, F b a = F a b := by
      intro a b
      dsimp only [F]
      rw [wt_swap, add_comm b a]
      split <;> split <;> first | rfl | (exfalso; omega)
    have hr : ∀ a b, F a (-(a + b)) = F a b := by
      intro a b
      dsimp only [F]
      rw [show a + -(a + b) = -b by ring, Int.natAbs_neg, Int.natAbs_neg]
      by_cases h : a.natAbs ≤ l ∧ b.natAbs ≤ l ∧ (a + b).natAbs ≤ l
      · rw [if_pos h, if_pos ⟨h.1, h.2.2, h.2.1⟩, wt_rot a b h.2.1 h.2.2]
      · rw [if_neg h, if_neg (by tauto)]
    have hneg : ∀ a b, F (-a) (-b) = F a b := by
      intro a b
      dsimp only [F]
      rw [show -a + -b = -(a + b) by ring, Int.natAbs_neg, Int.natAbs_neg, Int.natAbs_neg, wt_neg e0,
        Complex.conj_re]
    have hsum := sum_hex F hs hr hneg (even_mem h2 hl)
    rw [← sum_hex_eq F l (by intro a b h; dsimp only [F]; rw [if_neg (by tauto)])] at hsum
    have e1 : (∑ m1 ∈ Finset.Icc (-(l : Int)) l, ∑ m2 ∈ Finset.Icc (-(l : Int)) l, wt q l m1 m2).re
        = ∑ m1 ∈ Finset.Icc (-(l : Int)) l, ∑ m2 ∈ Finset.Icc (-(l : Int)) l, F m1 m2 := by
      rw [Complex.re_sum]
      apply Finset.sum_congr rfl
      intro a ha
      rw [Complex.re_sum]
      apply Finset.sum_congr rfl
      intro b hb
      rw [Finset.mem_Icc] at ha hb
      dsimp only [F]
      by_cases h : (a + b).natAbs ≤ l
      · rw [if_pos ⟨by omega, by omega, h⟩]
      · rw [if_neg (by tauto)]
        unfold wt
        rw [if_neg h]; rfl
    rw [Complex.add_re, e1, hsum]
    have hwedge : ∀ x ∈ wedge l, F x.1 x.2 = (wt q l x.1 x.2).re := by
      intro x hx
      unfold wedge at hx
      simp only [List.mem_flatMap, List.mem_map, List.mem_range, List.mem_range'_1] at hx
      obtain ⟨a, ha, b, hb, rfl⟩ := hx
      dsimp only [F]
      rw [if_pos ⟨by omega, by omega, by omega⟩]
    clear hsum e'
    generalize wedge l = L at *
    induction L with
    | nil => simp
    | cons x L ih =>
      have ih' := ih (fun x hx => hwedge x (by simp [hx]))
      simp only [List.map_cons, List.sum_cons, add_mul, Complex.add_re]
      rw [ih', hwedge x (by simp)]
      unfold mult
      split
      · simp; ring
      · split
        · simp; ring
        · simp; ring

/-- A tensor with only its coefficient of order 0: `getWl` gives twelve times the invariant. -/
theorem C55_getWl_counterexample : ∃ q : BooData, q.length = 36 ∧
    (∃ z : ℂ, coef q 0 0 = .ok z ∧ z.im = 0) ∧
    ∃ Q, getInvarients q 0 = .ok (Q, 1) ∧ getWl q 0 = .ok 12 := by
  have hq : (List.replicate 36 (1 : ℂ)).length = 36 := by simp
  have ew : w3 0 0 0 = 1 := by
    have : getW3j 0 0 0 = .ok ⟨1, 1⟩ := by decide +kernel
    simp [w3, this, W3Entry.val]
  have et : wt (List.replicate 36 1) 0 0 0 = 1 := by
    simp [wt, ew, cf, st, slot]
  have en : sumNorm (List.replicate 36 1) 0 = .ok 1 := by
    rw [sumNorm_eq hq (by decide) (by decide)]
    simp [cf, st, slot]
  refine ⟨List.replicate 36 1, hq, ⟨1, ?_, rfl⟩, ?_⟩
  · rw [coef_eq hq (by decide) (by decide) (by decide)]
    simp [cf, st, slot]
  · obtain ⟨n, hn, e⟩ := getInvarients_eq hq (l := 0) (by decide) (by decide)
    obtain ⟨n', hn', e'⟩ := getWl_eq hq (l := 0) (by decide) (by decide)
    rw [en, Except.ok.injEq] at hn hn'
    subst hn
    subst hn'
    refine ⟨√(4 * Real.pi * 1 / (2 * ((0 : ℕ) : ℝ) + 1)), ?_, ?_⟩
    · rw [e]
      congr 2
      simp [wNormalize]
      exact et
    · rw [e']
      congr 1
      have : wedge 0 = [(0, 0)] := by decide
      rw [this]
      simp [wNormalize]
      exact et

example : ∃ Q W, getInvarients (List.replicate 36 ⟨1, 2⟩) 10 = .ok (Q, W) ∧ ‖W‖ ≤ 1 :=
  C55_bounded _ (by simp) 10 (by decide) (by decide)

end Boo
end Colloids
