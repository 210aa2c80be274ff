import Verif.Boo.Model
import Verif.CommonLemmas
import Verif.DynField.Lemmas
import Mathlib.Algebra.BigOperators.Intervals
import Mathlib.Algebra.Order.BigOperators.Ring.Finset
import Mathlib.Tactic.Ring
import Mathlib.Tactic.Linarith
import Mathlib.Tactic.NormNum
import Mathlib.Order.Interval.Finset.Basic
import Mathlib.Data.Int.Interval

/-! # Helper lemmas for `Boo` -/

namespace Colloids
namespace Boo
open ComplexConjugate

theorem slot_lt {l m : Nat} (h2 : 2 ∣ l) (hl : l ≤ 10) (hm : m ≤ l) : slot l m < 36 := by
  obtain ⟨k, rfl⟩ := h2
  unfold slot
  have : 2 * k * (2 * k) / 4 = k * k := by
    rw [show 2 * k * (2 * k) = 4 * (k * k) by ring]; exact Nat.mul_div_cancel_left _ (by norm_num)
  rw [this]
  have : k ≤ 5 := by omega
  have : k * k ≤ 5 * k := Nat.mul_le_mul_right k this
  omega

theorem slot_even (k m : Nat) : slot (2 * k) m = k * k + m := by
  unfold slot
  have : 2 * k * (2 * k) / 4 = k * k := by
    rw [show 2 * k * (2 * k) = 4 * (k * k) by ring]; exact Nat.mul_div_cancel_left _ (by norm_num)
  omega

theorem slot_inj {l m l' m' : Nat} (h : 2 ∣ l) (h' : 2 ∣ l') (hm : m ≤ l) (hm' : m' ≤ l')
    (e : slot l m = slot l' m') : l = l' ∧ m = m' := by
  obtain ⟨k, rfl⟩ := h
  obtain ⟨k', rfl⟩ := h'
  rw [slot_even, slot_even] at e
  rcases Nat.lt_trichotomy k k' with hk | hk | hk
  · have : (k + 1) * (k + 1) ≤ k' * k' := Nat.mul_le_mul hk hk
    have : (k + 1) * (k + 1) = k * k + 2 * k + 1 := by ring
    omega
  · subst hk; omega
  · have : (k' + 1) * (k' + 1) ≤ k * k := Nat.mul_le_mul hk hk
    have : (k' + 1) * (k' + 1) = k' * k' + 2 * k' + 1 := by ring
    omega

/-- The stored value. -/
noncomputable def st (q : BooData) (l m : Nat) : ℂ := q[slot l m]?.getD 0

/-- The value read by `operator()`. -/
noncomputable def cf (q : BooData) (l : Nat) (m : Int) : ℂ :=
  if 0 ≤ m then st q l m.toNat else (-1) ^ (-m).toNat * conj (st q l (-m).toNat)

theorem getR_slot {q : BooData} {l m : Nat} (hq : q.length = 36) (h2 : 2 ∣ l) (hl : l ≤ 10)
    (hm : m ≤ l) : getR q (slot l m) = .ok (st q l m) := by
  have := slot_lt h2 hl hm
  rw [getR_of_lt (by omega)]
  simp [st, hq, this]

theorem neg_one_pow_toNat (m : Int) (hm : m < 0) :
    ((-1 : ℂ)) ^ (-m).toNat = if (-m) % 2 = 0 then 1 else -1 := by
  have e : ((-m).toNat : Int) = -m := Int.toNat_of_nonneg (by omega)
  split
  · rename_i h
    rw [Even.neg_one_pow]
    rw [Nat.even_iff]; omega
  · rename_i h
    rw [Odd.neg_one_pow]
    rw [Nat.odd_iff]; omega

theorem coef_eq {q : BooData} {l : Nat} {m : Int} (hq : q.length = 36) (h2 : 2 ∣ l) (hl : l ≤ 10)
    (hm : m.natAbs ≤ l) : coef q l m = .ok (cf q l m) := by
  unfold coef cf
  by_cases h0 : 0 ≤ m
  · rw [if_pos h0, if_pos h0]
    exact getR_slot hq h2 hl (by omega)
  · rw [if_neg h0, if_neg h0, neg_one_pow_toNat m (by omega)]
    rw [getR_slot hq h2 hl (by omega)]
    split <;> simp

theorem foldlM_add {β : Type} {M : Type} [AddMonoid M] (F : M → β → R M) (g : β → M) (l : List β)
    (s : M) (h : ∀ s, ∀ x ∈ l, F s x = .ok (s + g x)) :
    l.foldlM F s = .ok (s + (l.map g).sum) := by
  induction l generalizing s with
  | nil => simp
  | cons a l ih =>
    rw [List.foldlM_cons, h s a (by simp), ok_bind, ih _ (fun s x hx => h s x (by simp [hx]))]
    simp [add_assoc]

theorem sum_range' {M : Type} [AddCommMonoid M] (g : Nat → M) (l : Nat) :
    ((List.range' 1 l).map g).sum = ∑ k ∈ Finset.range l, g (k + 1) := by
  rw [List.range'_eq_map_range, List.map_map]
  rw [← List.sum_toFinset _ List.nodup_range, List.toFinset_range]
  apply Finset.sum_congr rfl
  intro k _
  simp [add_comm]

theorem sum_symm {M : Type} [AddCommMonoid M] (F : Int → M) (l : Nat) :
    ∑ m ∈ Finset.Icc (-(l : Int)) l, F m
      = F 0 + ∑ k ∈ Finset.range l, (F ((k : Int) + 1) + F (-((k : Int) + 1))) := by
  induction l with
  | zero => simp
  | succ n ih =>
    have : Finset.Icc (-((n + 1 : Nat) : Int)) ((n + 1 : Nat) : Int)
        = insert ((n : Int) + 1) (insert (-((n : Int) + 1)) (Finset.Icc (-(n : Int)) n)) := by
      ext x; simp only [Finset.mem_Icc, Finset.mem_insert]; push_cast; omega
    rw [this, Finset.sum_insert, Finset.sum_insert, ih, Finset.sum_range_succ]
    · rw [← add_assoc, add_comm]
      simp [add_assoc]
    · simp
    · simp; omega

theorem sumNorm_eq {q : BooData} {l : Nat} (hq : q.length = 36) (h2 : 2 ∣ l) (hl : l ≤ 10) :
    sumNorm q l = .ok (∑ m ∈ Finset.Icc (-(l : Int)) l, Complex.normSq (cf q l m)) := by
  unfold sumNorm
  rw [foldlM_add _ (fun m => Complex.normSq (st q l m)) _ _ ?_]
  · have := getR_slot (m := 0) hq h2 hl (by omega)
    simp only [slot, Nat.zero_add] at this
    rw [this]
    simp only [ok_bind, pure_eq_ok]
    congr 1
    rw [sum_range', sum_symm, zero_add]
    rw [add_comm]
    congr 1
    rw [Finset.sum_mul]
    apply Finset.sum_congr rfl
    intro k _
    unfold cf
    rw [if_pos (by omega), if_neg (by omega)]
    rw [show ((k : Int) + 1).toNat = k + 1 by omega, show (-(-((k : Int) + 1))).toNat = k + 1 by omega]
    rw [Complex.normSq_mul, Complex.normSq_conj]
    rw [map_pow]
    simp; ring
  · intro s m hm
    rw [List.mem_range'_1] at hm
    have := getR_slot (m := m) hq h2 hl (by omega)
    unfold slot at this
    rw [this]; rfl

theorem innerProduct_eq {a b : BooData} {l : Nat} (ha : a.length = 36) (hb : b.length = 36)
    (h2 : 2 ∣ l) (hl : l ≤ 10) :
    innerProduct a b l = .ok ((∑ m ∈ Finset.Icc (-(l : Int)) l, cf a l m * conj (cf b l m)).re
      - 2 * (cf a l 0).im * (cf b l 0).im) := by
  unfold innerProduct
  rw [foldlM_add _ (fun m => (st a l m * conj (st b l m)).re) _ _ ?_]
  · have ea := getR_slot (m := 0) ha h2 hl (by omega)
    have eb := getR_slot (m := 0) hb h2 hl (by omega)
    simp only [slot, Nat.zero_add] at ea eb
    rw [ea, eb]
    simp only [ok_bind, pure_eq_ok]
    congr 1
    rw [sum_range', sum_symm, zero_add]
    have e0 : ∀ q : BooData, cf q l 0 = st q l 0 := by intro q; simp [cf]
    rw [e0, e0, Complex.add_re, Complex.re_sum]
    have : ∀ k ∈ Finset.range l,
        (cf a l ((k : Int) + 1) * conj (cf b l ((k : Int) + 1))
          + cf a l (-((k : Int) + 1)) * conj (cf b l (-((k : Int) + 1)))).re
        = (st a l (k + 1) * conj (st b l (k + 1))).re * 2 := by
      intro k _
      unfold cf
      rw [if_pos (by omega), if_pos (by omega), if_neg (by omega), if_neg (by omega)]
      rw [show ((k : Int) + 1).toNat = k + 1 by omega,
        show (-(-((k : Int) + 1))).toNat = k + 1 by omega]
      have h1 : ((-1 : ℂ)) ^ (k + 1) * (-1) ^ (k + 1) = 1 := by
        rw [← mul_pow]; simp
      have : (-1 : ℂ) ^ (k + 1) * conj (st a l (k + 1))
            * conj ((-1 : ℂ) ^ (k + 1) * conj (st b l (k + 1)))
          = conj (st a l (k + 1) * conj (st b l (k + 1))) := by
        simp only [map_mul, map_pow, map_neg, map_one, Complex.conj_conj]
        calc _ = ((-1 : ℂ) ^ (k + 1) * (-1) ^ (k + 1)) * (conj (st a l (k + 1)) * st b l (k + 1)) := by
              ring
          _ = _ := by rw [h1, one_mul]
      rw [this, Complex.add_re, Complex.conj_re]; ring
    rw [Finset.sum_congr rfl this, ← Finset.sum_mul]
    simp only [Complex.mul_re, Complex.conj_re, Complex.conj_im]
    ring
  · intro s m hm
    rw [List.mem_range'_1] at hm
    rw [coef_eq ha h2 hl (by omega), coef_eq hb h2 hl (by omega)]
    simp [cf]

end Boo
end Colloids
