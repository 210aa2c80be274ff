import Verif.Boo.Lemmas
import Mathlib.Algebra.Order.Ring.Rat
import Mathlib.Algebra.Field.Rat
import Mathlib.Tactic.LinearCombination

/-! # Helper lemmas on the 3j coefficients -/

namespace Colloids
namespace Boo
open ComplexConjugate

/-- The degrees of the harmonics that are stored. -/
theorem even_mem {l : Nat} (h2 : 2 ∣ l) (hl : l ≤ 10) : l ∈ [0, 2, 4, 6, 8, 10] := by
  simp only [List.mem_cons, List.not_mem_nil, or_false]; omega

theorem mem_mRange {l : Nat} {m : Int} : m ∈ mRange l ↔ m.natAbs ≤ l := by
  unfold mRange
  rw [List.mem_map]
  constructor
  · rintro ⟨i, hi, rfl⟩
    rw [List.mem_range] at hi
    omega
  · intro h
    exact ⟨(m + l).toNat, List.mem_range.2 (by omega), by omega⟩

theorem nodup_mRange (l : Nat) : (mRange l).Nodup := by
  unfold mRange
  apply List.Nodup.map _ List.nodup_range
  intro a b h
  simp at h
  exact h

theorem sum_mRange {M : Type} [AddCommMonoid M] (g : Int → M) (l : Nat) :
    ((mRange l).map g).sum = ∑ m ∈ Finset.Icc (-(l : Int)) l, g m := by
  rw [← List.sum_toFinset _ (nodup_mRange l)]
  apply Finset.sum_congr _ (fun _ _ => rfl)
  ext m
  rw [List.mem_toFinset, mem_mRange, Finset.mem_Icc]
  omega

/-- Degree, largest and smallest absolute value for each slot of the table. -/
def w3jKeys : List (Nat × Nat × Nat) :=
  [0, 2, 4, 6, 8, 10].flatMap (fun l => (List.range (l + 1)).flatMap (fun c =>
    (List.range (c / 2 + 1)).map (fun a => (l, c, a))))

theorem w3jIndex_check : ∀ l ∈ [0, 2, 4, 6, 8, 10], ∀ m1 ∈ mRange l, ∀ m2 ∈ mRange l,
    (m1 + m2).natAbs ≤ l →
    (w3jIndex l m1 m2).toOption.bind (fun i => w3jKeys[i]?) =
      some (l, max m1.natAbs (max m2.natAbs (m1 + m2).natAbs),
        min m1.natAbs (min m2.natAbs (m1 + m2).natAbs)) := by
  decide +kernel

theorem w3jKeys_length : w3jKeys.length = 91 := by decide +kernel

theorem w3j_length : w3j.length = 91 := by decide +kernel

theorem w3jIndex_ok {l : Nat} {m1 m2 : Int} (h2 : 2 ∣ l) (hl : l ≤ 10) (h1 : m1.natAbs ≤ l)
    (hm2 : m2.natAbs ≤ l) (h3 : (m1 + m2).natAbs ≤ l) :
    ∃ i, w3jIndex l m1 m2 = .ok i ∧ i < 91 ∧
      w3jKeys[i]? = some (l, max m1.natAbs (max m2.natAbs (m1 + m2).natAbs),
        min m1.natAbs (min m2.natAbs (m1 + m2).natAbs)) := by
  have := w3jIndex_check l (even_mem h2 hl) m1 (mem_mRange.2 h1) m2 (mem_mRange.2 hm2) h3
  cases e : w3jIndex l m1 m2 with
  | error e' => rw [e] at this; simp [Except.toOption] at this
  | ok i =>
    rw [e] at this
    have this' : w3jKeys[i]? = _ := this
    refine ⟨i, rfl, ?_, this'⟩
    have := (List.getElem?_eq_some_iff.1 this').1
    rw [w3jKeys_length] at this
    exact this

theorem getW3j_ok {l : Nat} {m1 m2 : Int} (h2 : 2 ∣ l) (hl : l ≤ 10) (h1 : m1.natAbs ≤ l)
    (hm2 : m2.natAbs ≤ l) (h3 : (m1 + m2).natAbs ≤ l) : ∃ e, getW3j l m1 m2 = .ok e := by
  obtain ⟨i, e, hi, _⟩ := w3jIndex_ok h2 hl h1 hm2 h3
  unfold getW3j
  rw [e, ok_bind, getR_of_lt (by rw [w3j_length]; exact hi)]
  exact ⟨_, rfl⟩

/-- Value of the coefficient, 0 outside of the domain. -/
noncomputable def w3 (l : Nat) (m1 m2 : Int) : ℝ :=
  match getW3j l m1 m2 with
  | .ok e => e.val
  | .error _ => 0

theorem getW3j_neg (l : Nat) (m1 m2 : Int) : getW3j l (-m1) (-m2) = getW3j l m1 m2 := by
  unfold getW3j w3jIndex
  rw [show -m1 + -m2 = -(m1 + m2) by ring]
  simp only [Int.natAbs_neg]

theorem getW3j_swap (l : Nat) (m1 m2 : Int) : getW3j l m2 m1 = getW3j l m1 m2 := by
  unfold getW3j w3jIndex
  rw [add_comm m2 m1]
  dsimp only
  rw [max_left_comm, min_left_comm]

theorem getW3j_rot (l : Nat) (m1 m2 : Int) : getW3j l m1 (-(m1 + m2)) = getW3j l m1 m2 := by
  unfold getW3j w3jIndex
  rw [show m1 + -(m1 + m2) = -m2 by ring]
  dsimp only
  simp only [Int.natAbs_neg]
  rw [max_comm m2.natAbs, min_comm m2.natAbs]

theorem wTerm_eq {q : BooData} {l : Nat} {m1 m2 : Int} (hq : q.length = 36) (h2 : 2 ∣ l)
    (hl : l ≤ 10) (h1 : m1.natAbs ≤ l) (hm2 : m2.natAbs ≤ l) (h3 : (m1 + m2).natAbs ≤ l) :
    wTerm q l m1 m2 = .ok ((w3 l m1 m2 : ℂ) * cf q l m1 * cf q l m2 * cf q l (-(m1 + m2))) := by
  unfold wTerm
  obtain ⟨e, he⟩ := getW3j_ok h2 hl h1 hm2 h3
  rw [coef_eq hq h2 hl h1, coef_eq hq h2 hl hm2, coef_eq hq h2 hl (by omega)]
  simp only [w3, he, ok_bind, pure_eq_ok]

/-- The term for `(m1,m2)`, 0 outside of the domain. -/
noncomputable def wt (q : BooData) (l : Nat) (m1 m2 : Int) : ℂ :=
  if (m1 + m2).natAbs ≤ l then
    (w3 l m1 m2 : ℂ) * cf q l m1 * cf q l m2 * cf q l (-(m1 + m2))
  else 0

theorem getInvarients_eq {q : BooData} {l : Nat} (hq : q.length = 36) (h2 : 2 ∣ l) (hl : l ≤ 10) :
    ∃ n, sumNorm q l = .ok n ∧
    getInvarients q l = .ok (√(4 * Real.pi * n / (2 * l + 1)),
      wNormalize n (∑ m1 ∈ Finset.Icc (-(l : Int)) l, ∑ m2 ∈ Finset.Icc (-(l : Int)) l,
        wt q l m1 m2)) := by
  refine ⟨_, sumNorm_eq hq h2 hl, ?_⟩
  unfold getInvarients
  rw [sumNorm_eq hq h2 hl, ok_bind]
  rw [foldlM_add _ (fun m1 => ∑ m2 ∈ Finset.Icc (-(l : Int)) l, wt q l m1 m2) _ _ ?_]
  · rw [sum_mRange]; simp
  · intro s m1 h1
    rw [mem_mRange] at h1
    rw [foldlM_add _ (fun m2 => wt q l m1 m2) _ _ ?_, sum_mRange]
    intro s m2 hm2
    rw [mem_mRange] at hm2
    unfold wt
    by_cases h : (m1 + m2).natAbs ≤ l
    · rw [if_pos (by omega), if_pos h, wTerm_eq hq h2 hl h1 hm2 h]
      rfl
    · rw [if_neg (by omega), if_neg h]
      simp

theorem cf_neg {q : BooData} {l : Nat} (h0 : (cf q l 0).im = 0) (m : Int) :
    cf q l (-m) = (-1) ^ m.natAbs * conj (cf q l m) := by
  rcases lt_trichotomy m 0 with h | h | h
  · unfold cf
    rw [if_pos (by omega), if_neg (by omega)]
    rw [show m.natAbs = (-m).toNat by omega]
    simp only [map_mul, map_pow, map_neg, map_one, Complex.conj_conj]
    rw [← mul_assoc, ← mul_pow]; simp
  · subst h
    simp only [neg_zero, Int.natAbs_zero, pow_zero, one_mul]
    exact (Complex.conj_eq_iff_im.2 h0).symm
  · unfold cf
    rw [if_neg (by omega), if_pos (by omega), neg_neg, show m.natAbs = m.toNat by omega]

theorem wt_neg {q : BooData} {l : Nat} (h0 : (cf q l 0).im = 0) (m1 m2 : Int) :
    wt q l (-m1) (-m2) = conj (wt q l m1 m2) := by
  unfold wt
  rw [show -m1 + -m2 = -(m1 + m2) by ring, Int.natAbs_neg]
  split
  · have e : w3 l (-m1) (-m2) = w3 l m1 m2 := by unfold w3; rw [getW3j_neg]
    rw [e, cf_neg h0 m1, cf_neg h0 m2, neg_neg]
    have e3 : cf q l (m1 + m2) = (-1) ^ (m1 + m2).natAbs * conj (cf q l (-(m1 + m2))) := by
      have := cf_neg h0 (-(m1 + m2))
      rw [neg_neg, Int.natAbs_neg] at this
      exact this
    rw [e3]
    simp only [map_mul, Complex.conj_ofReal]
    have : (-1 : ℂ) ^ m1.natAbs * (-1) ^ m2.natAbs * (-1) ^ (m1 + m2).natAbs = 1 := by
      rw [← pow_add, ← pow_add, Even.neg_one_pow]
      rw [Nat.even_iff]; omega
    linear_combination (w3 l m1 m2 : ℂ) * conj (cf q l m1) * conj (cf q l m2)
      * conj (cf q l (-(m1 + m2))) * this
  · simp

theorem sum_wt_real {q : BooData} {l : Nat} (h0 : (cf q l 0).im = 0) :
    (∑ m1 ∈ Finset.Icc (-(l : Int)) l, ∑ m2 ∈ Finset.Icc (-(l : Int)) l, wt q l m1 m2).im = 0 := by
  rw [← Complex.conj_eq_iff_im, map_sum]
  have e : ∀ F : Int → ℂ, ∑ m ∈ Finset.Icc (-(l : Int)) l, F (-m)
      = ∑ m ∈ Finset.Icc (-(l : Int)) l, F m := by
    intro F
    apply Finset.sum_nbij' (fun m => -m) (fun m => -m)
    · intro a ha; rw [Finset.mem_Icc] at *; omega
    · intro a ha; rw [Finset.mem_Icc] at *; omega
    · intro a _; simp
    · intro a _; simp
    · intro a _; rfl
  rw [← e (fun m1 => ∑ m2 ∈ Finset.Icc (-(l : Int)) l, wt q l m1 m2)]
  apply Finset.sum_congr rfl
  intro m1 _
  rw [map_sum, ← e (fun m2 => wt q l (-m1) m2)]
  apply Finset.sum_congr rfl
  intro m2 _
  rw [wt_neg h0]

end Boo
end Colloids
