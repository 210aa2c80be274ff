import Verif.Py.BooModel
import Verif.Boo.Lemmas
import Mathlib.Analysis.InnerProductSpace.Basic
import Mathlib.Algebra.Order.BigOperators.Ring.Finset

/-! # Products and order parameters in python: C177 -/

namespace Colloids
namespace Py
namespace PyBoo
open ComplexConjugate

/-- All the coefficients, of orders `-l` to `l`, that `get_qlm` gives. -/
def Reads {l : Nat} (q : Row l) (A : Int → ℂ) : Prop := ∀ m : Int, -(l : Int) ≤ m → m ≤ l → getQlm q m = .ok (A m)

/-- The coefficient of any order, 0 outside. -/
noncomputable def co {l : Nat} (q : Row l) (m : Int) : ℂ :=
  if h : m.natAbs < l + 1 then
    if 0 ≤ m then q ⟨m.natAbs, h⟩ else (-1) ^ m.natAbs * conj (q ⟨m.natAbs, h⟩)
  else 0

theorem getQlm_co {l : Nat} (q : Row l) {m : Int} (h : m.natAbs ≤ l) : getQlm q m = .ok (co q m) := by
  unfold getQlm co
  rw [dif_pos (by omega), dif_pos (by omega)]
  split
  · rfl
  · split
    · rw [Even.neg_one_pow (by rw [Nat.even_iff]; omega), one_mul]
    · rw [Odd.neg_one_pow (by rw [Nat.odd_iff]; omega), neg_one_mul]

theorem reads_co {l : Nat} {q : Row l} {A : Int → ℂ} (h : Reads q A) (m : Int) (h1 : -(l : Int) ≤ m) (h2 : m ≤ l) : A m = co q m := by
  have := h m h1 h2
  rw [getQlm_co q (by omega)] at this
  exact (Except.ok.inj this).symm

theorem co_nat {l : Nat} (q : Row l) (k : Nat) (h : k < l + 1) : co q (k : Int) = q ⟨k, h⟩ := by
  unfold co
  rw [dif_pos (by simpa using h), if_pos (by omega)]
  rfl

theorem co_zero {l : Nat} (q : Row l) : co q 0 = q 0 := by
  have := co_nat q 0 (by omega)
  simpa using this

theorem co_succ {l : Nat} (q : Row l) {k : Nat} (h : k < l) : co q ((k : Int) + 1) = q (Fin.ofNat (l + 1) (k + 1)) := by
  have := co_nat q (k + 1) (by omega)
  push_cast at this
  rw [this]
  congr 1
  apply Fin.ext
  simp [Fin.ofNat, Nat.mod_eq_of_lt (show k + 1 < l + 1 by omega)]

theorem co_neg {l : Nat} (q : Row l) {m : Int} (h : m ≠ 0) : co q (-m) = (-1) ^ m.natAbs * conj (co q m) := by
  unfold co
  simp only [Int.natAbs_neg]
  by_cases hm : m.natAbs < l + 1
  · rw [dif_pos hm, dif_pos hm]
    rcases lt_or_gt_of_ne h with h1 | h1
    · rw [if_pos (by omega), if_neg (by omega)]
      simp only [map_mul, map_pow, map_neg, map_one, Complex.conj_conj]
      rw [← mul_assoc, ← mul_pow]; simp
    · rw [if_neg (by omega), if_pos (by omega)]
  · rw [dif_neg hm, dif_neg hm]; simp

theorem foldl_sum {β : Type} (g : β → ℝ) (l : List β) (s : ℝ) : l.foldl (fun s x => s + g x) s = s + (l.map g).sum := by
  induction l generalizing s with
  | nil => simp
  | cons a l ih => rw [List.foldl_cons, ih, List.map_cons, List.sum_cons, add_assoc]

theorem sum_range_list {M : Type} [AddCommMonoid M] (g : Nat → M) (n : Nat) : ((List.range n).map g).sum = ∑ k ∈ Finset.range n, g k := by
  rw [← List.sum_toFinset _ List.nodup_range, List.toFinset_range]

/-- The sum over all the orders of a product that does not change with the sign of the order. -/
theorem product_sum {l : Nat} (a b : Row l) :
    (∑ m ∈ Finset.Icc (-(l : Int)) l, co a m * conj (co b m)).re
      = (a 0 * conj (b 0)).re + ∑ k ∈ Finset.range l, 2 * (a (Fin.ofNat (l + 1) (k + 1)) * conj (b (Fin.ofNat (l + 1) (k + 1)))).re := by
  rw [Boo.sum_symm, Complex.add_re, co_zero, co_zero, Complex.re_sum]
  congr 1
  apply Finset.sum_congr rfl
  intro k hk
  rw [Finset.mem_range] at hk
  rw [co_neg a (by omega), co_neg b (by omega), co_succ a hk, co_succ b hk]
  set x := a (Fin.ofNat (l + 1) (k + 1))
  set y := b (Fin.ofNat (l + 1) (k + 1))
  have e : (-1 : ℂ) ^ ((k : Int) + 1).natAbs * conj x * conj ((-1 : ℂ) ^ ((k : Int) + 1).natAbs * conj y) = conj x * y := by
    simp only [map_mul, map_pow, map_neg, map_one, Complex.conj_conj]
    have : (-1 : ℂ) ^ ((k : Int) + 1).natAbs * (-1) ^ ((k : Int) + 1).natAbs = 1 := by rw [← mul_pow]; simp
    linear_combination conj x * y * this
  rw [e, Complex.add_re]
  simp only [Complex.mul_re, Complex.conj_re, Complex.conj_im]
  ring

theorem booProduct_eq {l : Nat} (a b : Row l) :
    booProduct a b = 4 * Real.pi / (2 * l + 1) * (∑ m ∈ Finset.Icc (-(l : Int)) l, co a m * conj (co b m)).re := by
  unfold booProduct
  rw [foldl_sum, product_sum, sum_range_list, mul_comm]

theorem ql_eq {l : Nat} (q : Row l) : ql q = √(booProduct q q) := by
  unfold ql
  rw [booProduct_eq, product_sum, sum_range_list, Finset.mul_sum]
  have h : ∀ z : ℂ, abs2 z = (z * conj z).re := by
    intro z
    unfold abs2
    simp only [Complex.mul_re, Complex.conj_re, Complex.conj_im]
    ring
  rw [h]
  congr 3
  apply Finset.sum_congr rfl
  intro k _
  rw [h]

theorem self_sum {l : Nat} (q : Row l) :
    (∑ m ∈ Finset.Icc (-(l : Int)) l, co q m * conj (co q m)).re = ∑ m ∈ Finset.Icc (-(l : Int)) l, Complex.normSq (co q m) := by
  rw [Complex.re_sum]
  apply Finset.sum_congr rfl
  intro m _
  rw [Complex.mul_conj, Complex.ofReal_re]

/-- C177: `get_qlm` gives a coefficient for every order from `-l` to `l`; that of an opposite order is the conjugate, up to the sign `(-1)^m`. -/
theorem C177_orders {l : Nat} (q : Row l) : ∃ A : Int → ℂ, Reads q A ∧ (∀ k : Fin (l + 1), A k = q k) ∧
    ∀ m : Int, -(l : Int) ≤ m → m ≤ l → m ≠ 0 → A (-m) = (-1) ^ m.natAbs * conj (A m) := by
  refine ⟨co q, fun m _ _ => getQlm_co q (by omega), ?_, fun m _ _ h => co_neg q h⟩
  intro k
  exact co_nat q k.1 k.2

/-- C177: `boo_product` is the scalar product over all the orders from `-l` to `l`, times `4π/(2l+1)`. -/
theorem C177_product {l : Nat} (a b : Row l) {A B : Int → ℂ} (hA : Reads a A) (hB : Reads b B) :
    booProduct a b = 4 * Real.pi / (2 * l + 1) * (∑ m ∈ Finset.Icc (-(l : Int)) l, A m * conj (B m)).re := by
  rw [booProduct_eq]
  congr 2
  apply Finset.sum_congr rfl
  intro m hm
  rw [Finset.mem_Icc] at hm
  rw [reads_co hA m hm.1 hm.2, reads_co hB m hm.1 hm.2]

/-- C177: `ql` is the norm given by the documentation, over all the orders. -/
theorem C177_ql {l : Nat} (q : Row l) {A : Int → ℂ} (hA : Reads q A) :
    ql q = √(4 * Real.pi / (2 * l + 1) * ∑ m ∈ Finset.Icc (-(l : Int)) l, Complex.normSq (A m)) := by
  rw [ql_eq, booProduct_eq, self_sum]
  congr 2
  apply Finset.sum_congr rfl
  intro m hm
  rw [Finset.mem_Icc] at hm
  rw [reads_co hA m hm.1 hm.2]

theorem product_self_nonneg {l : Nat} (q : Row l) : 0 ≤ booProduct q q := by
  rw [booProduct_eq, self_sum]
  apply mul_nonneg
  · have := Real.pi_pos
    positivity
  · exact Finset.sum_nonneg fun m _ => Complex.normSq_nonneg _

/-- C177: the square of `ql` is the product of the coefficients by themselves; `ql` is null for null coefficients only. -/
theorem C177_norm {l : Nat} (q : Row l) : 0 ≤ ql q ∧ ql q ^ 2 = booProduct q q ∧ (ql q = 0 ↔ ∀ k, q k = 0) := by
  rw [ql_eq]
  refine ⟨Real.sqrt_nonneg _, Real.sq_sqrt (product_self_nonneg q), ?_⟩
  rw [Real.sqrt_eq_zero (product_self_nonneg q), booProduct_eq, self_sum]
  have hp : 4 * Real.pi / (2 * (l : ℝ) + 1) ≠ 0 := by
    have := Real.pi_pos
    positivity
  rw [mul_eq_zero, or_iff_right hp, Finset.sum_eq_zero_iff_of_nonneg fun m _ => Complex.normSq_nonneg _]
  constructor
  · intro h k
    have := h (k.1 : Int) (by rw [Finset.mem_Icc]; have := k.2; omega)
    rw [Complex.normSq_eq_zero, co_nat q k.1 k.2] at this
    exact this
  · intro h m hm
    rw [Complex.normSq_eq_zero]
    unfold co
    split
    · split
      · exact h _
      · rw [h]; simp
    · rfl

/-- C177: the product does not depend on the order of the two particles. -/
theorem C177_symmetric {l : Nat} (a b : Row l) : booProduct a b = booProduct b a := by
  unfold booProduct
  have h : ∀ x y : ℂ, (x * conj y).re = (y * conj x).re := by
    intro x y
    simp only [Complex.mul_re, Complex.conj_re, Complex.conj_im]
    ring
  rw [h (a 0)]
  congr 2
  funext s i
  rw [h]

/-- C177: Cauchy-Schwarz: the product of two particles is at most the product of their `ql`. -/
theorem C177_bounded {l : Nat} (a b : Row l) : |booProduct a b| ≤ ql a * ql b := by
  rw [ql_eq, ql_eq, ← Real.sqrt_mul (product_self_nonneg a)]
  apply Real.abs_le_sqrt
  rw [booProduct_eq, booProduct_eq a a, booProduct_eq b b, self_sum, self_sum]
  have hK : 0 ≤ 4 * Real.pi / (2 * (l : ℝ) + 1) := by
    have := Real.pi_pos
    positivity
  set K := 4 * Real.pi / (2 * (l : ℝ) + 1)
  set S := Finset.Icc (-(l : Int)) l
  have h1 : (∑ m ∈ S, co a m * conj (co b m)).re ^ 2 ≤ (∑ m ∈ S, ‖co a m‖ * ‖co b m‖) ^ 2 := by
    apply sq_le_sq'
    · have h := Complex.abs_re_le_norm (∑ m ∈ S, co a m * conj (co b m))
      have h' := norm_sum_le S fun m => co a m * conj (co b m)
      have e : ∀ m, ‖co a m * conj (co b m)‖ = ‖co a m‖ * ‖co b m‖ := fun m => by rw [norm_mul, Complex.norm_conj]
      simp only [e] at h'
      have := neg_abs_le (∑ m ∈ S, co a m * conj (co b m)).re
      linarith
    · have h := Complex.abs_re_le_norm (∑ m ∈ S, co a m * conj (co b m))
      have h' := norm_sum_le S fun m => co a m * conj (co b m)
      have e : ∀ m, ‖co a m * conj (co b m)‖ = ‖co a m‖ * ‖co b m‖ := fun m => by rw [norm_mul, Complex.norm_conj]
      simp only [e] at h'
      have := le_abs_self (∑ m ∈ S, co a m * conj (co b m)).re
      linarith
  have h2 := Finset.sum_mul_sq_le_sq_mul_sq S (fun m => ‖co a m‖) fun m => ‖co b m‖
  simp only [← Complex.normSq_eq_norm_sq] at h2
  calc (K * (∑ m ∈ S, co a m * conj (co b m)).re) ^ 2 = K ^ 2 * (∑ m ∈ S, co a m * conj (co b m)).re ^ 2 := by ring
    _ ≤ K ^ 2 * ((∑ m ∈ S, Complex.normSq (co a m)) * ∑ m ∈ S, Complex.normSq (co b m)) :=
        mul_le_mul_of_nonneg_left (h1.trans h2) (sq_nonneg _)
    _ = _ := by ring

/-- Coefficients of degree 2. -/
example : Reads (l := 2) (fun _ => Complex.I) (co (l := 2) fun _ => Complex.I) := fun m _ _ => getQlm_co _ (by omega)

/-- C177: an order beyond the degree is read outside of the array, as the compiled code does not check it. -/
theorem C177_outside {l : Nat} (q : Row l) {m : Int} (h : l < m.natAbs) : getQlm q m = .error .ub := by
  unfold getQlm
  rw [dif_neg (by omega)]

example : (2 : Nat) < (-3 : Int).natAbs := by decide

end PyBoo
end Py
end Colloids
