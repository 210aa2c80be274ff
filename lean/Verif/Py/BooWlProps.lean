import Verif.Py.BooProductProps
import Verif.Boo.WProps

/-! # The Wigner 3j coefficients and the third order invariant in python: C178 -/

namespace Colloids
namespace Py
namespace PyBoo
open ComplexConjugate
open Boo (Triple wigner3j)

/-- The table of python has the values of that of C++. -/
theorem table_same : ∀ l ∈ [0, 2, 4, 6, 8, 10], ∀ m1 ∈ Boo.mRange l, ∀ m2 ∈ Boo.mRange l, (m1 + m2).natAbs ≤ l →
    (getW3j l m1 m2 (-m1 - m2)).toOption = (Boo.getW3j l m1 m2).toOption := by
  decide +kernel

theorem getW3j_cpp {l : Nat} {m1 m2 : Int} (h : Triple l m1 m2) : getW3j l m1 m2 (-m1 - m2) = Boo.getW3j l m1 m2 := by
  have := table_same l (Boo.even_mem h.even h.deg) m1 (Boo.mem_mRange.2 h.b1) m2 (Boo.mem_mRange.2 h.b2) h.b3
  obtain ⟨e, he, _⟩ := Boo.C56_wigner h
  rw [he] at this ⊢
  cases hx : getW3j l m1 m2 (-m1 - m2) with
  | error _ => rw [hx] at this; simp [Except.toOption] at this
  | ok e' => rw [hx] at this; simp only [Except.toOption, Option.some.injEq] at this; rw [this]

/-- C178: for an even degree up to 10 and three orders of null sum, `get_w3j` gives Wigner's 3j symbol, by Racah's formula. -/
theorem C178_w3j {l : Nat} {m1 m2 : Int} (h : Triple l m1 m2) :
    ∃ e, getW3j l m1 m2 (-m1 - m2) = .ok e ∧ e.val = wigner3j l l l m1 m2 := by
  rw [getW3j_cpp h]
  exact Boo.C56_wigner h

example : Triple 10 (-7) 4 := ⟨by decide, by decide, by decide, by decide, by decide⟩

/-- C178: the coefficient does not depend on the order of the three numbers nor on their signs taken together. -/
theorem C178_symmetric (l : Nat) (a b c : Int) :
    getW3j l b a c = getW3j l a b c ∧ getW3j l b c a = getW3j l a b c ∧ getW3j l (-a) (-b) (-c) = getW3j l a b c := by
  unfold getW3j
  refine ⟨?_, ?_, ?_⟩
  · rw [max_left_comm, min_left_comm]
  · rw [← max_assoc, ← min_assoc, max_comm, min_comm]
  · simp only [Int.natAbs_neg]

/-- The term for `(m1,m2)`, 0 when the third order is not between `-l` and `l`. -/
noncomputable def term {l : Nat} (q : Row l) (m1 m2 : Int) : ℂ :=
  if (m1 + m2).natAbs ≤ l then (wigner3j l l l m1 m2 : ℂ) * co q m1 * co q m2 * co q (-(m1 + m2)) else 0

theorem wl_eq {l : Nat} (q : Row l) (h2 : 2 ∣ l) (hl : l ≤ 10) :
    wl q = .ok (∑ m1 ∈ Finset.Icc (-(l : Int)) l, ∑ m2 ∈ Finset.Icc (-(l : Int)) l, term q m1 m2).re := by
  unfold wl
  rw [Boo.foldlM_add _ (fun m1 => ∑ m2 ∈ Finset.Icc (-(l : Int)) l, (term q m1 m2).re) _ _ ?_]
  · rw [Boo.sum_mRange, zero_add, Complex.re_sum]
    refine congrArg Except.ok (Finset.sum_congr rfl fun m1 _ => ?_)
    rw [Complex.re_sum]
  · intro s m1 h1
    rw [Boo.mem_mRange] at h1
    rw [Boo.foldlM_add _ (fun m2 => (term q m1 m2).re) _ _ ?_, Boo.sum_mRange]
    intro s m2 hm2
    rw [Boo.mem_mRange] at hm2
    unfold term
    by_cases h : (m1 + m2).natAbs ≤ l
    · rw [if_pos h, if_pos (by omega)]
      obtain ⟨e, he, hv⟩ := C178_w3j (m1 := m1) (m2 := m2) ⟨h2, hl, h1, hm2, h⟩
      rw [he, getQlm_co q h1, getQlm_co q hm2, getQlm_co q (by omega), ← hv, show -m1 - m2 = -(m1 + m2) by ring]
      simp only [ok_bind, pure_eq_ok]
      refine congrArg Except.ok ?_
      rw [show (e.val : ℂ) * co q m1 * co q m2 * co q (-(m1 + m2)) = (e.val : ℂ) * (co q m1 * co q m2 * co q (-(m1 + m2))) by ring,
        Complex.re_ofReal_mul]
    · rw [if_neg h, if_neg (by omega)]
      simp

/-- C178: `wl` is the sum of the documentation, over all the orders of null sum: its real part when the coefficient of order 0 is not real. It is not
normalised. -/
theorem C178_wl {l : Nat} (q : Row l) (h2 : 2 ∣ l) (hl : l ≤ 10) {A : Int → ℂ} (hA : Reads q A) :
    wl q = .ok (∑ m1 ∈ Finset.Icc (-(l : Int)) l, ∑ m2 ∈ Finset.Icc (-(l : Int)) l,
      if (m1 + m2).natAbs ≤ l then (wigner3j l l l m1 m2 : ℂ) * A m1 * A m2 * A (-(m1 + m2)) else 0).re := by
  rw [wl_eq q h2 hl]
  refine congrArg Except.ok (congrArg Complex.re (Finset.sum_congr rfl fun m1 h1 => Finset.sum_congr rfl fun m2 hm2 => ?_))
  rw [Finset.mem_Icc] at h1 hm2
  unfold term
  split
  · rw [reads_co hA m1 h1.1 h1.2, reads_co hA m2 hm2.1 hm2.2, reads_co hA (-(m1 + m2)) (by omega) (by omega)]
  · rfl

/-- C178: the value given for the degree 1 is wrong: the symbol with null orders is null, as for any odd degree, while the table gives 1; with the
orders 1, -1 and 0 it is not null, while the table gives 0. -/
theorem C178_odd_counterexample :
    (∃ e, getW3j 1 0 0 0 = .ok e ∧ e.val = 1 ∧ wigner3j 1 1 1 0 0 = 0) ∧ ∃ e, getW3j 1 1 (-1) 0 = .ok e ∧ e.val = 0 ∧ wigner3j 1 1 1 1 (-1) ≠ 0 := by
  refine ⟨⟨⟨1, 1⟩, by decide +kernel, by simp [Boo.W3Entry.val], ?_⟩, ⟨⟨0, 0⟩, by decide +kernel, by simp [Boo.W3Entry.val], ?_⟩⟩
  · have h : Boo.racahSum 1 1 1 0 0 = 0 := by decide +kernel
    simp [wigner3j, h]
  · have h : Boo.racahSign 1 1 1 (-1) * Boo.racahSum 1 1 1 1 (-1) ≠ 0 := by decide +kernel
    have h' : 0 < Boo.racahRoot 1 1 1 1 (-1) := by decide +kernel
    unfold wigner3j
    apply mul_ne_zero
    · exact_mod_cast h
    · exact Real.sqrt_ne_zero'.2 (by exact_mod_cast h')

/-- C178: `wl` of degree 1 is the cube of the coefficient of order 0 instead of 0. -/
theorem C178_wl_odd_counterexample (q : Row 1) (h : (q 0).im = 0) : wl q = .ok ((q 0).re ^ 3) := by
  have hr : Boo.mRange 1 = [-1, 0, 1] := by decide
  have hw : ∀ m1 ∈ [(-1 : Int), 0, 1], ∀ m2 ∈ [(-1 : Int), 0, 1], -(1 : Int) ≤ -m1 - m2 ∧ -m1 - m2 ≤ 1 →
      getW3j 1 m1 m2 (-m1 - m2) = .ok (if m1 = 0 ∧ m2 = 0 then ⟨1, 1⟩ else ⟨0, 0⟩) := by decide +kernel
  unfold wl
  rw [hr, Boo.foldlM_add _ (fun m1 => if m1 = 0 then (q 0).re ^ 3 else 0) _ _ ?_]
  · simp
  intro s m1 h1
  rw [Boo.foldlM_add _ (fun m2 => if m1 = 0 ∧ m2 = 0 then (q 0).re ^ 3 else 0) _ _ ?_]
  · by_cases e : m1 = 0 <;> simp [e]
  intro s m2 h2
  by_cases hc : -((1 : Nat) : Int) ≤ -m1 - m2 ∧ -m1 - m2 ≤ ((1 : Nat) : Int)
  · have b1 : m1.natAbs ≤ 1 := by simp only [List.mem_cons, List.not_mem_nil, or_false] at h1; omega
    have b2 : m2.natAbs ≤ 1 := by simp only [List.mem_cons, List.not_mem_nil, or_false] at h2; omega
    rw [if_pos hc, hw m1 h1 m2 h2 hc, getQlm_co q b1, getQlm_co q b2, getQlm_co q (by omega)]
    simp only [ok_bind, pure_eq_ok]
    refine congrArg Except.ok ?_
    by_cases e : m1 = 0 ∧ m2 = 0
    · rw [if_pos e, if_pos e]
      obtain ⟨rfl, rfl⟩ := e
      simp only [neg_zero, sub_zero, co_zero]
      have : q 0 = (((q 0).re : ℝ) : ℂ) := by
        apply Complex.ext <;> simp [h]
      rw [this, ← Complex.ofReal_mul, ← Complex.ofReal_mul, Complex.ofReal_re, Complex.ofReal_re]
      simp only [Boo.W3Entry.val, Rat.cast_one, Real.sqrt_one]
      ring
    · rw [if_neg e, if_neg e]
      simp [Boo.W3Entry.val]
  · rw [if_neg hc, if_neg (by rintro ⟨rfl, rfl⟩; exact hc (by decide))]
    simp

example : ((fun _ => 1 : Row 1) 0).im = 0 := by simp

/-- C178: a degree of 12 or more reads outside of the table. -/
theorem C178_outside {l : Nat} (h : 12 ≤ l) (m1 m2 m3 : Int) : getW3j l m1 m2 m3 = .error .ub := by
  unfold getW3j
  have hr : getR w3jTable (l / 2) = .error .ub := by
    unfold getR
    rw [List.getElem?_eq_none (by simp [w3jTable]; omega)]
  cases ho : getR m1Offset (max m1.natAbs (max m2.natAbs m3.natAbs)) with
  | error e =>
    rw [error_bind]
    unfold getR at ho
    split at ho
    · exact absurd ho (by simp)
    · have := Except.error.inj ho
      rw [← this]
  | ok o => rw [ok_bind, hr, error_bind]

example : 12 ≤ 12 := le_refl _

end PyBoo
end Py
end Colloids
