import Verif.Boo.RotLoops
import Verif.Boo.Props
import Verif.Octave.PyramidLemmas
import Mathlib.Analysis.SpecialFunctions.Trigonometric.Basic

/-! # The spherical harmonics of a bond -/

namespace Colloids
namespace Boo
open ComplexConjugate Finset

section Legendre
open Polynomial

theorem desc_cast {n k : Nat} (h : k ≤ n) :
    ((n.descFactorial k : Nat) : ℝ) = (n.factorial : ℝ) / ((n - k).factorial : ℝ) := by
  have n1 : ((n - k).factorial : ℝ) ≠ 0 := by exact_mod_cast (n - k).factorial_ne_zero
  rw [eq_div_iff n1]
  have := Nat.factorial_mul_descFactorial h
  rw [mul_comm]
  exact_mod_cast this

/-- The associated Legendre function of the cosine of an angle, from the cosine and sine of its half. -/
theorem legendreP_eq {l m : Nat} (hm : m ≤ l) {c s x : ℝ} (hx : x = c ^ 2 - s ^ 2)
    (h1 : c ^ 2 + s ^ 2 = 1) (h0 : 0 ≤ c * s) :
    legendreP l m x = ((l + m).factorial : ℝ) / (l.factorial : ℝ) * mCoef c s (2 * l) (m + l) l := by
  unfold legendreP legendre
  rw [iterate_derivative_C_mul, ← Function.iterate_add_apply]
  have ex : (X ^ 2 - 1 : ℝ[X]) ^ l = (X - C 1) ^ l * (X + C 1) ^ l := by
    rw [← mul_pow]; congr 1; simp; ring
  rw [ex, iterate_derivative_mul, eval_mul, eval_C, eval_finset_sum]
  have hsq : √(1 - x ^ 2) = 2 * c * s := by
    rw [show 1 - x ^ 2 = (2 * c * s) ^ 2 by rw [hx]; linear_combination (-(c ^ 2 + s ^ 2) - 1) * h1]
    exact Real.sqrt_sq (by linarith)
  rw [hsq]
  have hx1 : x - 1 = -2 * s ^ 2 := by rw [hx]; linear_combination h1
  have hx2 : x + 1 = 2 * c ^ 2 := by rw [hx]; linear_combination -h1
  have hterm : ∀ j ∈ range (m + l).succ, eval x ((m + l).choose j •
      (derivative^[m + l - j] ((X - C 1) ^ l) * derivative^[j] ((X + C (1 : ℝ)) ^ l)))
      = ((m + l).choose j : ℝ) * ((l.descFactorial (m + l - j) : ℝ) * (x - 1) ^ (l - (m + l - j))
        * ((l.descFactorial j : ℝ) * (x + 1) ^ (l - j))) := by
    intro j _
    rw [iterate_derivative_X_sub_pow, iterate_derivative_X_add_pow]
    simp
  rw [sum_congr rfl hterm]
  have hsub : (((range (l + 1)).filter (fun k => l ≤ m + l + k ∧ m + l + k ≤ 2 * l)).image (m + ·))
      ⊆ range (m + l).succ := by
    intro j hj
    rw [mem_image] at hj
    obtain ⟨k, hk, rfl⟩ := hj
    rw [mem_filter, mem_range] at hk
    rw [mem_range]
    omega
  rw [← sum_subset hsub]
  · rw [sum_image (by intro a _ b _ h; simpa using h), mCoef, mul_sum, mul_sum, mul_sum]
    apply sum_congr rfl
    intro k hk
    rw [mem_filter, mem_range] at hk
    unfold mTerm
    have f1 : m + l - (m + k) = l - k := by omega
    have f2 : l - (l - k) = k := by omega
    have f3 : m + l + k - l = m + k := by omega
    have f4 : 2 * l - l = l := by omega
    rw [f1, f2, f3, f4, hx1, hx2, desc_cast (by omega), desc_cast (by omega),
      Nat.cast_choose ℝ (by omega : m + k ≤ m + l), Nat.cast_choose ℝ (by omega : k ≤ l),
      Nat.cast_choose ℝ (by omega : m + k ≤ l), f1, f2]
    have n0 : (l.factorial : ℝ) ≠ 0 := by exact_mod_cast l.factorial_ne_zero
    have n1 : (k.factorial : ℝ) ≠ 0 := by exact_mod_cast k.factorial_ne_zero
    have n2 : ((l - k).factorial : ℝ) ≠ 0 := by exact_mod_cast (l - k).factorial_ne_zero
    have n3 : ((m + k).factorial : ℝ) ≠ 0 := by exact_mod_cast (m + k).factorial_ne_zero
    have n4 : ((l - (m + k)).factorial : ℝ) ≠ 0 := by exact_mod_cast (l - (m + k)).factorial_ne_zero
    obtain ⟨u, hu⟩ : ∃ u, l = m + k + u := ⟨l - (m + k), by omega⟩
    have f5 : l - (m + k) = u := by omega
    have f6 : l - k = m + u := by omega
    rw [f5] at n4 ⊢
    rw [f6] at n2 ⊢
    have e2 : (2 : ℝ) ^ l = 2 ^ m * 2 ^ k * 2 ^ u := by rw [hu, pow_add, pow_add]
    rw [e2, Nat.add_comm l m]
    have p1 : (2 * c * s) ^ m = 2 ^ m * c ^ m * s ^ m := by rw [mul_pow, mul_pow]
    have p2 : (-2 * s ^ 2) ^ k = (-1) ^ k * 2 ^ k * s ^ k * s ^ k := by
      rw [show (-2 * s ^ 2 : ℝ) = (-1) * 2 * s * s by ring, mul_pow, mul_pow, mul_pow]
    have p3 : (2 * c ^ 2) ^ u = 2 ^ u * c ^ u * c ^ u := by
      rw [show (2 * c ^ 2 : ℝ) = 2 * c * c by ring, mul_pow, mul_pow]
    have p4 : (-s) ^ (m + k) = (-1) ^ m * (-1) ^ k * s ^ m * s ^ k := by
      rw [neg_pow, pow_add, pow_add]; ring
    have p5 : c ^ (m + u) = c ^ m * c ^ u := pow_add _ _ _
    rw [p1, p2, p3, p4, p5]
    field_simp
  · intro j hj hn
    rw [mem_range] at hj
    rcases Nat.lt_or_ge j m with h | h
    · rw [(Nat.descFactorial_eq_zero_iff_lt (n := l) (k := m + l - j)).2 (by omega)]
      simp
    · rcases Nat.lt_or_ge l j with h' | h'
      · rw [(Nat.descFactorial_eq_zero_iff_lt (n := l) (k := j)).2 (by omega)]
        simp
      · exfalso
        apply hn
        rw [mem_image]
        exact ⟨j - m, by rw [mem_filter, mem_range]; omega, by omega⟩

end Legendre

/-- The coefficients of a single bond along the axis `z`, up to a factor. -/
def delta (m : Int) : ℂ := if m = 0 then 1 else 0

theorem realC_delta (l : Nat) : RealC l delta := by
  intro m _
  unfold conjC delta
  by_cases h : m = 0
  · simp [h]
  · simp [h]

theorem gen_delta (l : Nat) (x y : ℂ) : gen l delta x y = ((l.factorial : ℂ))⁻¹ * (x * y) ^ l := by
  unfold gen
  rw [sum_eq_single l]
  · have : 2 * l - l = l := by omega
    rw [this]
    have hw : gwt (2 * l) l = ((l.factorial : ℝ))⁻¹ := by
      unfold gwt
      rw [this]
      push_cast
      rw [Real.sqrt_mul_self (Nat.cast_nonneg _)]
    rw [hw, mul_pow]
    simp [delta]
    ring
  · intro p _ hp
    have : ((p : Int) - l) ≠ 0 := by omega
    simp [delta, this]
  · intro h
    rw [mem_range] at h
    omega

/-- The value of all the harmonics at the pole. -/
noncomputable def y0 (l : Nat) : ℝ := √((2 * l + 1) / (4 * Real.pi))

/-- The spherical harmonics are the image of the ones of the pole by the rotation. -/
theorem sphericalHarmonic_eq {l m : Nat} (hm : m ≤ l) {theta phi : ℝ} (h0 : 0 ≤ theta)
    (h1 : theta ≤ Real.pi) :
    sphericalHarmonic l m theta phi = (y0 l : ℂ) * rotC (-phi) theta 0 l delta m := by
  have hs : 0 ≤ Real.sin (theta / 2) := Real.sin_nonneg_of_nonneg_of_le_pi (by linarith) (by linarith)
  have hc : 0 ≤ Real.cos (theta / 2) := Real.cos_nonneg_of_neg_pi_div_two_le_of_le (by linarith)
    (by linarith)
  have hcos : Real.cos theta = Real.cos (theta / 2) ^ 2 - Real.sin (theta / 2) ^ 2 := by
    have := Real.cos_two_mul' (theta / 2)
    rwa [show 2 * (theta / 2) = theta by ring] at this
  unfold sphericalHarmonic
  rw [legendreP_eq hm hcos (Real.cos_sq_add_sin_sq _) (mul_nonneg hc hs)]
  unfold rotC
  rw [sum_eq_single l]
  · have e1 : (((m : Int) + l)).toNat = m + l := by omega
    have e2 : Complex.exp (-((-phi : ℝ) : ℂ) * Complex.I) ^ ((m : Nat) : Int)
        = Complex.exp (Complex.I * m * phi) := by
      rw [zpow_natCast, ← Complex.exp_nat_mul]
      congr 1
      push_cast
      ring
    rw [e1, e2, Real.sqrt_mul (by positivity), dMat]
    have e3 : √(((l - m).factorial : ℝ) / ((l + m).factorial : ℝ))
        * (((l + m).factorial : ℝ) / (l.factorial : ℝ)) = gwt (2 * l) l / gwt (2 * l) (m + l) := by
      unfold gwt
      have : 2 * l - l = l := by omega
      have h' : 2 * l - (m + l) = l - m := by omega
      rw [this, h', div_inv_eq_mul, Nat.add_comm m l]
      push_cast
      rw [Real.sqrt_mul_self (Nat.cast_nonneg _), Real.sqrt_div (Nat.cast_nonneg _),
        Real.sqrt_mul (Nat.cast_nonneg _)]
      have n1 : √((l + m).factorial : ℝ) ≠ 0 :=
        Real.sqrt_ne_zero'.2 (by exact_mod_cast (l + m).factorial_pos)
      have n2 : (l.factorial : ℝ) ≠ 0 := by exact_mod_cast l.factorial_ne_zero
      have n3 : ((l + m).factorial : ℝ) = √((l + m).factorial : ℝ) * √((l + m).factorial : ℝ) :=
        (Real.mul_self_sqrt (Nat.cast_nonneg _)).symm
      field_simp
      rw [pow_two, ← n3]
    have e4 : √(((l - m).factorial : ℝ) / ((l + m).factorial : ℝ))
        * (((l + m).factorial : ℝ) / (l.factorial : ℝ)
          * mCoef (Real.cos (theta / 2)) (Real.sin (theta / 2)) (2 * l) (m + l) l)
        = mCoef (Real.cos (theta / 2)) (Real.sin (theta / 2)) (2 * l) (m + l) l * gwt (2 * l) l
          / gwt (2 * l) (m + l) := by
      rw [← mul_assoc, e3]; ring
    rw [mul_assoc √((2 * (l : ℝ) + 1) / (4 * Real.pi)), e4]
    simp [delta, y0]
    ring
  · intro p _ hp
    have : ((p : Int) - l) ≠ 0 := by omega
    simp [delta, this]
  · intro h
    rw [mem_range] at h
    omega

end Boo
end Colloids
