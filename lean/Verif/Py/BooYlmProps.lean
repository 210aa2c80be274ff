import Verif.Py.BooModel
import Verif.Py.BondsProps
import Verif.Py.AverageProps
import Verif.Boo.RotProps2

/-! # Spherical harmonics of bonds in python: C175 -/

namespace Colloids
namespace Py
namespace PyBoo
open Boo (len len_sq len_pos legendre sphericalHarmonic)
open Polynomial
open Linker (get_mapRange)
open Average (fold_contrib upd_add idx_some)
open TreeIndex (mapM_ok_of)
open Bonds (ends)

/-- The angles of a vector are those of its direction. -/
theorem cart_dir {v : Fin 3 → ℝ} (hv : v ≠ 0) :
    (cart2sph v).1 = len v ∧ 0 ≤ (cart2sph v).2.1 ∧ (cart2sph v).2.1 ≤ Real.pi ∧ Real.cos (cart2sph v).2.1 = v 2 / len v ∧
      (Real.sin (cart2sph v).2.1 : ℂ) * Complex.exp ((cart2sph v).2.2 * Complex.I)
        = ((v 0 / len v : ℝ) : ℂ) + ((v 1 / len v : ℝ) : ℂ) * Complex.I := by
  have hr := len_pos hv
  have hsq := len_sq v
  unfold cart2sph
  simp only
  rw [show √(v 0 ^ 2 + v 1 ^ 2 + v 2 ^ 2) = len v from rfl, if_pos (Or.inr (by rw [← hsq]; positivity))]
  simp only
  have hle : |v 2| ≤ len v := by
    apply abs_le_of_sq_le_sq _ hr.le
    nlinarith [sq_nonneg (v 0), sq_nonneg (v 1)]
  have habs := abs_le.1 hle
  refine ⟨trivial, Real.arccos_nonneg _, Real.arccos_le_pi _, ?_, ?_⟩
  · rw [Real.cos_arccos]
    · rw [le_div_iff₀ hr]; linarith
    · rw [div_le_iff₀ hr]; linarith
  · have hexp : Complex.exp (((if Complex.arg ⟨v 0, v 1⟩ < 0 then Complex.arg ⟨v 0, v 1⟩ + 2 * Real.pi
        else Complex.arg ⟨v 0, v 1⟩ : ℝ) : ℂ) * Complex.I)
        = Complex.exp ((Complex.arg ⟨v 0, v 1⟩ : ℝ) * Complex.I) := by
      split
      · push_cast
        rw [add_mul, Complex.exp_add, Complex.exp_two_pi_mul_I, mul_one]
      · rfl
    rw [hexp, Real.sin_arccos]
    have hn : √(1 - (v 2 / len v) ^ 2) = ‖(⟨v 0, v 1⟩ : ℂ)‖ / len v := by
      rw [Complex.norm_eq_sqrt_sq_add_sq]
      rw [← Real.sqrt_sq hr.le, ← Real.sqrt_div (by positivity), Real.sqrt_sq hr.le]
      congr 1
      have : v 0 ^ 2 + v 1 ^ 2 = len v ^ 2 - v 2 ^ 2 := by rw [hsq]; ring
      simp only
      rw [this]
      field_simp
    rw [hn]
    have := Complex.norm_mul_exp_arg_mul_I ⟨v 0, v 1⟩
    push_cast
    rw [div_mul_eq_mul_div, this]
    have e : (⟨v 0, v 1⟩ : ℂ) = (v 0 : ℂ) + (v 1 : ℂ) * Complex.I := by
      apply Complex.ext <;> simp
    rw [e]
    ring

/-- The normalisation of the spherical harmonics. -/
noncomputable def norm (l m : Nat) : ℝ :=
  √((2 * l + 1) / (4 * Real.pi) * (((l - m).factorial : ℝ) / ((l + m).factorial : ℝ)))

/-- A spherical harmonic as a polynomial in the cosine of the colatitude and in the projection on the horizontal plane. -/
theorem harmonic_poly (l m : Nat) {theta phi : ℝ} (h0 : 0 ≤ theta) (h1 : theta ≤ Real.pi) :
    sphericalHarmonic l m theta phi = ((norm l m * (-1) ^ m * (derivative^[m] (legendre l)).eval (Real.cos theta) : ℝ) : ℂ)
      * ((Real.sin theta : ℂ) * Complex.exp (phi * Complex.I)) ^ m := by
  unfold sphericalHarmonic Boo.legendreP norm
  have hs : √(1 - Real.cos theta ^ 2) = Real.sin theta := by
    rw [← Real.sin_sq, Real.sqrt_sq (Real.sin_nonneg_of_nonneg_of_le_pi h0 h1)]
  rw [hs, mul_pow, ← Complex.exp_nat_mul]
  have he : Complex.I * m * phi = m * (phi * Complex.I) := by ring
  rw [he]
  push_cast
  ring

/-- C175: `cart2sph` gives the length of a vector that is not null, its colatitude between 0 and π, and its azimuth between 0 and 2π: the vector is recovered
from them. -/
theorem C175_angles {v : Fin 3 → ℝ} (hv : v ≠ 0) : ∃ r phi theta : ℝ, cart2sph v = (r, phi, theta) ∧ 0 < r ∧ r ^ 2 = v 0 ^ 2 + v 1 ^ 2 + v 2 ^ 2 ∧
    0 ≤ phi ∧ phi ≤ Real.pi ∧ 0 ≤ theta ∧ theta < 2 * Real.pi ∧ v 0 = r * (Real.sin phi * Real.cos theta) ∧ v 1 = r * (Real.sin phi * Real.sin theta) ∧
    v 2 = r * Real.cos phi := by
  obtain ⟨h1, h2, h3, h4, h5⟩ := cart_dir hv
  have hr := len_pos hv
  have hsq := len_sq v
  refine ⟨(cart2sph v).1, (cart2sph v).2.1, (cart2sph v).2.2, rfl, by rw [h1]; exact hr, by rw [h1]; exact hsq, h2, h3, ?_, ?_, ?_, ?_, ?_⟩
  · unfold cart2sph
    simp only
    rw [if_pos (Or.inr (by rw [← hsq]; positivity))]
    simp only
    have := Complex.neg_pi_lt_arg ⟨v 0, v 1⟩
    split <;> linarith [Real.pi_pos]
  · unfold cart2sph
    simp only
    rw [if_pos (Or.inr (by rw [← hsq]; positivity))]
    simp only
    have := Complex.arg_le_pi ⟨v 0, v 1⟩
    split <;> linarith [Real.pi_pos]
  · have := congrArg Complex.re h5
    rw [Complex.re_ofReal_mul, Complex.exp_ofReal_mul_I_re] at this
    rw [h1, this]
    simp
    field_simp
  · have := congrArg Complex.im h5
    rw [Complex.im_ofReal_mul, Complex.exp_ofReal_mul_I_im] at this
    rw [h1, this]
    simp
    field_simp
  · rw [h1, h4]; field_simp

example : (![0, 0, -2] : Fin 3 → ℝ) ≠ 0 := fun h => by have := congrFun h 2; simp at this

/-- C175: the coefficients of a bond, in Cartesian coordinates. -/
theorem C175_formula (l : Nat) {v : Fin 3 → ℝ} (hv : v ≠ 0) (m : Fin (l + 1)) :
    vect2Ylm l v m = ((√((2 * l + 1) / (4 * Real.pi) * (((l - m).factorial : ℝ) / ((l + m).factorial : ℝ))) * (-1) ^ m.1
        * (derivative^[m] (legendre l)).eval (v 2 / len v) : ℝ) : ℂ) * (((v 0 / len v : ℝ) : ℂ) + ((v 1 / len v : ℝ) : ℂ) * Complex.I) ^ m.1 := by
  obtain ⟨_, h2, h3, h4, h5⟩ := cart_dir hv
  unfold vect2Ylm
  simp only
  rw [harmonic_poly l m h2 h3, h5, h4]
  rfl

theorem comp_derivative {P : ℝ[X]} {s : ℝ} (h : P.comp (-X) = C s * P) : (derivative P).comp (-X) = C (-s) * derivative P := by
  have := congrArg derivative h
  rw [derivative_comp, derivative_C_mul, derivative_neg, derivative_X] at this
  rw [C_neg, neg_mul, ← this]
  ring

theorem comp_derivatives {P : ℝ[X]} {s : ℝ} (h : P.comp (-X) = C s * P) (k : Nat) :
    (derivative^[k] P).comp (-X) = C ((-1) ^ k * s) * derivative^[k] P := by
  induction k with
  | zero => simpa using h
  | succ k ih =>
    rw [Function.iterate_succ_apply', comp_derivative ih, pow_succ]
    congr 2
    ring

theorem legendre_parity (l m : Nat) (x : ℝ) :
    (derivative^[m] (legendre l)).eval (-x) = (-1) ^ (l + m) * (derivative^[m] (legendre l)).eval x := by
  have h0 : ((X ^ 2 - 1 : ℝ[X]) ^ l).comp (-X) = C 1 * (X ^ 2 - 1 : ℝ[X]) ^ l := by simp
  have h1 := comp_derivatives h0 l
  have h2 : (legendre l).comp (-X) = C ((-1) ^ l) * legendre l := by
    unfold legendre
    rw [mul_comp, C_comp, h1, mul_one]
    ring
  have h3 := congrArg (fun P => P.eval x) (comp_derivatives h2 m)
  simp only [eval_comp, eval_neg, eval_X, eval_mul, eval_C] at h3
  rw [h3, pow_add]
  ring

theorem len_neg (v : Fin 3 → ℝ) : len (-v) = len v := by
  unfold len
  simp

theorem ylm_neg (l : Nat) {v : Fin 3 → ℝ} (hv : v ≠ 0) : vect2Ylm l (-v) = ((-1 : ℝ) ^ l) • vect2Ylm l v := by
  funext m
  rw [Pi.smul_apply, C175_formula l (neg_ne_zero.2 hv), C175_formula l hv, len_neg]
  simp only [Pi.neg_apply, neg_div]
  rw [legendre_parity]
  have e : (((-(v 0 / len v) : ℝ) : ℂ) + ((-(v 1 / len v) : ℝ) : ℂ) * Complex.I) ^ m.1
      = (-1) ^ m.1 * (((v 0 / len v : ℝ) : ℂ) + ((v 1 / len v : ℝ) : ℂ) * Complex.I) ^ m.1 := by
    rw [← mul_pow]
    congr 1
    push_cast
    ring
  rw [e, Complex.real_smul]
  have h1 : (-1 : ℂ) ^ m.1 * (-1) ^ m.1 = 1 := by rw [← mul_pow]; simp
  generalize √((2 * (l : ℝ) + 1) / (4 * Real.pi) * (((l - m).factorial : ℝ) / ((l + m).factorial : ℝ))) = K
  generalize (derivative^[m] (legendre l)).eval (v 2 / len v) = A
  generalize (((v 0 / len v : ℝ) : ℂ) + ((v 1 / len v : ℝ) : ℂ) * Complex.I) ^ m.1 = W
  push_cast
  rw [pow_add]
  linear_combination ((K : ℂ) * (-1) ^ m.1 * (-1) ^ l * (A : ℂ) * W) * h1

/-- C175: a bond seen from its other end: the coefficients are the same for an even degree and opposite for an odd one. -/
theorem C175_parity (l : Nat) {v : Fin 3 → ℝ} (hv : v ≠ 0) :
    (2 ∣ l → vect2Ylm l (-v) = vect2Ylm l v) ∧ (¬ 2 ∣ l → vect2Ylm l (-v) = -vect2Ylm l v) := by
  rw [ylm_neg l hv]
  constructor
  · intro h
    rw [Even.neg_one_pow (even_iff_two_dvd.2 h), one_smul]
  · intro h
    rw [Odd.neg_one_pow (Nat.not_even_iff_odd.1 fun h' => h (even_iff_two_dvd.1 h')), neg_one_smul]

/-- C175: the length of the bond does not matter. -/
theorem C175_direction (l : Nat) {v : Fin 3 → ℝ} (hv : v ≠ 0) {t : ℝ} (ht : 0 < t) : vect2Ylm l (t • v) = vect2Ylm l v := by
  funext m
  have hl : len (t • v) = t * len v := by
    unfold len
    simp only [Pi.smul_apply, smul_eq_mul]
    rw [show (t * v 0) ^ 2 + (t * v 1) ^ 2 + (t * v 2) ^ 2 = t ^ 2 * (v 0 ^ 2 + v 1 ^ 2 + v 2 ^ 2) by ring, Real.sqrt_mul (sq_nonneg t),
      Real.sqrt_sq ht.le]
  have hr := (len_pos hv).ne'
  have e : ∀ a, (t • v) a / len (t • v) = v a / len v := by
    intro a
    rw [hl, Pi.smul_apply, smul_eq_mul]
    field_simp
  rw [C175_formula l (smul_ne_zero ht.ne' hv), C175_formula l hv, e, e, e]

example : (![1, 2, 3] : Fin 3 → ℝ) ≠ 0 ∧ (0 : ℝ) < 2 := ⟨fun h => by have := congrFun h 0; simp at this, by norm_num⟩

theorem ylm_even (l : Nat) (h : 2 ∣ l) (v : Fin 3 → ℝ) : vect2Ylm l (-v) = vect2Ylm l v := by
  by_cases hv : v = 0
  · rw [hv, neg_zero]
  · exact (C175_parity l hv).1 h

end PyBoo
end Py
end Colloids
