import Verif.Boo.RotModel
import Verif.Boo.Lemmas
import Mathlib.Algebra.BigOperators.Ring.Finset
import Mathlib.Algebra.Polynomial.Roots
import Mathlib.Data.Nat.Choose.Sum
import Mathlib.Data.Complex.BigOperators
import Mathlib.Tactic.FieldSimp
import Mathlib.Tactic.LinearCombination

/-! # Generating functions of the coefficients of degree `l`

The coefficients `q m`, `-l ≤ m ≤ l`, are gathered in a homogeneous polynomial of degree `2 l` in two
variables. A rotation of the coefficients is a linear change of variables of the polynomial. -/

namespace Colloids
namespace Boo
open ComplexConjugate Finset

/-- Weight of the monomial of power `p`. -/
noncomputable def gwt (N p : Nat) : ℝ := (√((p.factorial * (N - p).factorial : Nat) : ℝ))⁻¹

theorem gwt_pos (N p : Nat) : 0 < gwt N p := by
  unfold gwt
  have : 0 < p.factorial * (N - p).factorial := Nat.mul_pos p.factorial_pos (N - p).factorial_pos
  have : (0 : ℝ) < ((p.factorial * (N - p).factorial : Nat) : ℝ) := by exact_mod_cast this
  exact inv_pos.2 (Real.sqrt_pos.2 this)

theorem gwt_ne (N p : Nat) : ((gwt N p : ℝ) : ℂ) ≠ 0 := by
  exact_mod_cast (gwt_pos N p).ne'

theorem gwt_sq (N p : Nat) : gwt N p * gwt N p = (((p.factorial * (N - p).factorial : Nat) : ℝ))⁻¹ := by
  unfold gwt
  rw [← mul_inv, Real.mul_self_sqrt (Nat.cast_nonneg _)]

theorem gwt_symm {N p : Nat} (h : p ≤ N) : gwt N (N - p) = gwt N p := by
  unfold gwt
  rw [Nat.sub_sub_self h, Nat.mul_comm]

/-- The polynomial of the coefficients. -/
noncomputable def gen (l : Nat) (q : Int → ℂ) (x y : ℂ) : ℂ :=
  ∑ p ∈ range (2 * l + 1), (gwt (2 * l) p : ℂ) * q ((p : Int) - l) * x ^ p * y ^ (2 * l - p)

theorem poly_unique {n : Nat} {a b : Nat → ℂ}
    (h : ∀ x : ℂ, ∑ p ∈ range n, a p * x ^ p = ∑ p ∈ range n, b p * x ^ p) (p : Nat) (hp : p < n) :
    a p = b p := by
  have : (∑ p ∈ range n, Polynomial.C (a p) * Polynomial.X ^ p)
      = ∑ p ∈ range n, Polynomial.C (b p) * Polynomial.X ^ p := by
    apply Polynomial.funext
    intro x
    simpa [Polynomial.eval_finset_sum] using h x
  have := congrArg (fun P => Polynomial.coeff P p) this
  simpa [Polynomial.finset_sum_coeff, Polynomial.coeff_C_mul, Polynomial.coeff_X_pow, hp] using this

/-- The polynomial determines the coefficients. -/
theorem gen_unique {l : Nat} {q q' : Int → ℂ} (h : ∀ x : ℂ, gen l q x 1 = gen l q' x 1) (m : Int)
    (hm : m.natAbs ≤ l) : q m = q' m := by
  have := poly_unique (n := 2 * l + 1) (a := fun p => (gwt (2 * l) p : ℂ) * q ((p : Int) - l))
    (b := fun p => (gwt (2 * l) p : ℂ) * q' ((p : Int) - l)) (by
      intro x
      simpa [gen] using h x) (m + l).toNat (by omega)
  have e : (((m + l).toNat : Nat) : Int) - l = m := by omega
  rw [e] at this
  exact mul_left_cancel₀ (gwt_ne _ _) this

theorem gen_congr {l : Nat} {q q' : Int → ℂ} (h : ∀ m : Int, m.natAbs ≤ l → q m = q' m) (x y : ℂ) :
    gen l q x y = gen l q' x y := by
  unfold gen
  apply sum_congr rfl
  intro p hp
  rw [mem_range] at hp
  rw [h _ (by omega)]

/-- Homogeneity. -/
theorem gen_smul (l : Nat) (q : Int → ℂ) (z x y : ℂ) :
    gen l q (z * x) (z * y) = z ^ (2 * l) * gen l q x y := by
  unfold gen
  rw [mul_sum]
  apply sum_congr rfl
  intro p hp
  rw [mem_range] at hp
  rw [mul_pow, mul_pow]
  have : z ^ (2 * l) = z ^ p * z ^ (2 * l - p) := by rw [← pow_add]; congr 1; omega
  rw [this]; ring

theorem gen_add (l : Nat) (q q' : Int → ℂ) (x y : ℂ) :
    gen l (fun m => q m + q' m) x y = gen l q x y + gen l q' x y := by
  unfold gen
  rw [← sum_add_distrib]
  apply sum_congr rfl
  intro p _
  ring

/-! ## Expansion of the powers -/

/-- A term of the coefficient of `x^r y^(N-r)` of `(c x + s y)^p (-s x + c y)^(N-p)`. -/
def mTerm {K : Type} [CommRing K] (c s : K) (N r p k : Nat) : K :=
  (p.choose k : K) * ((N - p).choose (r + k - p) : K)
    * (c ^ (p - k) * s ^ k * ((-s) ^ (r + k - p) * c ^ (N - p - (r + k - p))))

/-- The coefficient of `x^r y^(N-r)` of `(c x + s y)^p (-s x + c y)^(N-p)`. -/
def mCoef {K : Type} [CommRing K] (c s : K) (N r p : Nat) : K :=
  ∑ k ∈ (range (p + 1)).filter (fun k => p ≤ r + k ∧ r + k ≤ N), mTerm c s N r p k

theorem expand {K : Type} [CommRing K] (c s x y : K) (N p : Nat) (hp : p ≤ N) :
    (c * x + s * y) ^ p * (-s * x + c * y) ^ (N - p)
      = ∑ r ∈ range (N + 1), mCoef c s N r p * x ^ r * y ^ (N - r) := by
  rw [add_comm (c * x), add_pow, add_pow, sum_mul_sum]
  have h : ∀ k ∈ range (p + 1), ∑ i ∈ range (N - p + 1),
      (s * y) ^ k * (c * x) ^ (p - k) * (p.choose k : K)
        * ((-s * x) ^ i * (c * y) ^ (N - p - i) * ((N - p).choose i : K))
      = ∑ r ∈ range (N + 1), if p ≤ r + k ∧ r + k ≤ N then
          mTerm c s N r p k * x ^ r * y ^ (N - r) else 0 := by
    intro k hk
    rw [mem_range] at hk
    rw [← sum_filter]
    apply sum_nbij' (fun i => p + i - k) (fun r => r + k - p)
    · intro i hi
      rw [mem_range] at hi
      rw [mem_filter, mem_range]
      omega
    · intro r hr
      rw [mem_filter, mem_range] at hr
      rw [mem_range]
      omega
    · intro i hi
      rw [mem_range] at hi
      omega
    · intro r hr
      rw [mem_filter, mem_range] at hr
      omega
    · intro i hi
      rw [mem_range] at hi
      unfold mTerm
      have e1 : p + i - k + k - p = i := by omega
      have e2 : x ^ (p + i - k) = x ^ (p - k) * x ^ i := by rw [← pow_add]; congr 1; omega
      have e3 : y ^ (N - (p + i - k)) = y ^ k * y ^ (N - p - i) := by rw [← pow_add]; congr 1; omega
      rw [e1, e2, e3, mul_pow, mul_pow, mul_pow, mul_pow]
      ring
  rw [sum_congr rfl h, sum_comm]
  apply sum_congr rfl
  intro r _
  rw [mCoef, sum_filter, sum_mul, sum_mul]
  apply sum_congr rfl
  intro k _
  split
  · rfl
  · simp

theorem mCoef_cast (c s : ℝ) (N r p : Nat) :
    ((mCoef c s N r p : ℝ) : ℂ) = mCoef (c : ℂ) (s : ℂ) N r p := by
  unfold mCoef mTerm
  push_cast
  rfl

/-- The matrix of the rotation of axis `y`, with `c` and `s` the cosine and sine of half the angle. -/
noncomputable def dMat (c s : ℝ) (N r p : Nat) : ℝ := mCoef c s N r p * gwt N p / gwt N r

theorem gen_dMat (c s : ℝ) (l : Nat) (q : Int → ℂ) (x y : ℂ) :
    gen l (fun m2 => ∑ p ∈ range (2 * l + 1), (dMat c s (2 * l) (m2 + l).toNat p : ℂ)
      * q ((p : Int) - l)) x y = gen l q (c * x + s * y) (-s * x + c * y) := by
  unfold gen
  have h : ∀ p ∈ range (2 * l + 1),
      (gwt (2 * l) p : ℂ) * q ((p : Int) - l) * ((c : ℂ) * x + s * y) ^ p
        * (-(s : ℂ) * x + c * y) ^ (2 * l - p)
      = ∑ r ∈ range (2 * l + 1), (gwt (2 * l) p : ℂ) * q ((p : Int) - l)
          * (mCoef (c : ℂ) (s : ℂ) (2 * l) r p * x ^ r * y ^ (2 * l - r)) := by
    intro p hp
    rw [mem_range] at hp
    rw [mul_assoc _ (_ ^ p), expand _ _ _ _ _ _ (by omega), mul_sum]
  rw [sum_congr rfl h, sum_comm]
  apply sum_congr rfl
  intro r hr
  rw [mul_sum, sum_mul, sum_mul]
  apply sum_congr rfl
  intro p _
  have e : (((r : Int) - l) + l).toNat = r := by omega
  rw [e, ← mCoef_cast]
  unfold dMat
  have := gwt_ne (2 * l) r
  push_cast
  field_simp

theorem gen_phase (a : ℝ) (l : Nat) (q : Int → ℂ) (x y : ℂ) :
    gen l (fun m => Complex.exp (-a * Complex.I) ^ m * q m) x y
      = gen l q (Complex.exp (-(a / 2) * Complex.I) * x) (Complex.exp (a / 2 * Complex.I) * y) := by
  unfold gen
  apply sum_congr rfl
  intro p hp
  rw [mem_range] at hp
  have : Complex.exp (-a * Complex.I) ^ ((p : Int) - l)
      = Complex.exp (-(a / 2) * Complex.I) ^ p * Complex.exp (a / 2 * Complex.I) ^ (2 * l - p) := by
    rw [← Complex.exp_int_mul, ← Complex.exp_nat_mul, ← Complex.exp_nat_mul, ← Complex.exp_add]
    congr 1
    rw [Nat.cast_sub (by omega)]
    push_cast
    ring
  beta_reduce
  rw [this, mul_pow, mul_pow]
  ring

/-- The coefficients after a rotation of Euler angles `a b g`. -/
noncomputable def rotC (a b g : ℝ) (l : Nat) (q : Int → ℂ) (m2 : Int) : ℂ :=
  Complex.exp (-a * Complex.I) ^ m2 * ∑ p ∈ range (2 * l + 1),
    (dMat (Real.cos (b / 2)) (Real.sin (b / 2)) (2 * l) (m2 + l).toNat p : ℂ)
      * (Complex.exp (-g * Complex.I) ^ ((p : Int) - l) * q ((p : Int) - l))

/-- First parameter of the change of variables. -/
noncomputable def rotA (a b g : ℝ) : ℂ :=
  Complex.exp (-(g / 2) * Complex.I) * Real.cos (b / 2) * Complex.exp (-(a / 2) * Complex.I)

/-- Second parameter of the change of variables. -/
noncomputable def rotB (a b g : ℝ) : ℂ :=
  Complex.exp (-(g / 2) * Complex.I) * Real.sin (b / 2) * Complex.exp (a / 2 * Complex.I)

theorem conj_expI (t : ℝ) : conj (Complex.exp (t * Complex.I)) = Complex.exp (-t * Complex.I) := by
  rw [← Complex.exp_conj]
  congr 1
  simp

theorem gen_rotC (a b g : ℝ) (l : Nat) (q : Int → ℂ) (x y : ℂ) :
    gen l (rotC a b g l q) x y = gen l q (rotA a b g * x + rotB a b g * y)
      (-conj (rotB a b g) * x + conj (rotA a b g) * y) := by
  unfold rotC
  rw [gen_phase, gen_dMat (q := fun m => Complex.exp (-g * Complex.I) ^ m * q m), gen_phase]
  have h1 : ∀ t : ℝ, conj (Complex.exp (-(t / 2) * Complex.I)) = Complex.exp (t / 2 * Complex.I) := by
    intro t
    have := conj_expI (-(t / 2))
    push_cast at this
    rw [this, neg_neg]
  have h2 : ∀ t : ℝ, conj (Complex.exp (t / 2 * Complex.I)) = Complex.exp (-(t / 2) * Complex.I) := by
    intro t
    have := conj_expI (t / 2)
    push_cast at this
    exact this
  congr 1
  · unfold rotA rotB; ring
  · unfold rotA rotB
    rw [map_mul, map_mul, map_mul, map_mul, h1, h1, h2, Complex.conj_ofReal, Complex.conj_ofReal]
    ring

/-- The coefficients of the conjugate function. -/
noncomputable def conjC (q : Int → ℂ) (m : Int) : ℂ := (-1) ^ m * conj (q (-m))

theorem gen_conjC (l : Nat) (q : Int → ℂ) (x y : ℂ) :
    gen l (conjC q) x y = (-1) ^ l * conj (gen l q (-conj y) (conj x)) := by
  unfold gen
  rw [map_sum, mul_sum, ← sum_range_reflect]
  apply sum_congr rfl
  intro p hp
  rw [mem_range] at hp
  have e0 : 2 * l + 1 - 1 - p = 2 * l - p := by omega
  rw [e0, gwt_symm (by omega)]
  have e1 : (((2 * l - p : Nat) : Int) - l) = -((p : Int) - l) := by omega
  have e2 : 2 * l - (2 * l - p) = p := by omega
  rw [e1, e2]
  unfold conjC
  simp only [map_mul, map_pow, map_neg, Complex.conj_conj, Complex.conj_ofReal, neg_neg]
  have e3 : ((-1 : ℂ)) ^ (-((p : Int) - l)) = (-1) ^ l * (-1) ^ p := by
    rw [zpow_neg, zpow_sub₀ (by norm_num), zpow_natCast, zpow_natCast]
    rcases Nat.even_or_odd l with h | h <;> rcases Nat.even_or_odd p with h' | h' <;>
      simp [h.neg_one_pow, h'.neg_one_pow]
  rw [e3, neg_pow y p]
  ring

/-- The coefficients are those of a real function. -/
def RealC (l : Nat) (q : Int → ℂ) : Prop := ∀ m : Int, m.natAbs ≤ l → conjC q m = q m

theorem realC_rotC {l : Nat} {q : Int → ℂ} (h : RealC l q) (a b g : ℝ) :
    RealC l (rotC a b g l q) := by
  intro m hm
  refine gen_unique (l := l) ?_ m hm
  intro x
  rw [gen_conjC, gen_rotC, gen_rotC]
  conv_rhs => rw [gen_congr (fun m hm => (h m hm).symm), gen_conjC]
  congr 3
  · simp only [map_add, map_mul, map_neg, Complex.conj_conj]; ring
  · simp only [map_add, map_mul]; ring

end Boo
end Colloids
