import Verif.Octave.RadiiModel
import Mathlib.Algebra.BigOperators.Intervals
import Mathlib.Algebra.Order.Floor.Ring
import Mathlib.Tactic.FieldSimp
import Mathlib.Tactic.Positivity
import Mathlib.Tactic.Linarith

/-! # C120: the layers of an octave are blurred geometrically and sizes are those of the blobs that answer most -/

namespace Colloids
namespace Octave

theorem sigma_sq (k : ℝ) (n i : Nat) : targetSigma k n i * targetSigma k n i = k ^ 2 * (2 : ℝ) ^ (2 * (i : ℝ) / n) := by
  unfold targetSigma
  have : (2 : ℝ) ^ (2 * (i : ℝ) / n) = (2 : ℝ) ^ ((i : ℝ) / n) * (2 : ℝ) ^ ((i : ℝ) / n) := by
    rw [← Real.rpow_add (by norm_num)]
    congr 1
    ring
  rw [this]
  ring

theorem sigma_pos {k : ℝ} (hk : 0 < k) (n i : Nat) : 0 < targetSigma k n i :=
  mul_pos hk (Real.rpow_pos_of_pos (by norm_num) _)

theorem sigma_lt {k : ℝ} (hk : 0 < k) {n : Nat} (hn : 0 < n) (i : Nat) :
    targetSigma k n i < targetSigma k n (i + 1) := by
  unfold targetSigma
  apply mul_lt_mul_of_pos_left _ hk
  apply Real.rpow_lt_rpow_of_exponent_lt (by norm_num)
  have : (0 : ℝ) < n := by exact_mod_cast hn
  rw [div_lt_div_iff_of_pos_right this]
  push_cast
  linarith

theorem radius_sq {k : ℝ} (hk : 0 < k) {n : Nat} (hn : 0 < n) (i : Nat) :
    iterativeRadius k n i ^ 2 = targetSigma k n (i + 1) ^ 2 - targetSigma k n i ^ 2 := by
  unfold iterativeRadius
  have h1 := sigma_lt hk hn i
  have h2 := sigma_pos hk n i
  rw [Real.sq_sqrt (by nlinarith)]
  ring

/-- **C120**: blurs add their squares. Starting from the preblur radius, the successive blurs of the octave bring layer
`i` to the preblur radius times 2^(i/n): each layer is blurred 2^(1/n) times more than the one before and the layer `n`,
from which the next octave is made at half the size, exactly twice more than the first. The radii of the blurs are
positive, and the other accessor gives the same. -/
theorem C120_blur (k : ℝ) (hk : 0 < k) (n : Nat) (hn : 0 < n) :
    (∀ i, √(k ^ 2 + ∑ j ∈ Finset.range i, iterativeRadius k n j ^ 2) = k * (2 : ℝ) ^ ((i : ℝ) / n)) ∧
    (√(k ^ 2 + ∑ j ∈ Finset.range n, iterativeRadius k n j ^ 2) = 2 * k) ∧
    (∀ i, 0 < iterativeRadius k n i) ∧
    (∀ i : Nat, radiusBetween k n ((i : ℝ) + 1) i = some (iterativeRadius k n i)) := by
  have hsum : ∀ i, k ^ 2 + ∑ j ∈ Finset.range i, iterativeRadius k n j ^ 2 = targetSigma k n i ^ 2 := by
    intro i
    induction i with
    | zero => simp [targetSigma]
    | succ i ih => rw [Finset.sum_range_succ, ← add_assoc, ih, radius_sq hk hn]; ring
  have h1 : ∀ i, √(k ^ 2 + ∑ j ∈ Finset.range i, iterativeRadius k n j ^ 2) = k * (2 : ℝ) ^ ((i : ℝ) / n) := by
    intro i
    rw [hsum, Real.sqrt_sq (sigma_pos hk n i).le]
    rfl
  refine ⟨h1, ?_, ?_, ?_⟩
  · rw [h1 n, div_self (by exact_mod_cast hn.ne'), Real.rpow_one, mul_comm]
  · intro i
    unfold iterativeRadius
    have a := sigma_lt hk hn i
    have b := sigma_pos hk n i
    exact Real.sqrt_pos.2 (by nlinarith)
  · intro i
    unfold radiusBetween iterativeRadius
    have hlt : (2 : ℝ) ^ (2 * (i : ℝ) / n) < (2 : ℝ) ^ (2 * ((i : ℝ) + 1) / n) := by
      apply Real.rpow_lt_rpow_of_exponent_lt (by norm_num)
      have : (0 : ℝ) < n := by exact_mod_cast hn
      rw [div_lt_div_iff_of_pos_right this]
      linarith
    simp only
    rw [if_neg (by linarith), sigma_sq, sigma_sq, ← mul_sub, Real.sqrt_mul (sq_nonneg k), Real.sqrt_sq hk.le]
    push_cast
    rfl

/-- The Gaussian of radius `s` in `d` dimensions at the distance `r`, up to the constant (2π)^(d/2). -/
noncomputable def gaussianD (d : Nat) (s r : ℝ) : ℝ := Real.exp (-(r ^ 2) / (2 * s ^ 2)) / s ^ d

/-- Where the difference of two Gaussians changes sign. -/
theorem crossing (d : Nat) {a b r : ℝ} (ha : 0 < a) (hab : a < b) :
    (gaussianD d a r = gaussianD d b r ↔ r ^ 2 * (b ^ 2 - a ^ 2) = 2 * d * Real.log (b / a) * a ^ 2 * b ^ 2) ∧
    (gaussianD d b r < gaussianD d a r ↔ r ^ 2 * (b ^ 2 - a ^ 2) < 2 * d * Real.log (b / a) * a ^ 2 * b ^ 2) := by
  have hb : 0 < b := ha.trans hab
  have e : ∀ s : ℝ, 0 < s → gaussianD d s r = Real.exp (-(r ^ 2) / (2 * s ^ 2) - d * Real.log s) := by
    intro s hs
    unfold gaussianD
    rw [Real.exp_sub, ← Real.log_pow, Real.exp_log (pow_pos hs d)]
  have hl : Real.log (b / a) = Real.log b - Real.log a := Real.log_div hb.ne' ha.ne'
  have key : (-(r ^ 2) / (2 * a ^ 2) - d * Real.log a) - (-(r ^ 2) / (2 * b ^ 2) - d * Real.log b) =
      (2 * d * Real.log (b / a) * a ^ 2 * b ^ 2 - r ^ 2 * (b ^ 2 - a ^ 2)) / (2 * a ^ 2 * b ^ 2) := by
    rw [hl]
    field_simp
    ring
  have hden : 0 < 2 * a ^ 2 * b ^ 2 := by positivity
  rw [e a ha, e b hb, Real.exp_lt_exp]
  constructor
  · rw [Real.exp_eq_exp, ← sub_eq_zero, key, div_eq_zero_iff]
    constructor
    · rintro (h | h)
      · linarith
      · exact absurd h hden.ne'
    · intro h
      left
      linarith
  · rw [← sub_pos, key, div_pos_iff_of_pos_right hden, sub_pos]

/-- The prefactor in `d` dimensions. -/
noncomputable def prefactorD (d n : Nat) : ℝ := √(2 * d * Real.log 2 / n / ((2 : ℝ) ^ (2 / (n : ℝ)) - 1))

theorem prefactor_1 (n : Nat) : prefactor2 true n = prefactorD 1 n := by
  simp [prefactor2, prefactorD]

theorem prefactor_2 (n : Nat) : prefactor2 false n = prefactorD 2 n := by
  unfold prefactor2 prefactorD
  have h2 : (2 : ℝ) = √4 := by
    rw [show (4 : ℝ) = 2 ^ 2 by norm_num, Real.sqrt_sq (by norm_num)]
  simp only [Bool.false_eq_true, if_false]
  conv_lhs => rw [show (2 * √(Real.log 2 / n / ((2 : ℝ) ^ (2 / (n : ℝ)) - 1)) : ℝ) =
    √4 * √(Real.log 2 / n / ((2 : ℝ) ^ (2 / (n : ℝ)) - 1)) by rw [← h2]]
  rw [← Real.sqrt_mul (by norm_num)]
  congr 1
  push_cast
  ring

theorem prefactor_3 (n : Nat) : prefactor3 n = prefactorD 3 n := by
  unfold prefactor3 prefactorD
  congr 1
  push_cast
  ring

theorem crossing_scale (d : Nat) (k : ℝ) (hk : 0 < k) (n : Nat) (hn : 0 < n) (l : Nat) (r : ℝ) (hr : 0 ≤ r) :
    (gaussianD d (targetSigma k n l) r = gaussianD d (targetSigma k n (l + 1)) r ↔
      r = scaleRadius (prefactorD d n) k n l) ∧
    (gaussianD d (targetSigma k n (l + 1)) r < gaussianD d (targetSigma k n l) r ↔
      r < scaleRadius (prefactorD d n) k n l) := by
  have hn' : (0 : ℝ) < n := by exact_mod_cast hn
  have c := crossing d (r := r) (sigma_pos hk n l) (sigma_lt hk hn l)
  set a := targetSigma k n l with ha
  set b := targetSigma k n (l + 1) with hb
  have hap := sigma_pos hk n l
  rw [← ha] at hap
  set q := (2 : ℝ) ^ (1 / (n : ℝ)) with hq
  have hqp : 0 < q := Real.rpow_pos_of_pos (by norm_num) _
  have hba : b = q * a := by
    rw [hb, ha, hq]
    unfold targetSigma
    rw [mul_left_comm, ← Real.rpow_add (by norm_num)]
    congr 2
    push_cast
    ring
  have hq2 : (2 : ℝ) ^ (2 / (n : ℝ)) = q ^ 2 := by
    rw [hq, ← Real.rpow_natCast, ← Real.rpow_mul (by norm_num)]
    congr 1
    push_cast
    ring
  have hq1 : 1 < q := by
    have := sigma_lt hk hn l
    rw [← ha, ← hb, hba] at this
    nlinarith
  have hqq : 0 < q ^ 2 - 1 := by nlinarith
  have hlog : Real.log (b / a) = Real.log 2 / n := by
    rw [hba, mul_div_assoc, div_self hap.ne', mul_one, hq, Real.log_rpow (by norm_num)]
    ring
  have hP : 0 ≤ prefactorD d n := Real.sqrt_nonneg _
  have hbp : 0 < b := hap.trans (sigma_lt hk hn l)
  have hs : scaleRadius (prefactorD d n) k n l = prefactorD d n * b := by
    rw [hb]
    unfold scaleRadius targetSigma
    push_cast
    ring
  have hP2 : prefactorD d n ^ 2 * (q ^ 2 - 1) = 2 * d * (Real.log 2 / n) := by
    unfold prefactorD
    rw [hq2, Real.sq_sqrt]
    · field_simp
    · have := Real.log_pos (show (1 : ℝ) < 2 by norm_num)
      positivity
  have hR : 2 * d * Real.log (b / a) * a ^ 2 * b ^ 2 = (prefactorD d n * b) ^ 2 * (b ^ 2 - a ^ 2) := by
    rw [hlog, ← hP2]
    have : b ^ 2 - a ^ 2 = (q ^ 2 - 1) * a ^ 2 := by rw [hba]; ring
    rw [this]
    ring
  have hd : 0 < b ^ 2 - a ^ 2 := by
    rw [hba]
    have : (q * a) ^ 2 - a ^ 2 = (q ^ 2 - 1) * a ^ 2 := by ring
    rw [this]
    positivity
  have hpb : 0 ≤ prefactorD d n * b := mul_nonneg hP hbp.le
  rw [hs, c.1, c.2, hR]
  constructor
  · rw [mul_left_inj' hd.ne', sq_eq_sq₀ hr hpb]
  · rw [mul_lt_mul_iff_left₀ hd, sq_lt_sq₀ hr hpb]

/-- **C120**: the radius given to a center of layer `l` is the distance at which the difference of Gaussians of this
layer changes sign, in one, two and three dimensions: the weight of the less blurred Gaussian is larger before it and
smaller after it. -/
theorem C120_radius (k : ℝ) (hk : 0 < k) (n : Nat) (hn : 0 < n) (l : Nat) (r : ℝ) (hr : 0 ≤ r) :
    ∀ dim : Fin 3, ∀ d : Nat, ∀ prefactor : ℝ,
      (dim = 0 ∧ d = 1 ∧ prefactor = prefactor2 true n) ∨ (dim = 1 ∧ d = 2 ∧ prefactor = prefactor2 false n) ∨
        (dim = 2 ∧ d = 3 ∧ prefactor = prefactor3 n) →
      ((gaussianD d (k * (2 : ℝ) ^ ((l : ℝ) / n)) r = gaussianD d (k * (2 : ℝ) ^ (((l : ℝ) + 1) / n)) r ↔
          r = scaleRadius prefactor k n l) ∧
        (gaussianD d (k * (2 : ℝ) ^ (((l : ℝ) + 1) / n)) r < gaussianD d (k * (2 : ℝ) ^ ((l : ℝ) / n)) r ↔
          r < scaleRadius prefactor k n l)) := by
  intro dim d prefactor h
  have hp : prefactor = prefactorD d n := by
    rcases h with ⟨-, rfl, rfl⟩ | ⟨-, rfl, rfl⟩ | ⟨-, rfl, rfl⟩
    · exact prefactor_1 n
    · exact prefactor_2 n
    · exact prefactor_3 n
  rw [hp]
  have := crossing_scale d k hk n hn l r hr
  unfold targetSigma at this
  push_cast at this
  exact this

/-- **C120**: the size of layer `l`, which sets the margin where no center is looked for, is the radius given to the
centers of the layer before, rounded. -/
theorem C120_size (prefactor k : ℝ) (n l : Nat) :
    |(layerSize prefactor k n (l + 1) : ℝ) - scaleRadius prefactor k n l| ≤ 1 / 2 := by
  unfold layerSize scaleRadius targetSigma
  have e : prefactor * k * (2 : ℝ) ^ (((l : ℝ) + 1) / n) = k * (2 : ℝ) ^ (((l + 1 : Nat) : ℝ) / n) * prefactor := by
    push_cast
    ring
  rw [e]
  generalize k * (2 : ℝ) ^ (((l + 1 : Nat) : ℝ) / n) * prefactor = x
  have h1 := Int.floor_le (x + 1 / 2)
  have h2 := Int.lt_floor_add_one (x + 1 / 2)
  rw [abs_le]
  constructor <;> linarith

/-- **C120**: `get_iterative_radius` from a scale to a smaller one is not a number. -/
theorem C120_back (k : ℝ) (n : Nat) (hn : 0 < n) (a b : ℝ) (h : a < b) :
    radiusBetween k n a b = none := by
  unfold radiusBetween
  have : (2 : ℝ) ^ (2 * a / n) < (2 : ℝ) ^ (2 * b / n) := by
    apply Real.rpow_lt_rpow_of_exponent_lt (by norm_num)
    have : (0 : ℝ) < n := by exact_mod_cast hn
    rw [div_lt_div_iff_of_pos_right this]
    linarith
  simp only
  rw [if_pos (by linarith)]

example : (0 : ℝ) < 16 / 10 ∧ 0 < 3 := by norm_num

end Octave
end Colloids
