import Verif.Py.LocalModel
import Mathlib.Tactic.Ring
import Mathlib.Tactic.Linarith
import Mathlib.Tactic.FieldSimp
import Mathlib.Tactic.NormNum
import Mathlib.LinearAlgebra.Matrix.Trace

/-! # Sub-pixel displacements, elongation and 16 bits images in python: C237-C239 -/

namespace Colloids
namespace Py
namespace Local

open Matrix

variable {n : Nat}

/-- The polynomial of degree 2 with the coefficients `k`, `g` and `H`. -/
noncomputable def poly (k : ℝ) (g : Fin n → ℝ) (H : Matrix (Fin n) (Fin n) ℝ) (x : Fin n → ℝ) : ℝ := k + g ⬝ᵥ x + 1 / 2 * (x ⬝ᵥ H *ᵥ x)

/-- The coordinates of a pixel. -/
def coord (c : Fin n → ℤ) : Fin n → ℝ := fun a => (c a : ℝ)

theorem coord_add (c : Fin n → ℤ) (b : Fin n) : coord (c + Pi.single b 1) = coord c + Pi.single b 1 := by
  funext a
  by_cases h : a = b
  · subst h; simp [coord]
  · simp [coord, h]

theorem coord_sub (c : Fin n → ℤ) (b : Fin n) : coord (c - Pi.single b 1) = coord c - Pi.single b 1 := by
  funext a
  by_cases h : a = b
  · subst h; simp [coord]
  · simp [coord, h]

theorem smooth_affine (k : ℝ) (v : Fin n → ℝ) (b : Fin n) : corr1 (1, 2, 1) b (fun c => k + v ⬝ᵥ coord c) = fun c => 4 * k + ((4 : ℝ) • v) ⬝ᵥ coord c := by
  funext c
  simp only [corr1, coord_add, coord_sub, dotProduct_add, dotProduct_sub, smul_dotProduct, smul_eq_mul]
  ring

theorem smooth_fold (l : List (Fin n)) (k : ℝ) (v : Fin n → ℝ) :
    l.foldl (fun g b => corr1 (1, 2, 1) b g) (fun c => k + v ⬝ᵥ coord c) = fun c => 4 ^ l.length * (k + v ⬝ᵥ coord c) := by
  induction l generalizing k v with
  | nil => simp
  | cons b l ih =>
    rw [List.foldl_cons, smooth_affine, ih]
    funext c
    simp only [smul_dotProduct, smul_eq_mul, List.length_cons]
    ring

theorem others_length (a : Fin n) : ((List.finRange n).filter (· ≠ a)).length = n - 1 := by
  have h := List.length_eq_length_filter_add (l := List.finRange n) (fun x => decide (x ≠ a))
  have h1 : ((List.finRange n).filter fun x => !decide (x ≠ a)).length = 1 := by
    have : ((List.finRange n).filter fun x => !decide (x ≠ a)) = (List.finRange n).filter (· == a) := by
      apply List.filter_congr
      intro x _
      by_cases hx : x = a <;> simp [hx]
    rw [this, ← List.countP_eq_length_filter, ← List.count_eq_countP]
    exact List.count_eq_one_of_mem (List.nodup_finRange n) (List.mem_finRange a)
  rw [List.length_finRange, h1] at h
  omega

theorem sobel_affine (k : ℝ) (v : Fin n → ℝ) (a : Fin n) : sobel a (fun c => k + v ⬝ᵥ coord c) = fun _ => 4 ^ (n - 1) * (2 * v a) := by
  have h : corr1 (-1, 0, 1) a (fun c => k + v ⬝ᵥ coord c) = fun c => 2 * v a + (0 : Fin n → ℝ) ⬝ᵥ coord c := by
    funext c
    simp only [corr1, coord_add, coord_sub, dotProduct_add, dotProduct_sub, dotProduct_single, zero_dotProduct]
    ring
  rw [sobel, h, smooth_fold, others_length]
  simp

theorem sobel_poly (k : ℝ) (g : Fin n → ℝ) {H : Matrix (Fin n) (Fin n) ℝ} (hs : Hᵀ = H) (a : Fin n) :
    sobel a (fun c => poly k g H (coord c)) = fun c => 2 * 4 ^ (n - 1) * g a + ((2 * 4 ^ (n - 1) : ℝ) • H a) ⬝ᵥ coord c := by
  have h : corr1 (-1, 0, 1) a (fun c => poly k g H (coord c)) = fun c => 2 * g a + ((2 : ℝ) • H a) ⬝ᵥ coord c := by
    funext c
    have h1 : coord c ⬝ᵥ H *ᵥ Pi.single a 1 = H a ⬝ᵥ coord c := by
      rw [dotProduct_mulVec, dotProduct_single, mul_one, ← mulVec_transpose, hs]
      rfl
    have h2 : Pi.single a 1 ⬝ᵥ H *ᵥ coord c = H a ⬝ᵥ coord c := by
      rw [single_dotProduct, one_mul]
      rfl
    simp only [corr1, poly, coord_add, coord_sub, mulVec_add, mulVec_sub, dotProduct_add, dotProduct_sub, add_dotProduct, sub_dotProduct, h1, h2,
      dotProduct_single, mul_one, smul_dotProduct, smul_eq_mul]
    ring
  rw [sobel, h, smooth_fold, others_length]
  funext c
  simp only [smul_dotProduct, smul_eq_mul]
  ring

theorem grad_poly (k : ℝ) (g : Fin n → ℝ) {H : Matrix (Fin n) (Fin n) ℝ} (hs : Hᵀ = H) (c : Fin n → ℤ) :
    grad (fun c => poly k g H (coord c)) c = (2 * 4 ^ (n - 1) : ℝ) • (g + H *ᵥ coord c) := by
  funext a
  rw [grad, sobel_poly k g hs]
  simp only [smul_dotProduct, smul_eq_mul, Pi.smul_apply, Pi.add_apply, mulVec]
  ring

theorem hess_poly (k : ℝ) (g : Fin n → ℝ) {H : Matrix (Fin n) (Fin n) ℝ} (hs : Hᵀ = H) (c : Fin n → ℤ) :
    hess (fun c => poly k g H (coord c)) c = (4 * 16 ^ (n - 1) : ℝ) • H ∧ hessQuick (fun c => poly k g H (coord c)) c = (4 * 16 ^ (n - 1) : ℝ) • H := by
  have h16 : (16 : ℝ) ^ (n - 1) = 4 ^ (n - 1) * 4 ^ (n - 1) := by rw [← mul_pow]; norm_num
  have hsym : ∀ a b, H a b = H b a := fun a b => by
    conv_lhs => rw [← hs]
    rfl
  have h : ∀ a b : Fin n, sobel a (sobel b fun c => poly k g H (coord c)) c = 4 * 16 ^ (n - 1) * H b a := by
    intro a b
    rw [sobel_poly k g hs, sobel_affine, h16]
    simp only [Pi.smul_apply, smul_eq_mul]
    ring
  constructor
  · ext a b
    rw [hess, of_apply, h, hsym b a]
    rfl
  · ext a b
    rw [hessQuick, of_apply, h, h, hsym b a, ite_self]
    rfl

theorem disp_poly (k : ℝ) (g : Fin n → ℝ) {H : Matrix (Fin n) (Fin n) ℝ} (hs : Hᵀ = H) (hd : H.det ≠ 0) (c : Fin n → ℤ) (x : Fin n → ℝ) (hx : g + H *ᵥ x = 0) :
    dispOf (poly k g H (coord c)) ((2 * 4 ^ (n - 1) : ℝ) • (g + H *ᵥ coord c)) ((4 * 16 ^ (n - 1) : ℝ) • H) =
      .ok ((1 / 2 : ℝ) • (x - coord c), poly k g H (coord c) + 4 ^ (n - 1) * (poly k g H x - poly k g H (coord c))) := by
  have hs0 : (4 * 16 ^ (n - 1) : ℝ) ≠ 0 := by positivity
  have h4 : (4 : ℝ) ^ (n - 1) ≠ 0 := by positivity
  have h16 : (16 : ℝ) ^ (n - 1) = 4 ^ (n - 1) * 4 ^ (n - 1) := by rw [← mul_pow]; norm_num
  have hd' : ((4 * 16 ^ (n - 1) : ℝ) • H).det ≠ 0 := by
    rw [det_smul]
    exact mul_ne_zero (pow_ne_zero _ hs0) hd
  have hg : g = -(H *ᵥ x) := eq_neg_of_add_eq_zero_left hx
  have hy : g + H *ᵥ coord c = H *ᵥ (coord c - x) := by rw [mulVec_sub, hg]; abel
  have hdc : (-4 ^ (n - 1) : ℝ) • ((4 * 16 ^ (n - 1) : ℝ) • H)⁻¹ *ᵥ ((2 * 4 ^ (n - 1) : ℝ) • (g + H *ᵥ coord c)) = (1 / 2 : ℝ) • (x - coord c) := by
    have hz : ((2 * 4 ^ (n - 1) : ℝ) • (g + H *ᵥ coord c)) = ((4 * 16 ^ (n - 1) : ℝ) • H) *ᵥ ((1 / (2 * 4 ^ (n - 1)) : ℝ) • (coord c - x)) := by
      rw [hy, smul_mulVec, mulVec_smul, smul_smul]
      congr 1
      rw [h16]
      field_simp
      norm_num
    rw [hz, mulVec_mulVec, nonsing_inv_mul _ (isUnit_iff_ne_zero.2 hd'), one_mulVec, smul_smul]
    rw [show (-4 ^ (n - 1) * (1 / (2 * 4 ^ (n - 1))) : ℝ) = -(1 / 2) by field_simp, neg_smul, ← smul_neg, neg_sub]
  rw [dispOf, if_neg hd']
  simp only [hdc]
  congr 2
  have e1 : x ⬝ᵥ H *ᵥ coord c = coord c ⬝ᵥ H *ᵥ x := by
    rw [dotProduct_mulVec, ← mulVec_transpose, hs, dotProduct_comm]
  rw [hy]
  have e2 : poly k g H x - poly k g H (coord c) = -(1 / 2) * ((coord c - x) ⬝ᵥ H *ᵥ (coord c - x)) := by
    rw [poly, poly, hg]
    simp only [mulVec_sub, dotProduct_sub, sub_dotProduct, neg_dotProduct]
    rw [dotProduct_comm (H *ᵥ x) x, dotProduct_comm (H *ᵥ x) (coord c), e1]
    ring
  rw [e2]
  simp only [smul_dotProduct, dotProduct_smul, smul_eq_mul]
  rw [dotProduct_comm (H *ᵥ (coord c - x)), ← neg_sub (coord c) x, neg_dotProduct]
  ring

/-- C237. On a polynomial of degree 2 with a single stationary point, `local_disp` and `LocalDispl` give half of the displacement from the pixel to this point,
and the value at the pixel plus `4^(n-1)` times the difference of the values at the two points. -/
theorem C237_half_partial (k : ℝ) (g : Fin n → ℝ) {H : Matrix (Fin n) (Fin n) ℝ} (hs : Hᵀ = H) (hd : H.det ≠ 0) (c : Fin n → ℤ) (x : Fin n → ℝ)
    (hx : g + H *ᵥ x = 0) :
    ∃ (dc : Fin n → ℝ) (v : ℝ), localDisp c (fun c => poly k g H (coord c)) = .ok (dc, v) ∧ quickDisp c (fun c => poly k g H (coord c)) = .ok (dc, v) ∧
      (∀ a, x a = c a + 2 * dc a) ∧ v - poly k g H (coord c) = 4 ^ (n - 1) * (poly k g H x - poly k g H (coord c)) := by
  refine ⟨(1 / 2 : ℝ) • (x - coord c), poly k g H (coord c) + 4 ^ (n - 1) * (poly k g H x - poly k g H (coord c)), ?_, ?_, ?_, by ring⟩
  · rw [localDisp, grad_poly k g hs, (hess_poly k g hs c).1, disp_poly k g hs hd c x hx]
  · rw [quickDisp, grad_poly k g hs, (hess_poly k g hs c).2, disp_poly k g hs hd c x hx]
  · intro a
    simp only [Pi.smul_apply, Pi.sub_apply, smul_eq_mul, coord]
    ring

/-- C237, the part that is false. The stationary point of a polynomial of degree 2 is never reached from a pixel that is not this point, in any dimension; in
dimension 2 or more the value is neither the one of the stationary point, unless it is the one of the pixel. -/
theorem C237_half_counterexample (k : ℝ) (g : Fin n → ℝ) {H : Matrix (Fin n) (Fin n) ℝ} (hs : Hᵀ = H) (hd : H.det ≠ 0) (c : Fin n → ℤ) (x : Fin n → ℝ)
    (hx : g + H *ᵥ x = 0) (hne : ∃ a, x a ≠ c a) :
    ∃ (dc : Fin n → ℝ) (v : ℝ), localDisp c (fun c => poly k g H (coord c)) = .ok (dc, v) ∧ (∃ a, (c a : ℝ) + dc a ≠ x a) ∧
      (2 ≤ n → poly k g H x ≠ poly k g H (coord c) → v ≠ poly k g H x) := by
  obtain ⟨dc, v, h1, _, h3, h4⟩ := C237_half_partial k g hs hd c x hx
  refine ⟨dc, v, h1, ?_, ?_⟩
  · obtain ⟨a, ha⟩ := hne
    refine ⟨a, fun h => ha ?_⟩
    have := h3 a
    linarith
  · intro hn hv h
    rw [h] at h4
    have : (1 : ℝ) < 4 ^ (n - 1) := one_lt_pow₀ (by norm_num) (by omega)
    have h5 : (4 ^ (n - 1) - 1) * (poly k g H x - poly k g H (coord c)) = 0 := by linarith
    rcases mul_eq_zero.1 h5 with h6 | h6
    · linarith
    · exact hv (by linarith)

/-- C237. A polynomial of degree 2 without a single stationary point is an error. -/
theorem C237_singular (k : ℝ) (g : Fin n → ℝ) {H : Matrix (Fin n) (Fin n) ℝ} (hs : Hᵀ = H) (hd : H.det = 0) (c : Fin n → ℤ) :
    localDisp c (fun c => poly k g H (coord c)) = .error .logicError ∧ quickDisp c (fun c => poly k g H (coord c)) = .error .logicError := by
  have h0 : ((4 * 16 ^ (n - 1) : ℝ) • H).det = 0 := by rw [det_smul, hd, mul_zero]
  constructor
  · rw [localDisp, (hess_poly k g hs c).1, dispOf, if_pos h0]
  · rw [quickDisp, (hess_poly k g hs c).2, dispOf, if_pos h0]

example : (1 : Matrix (Fin 3) (Fin 3) ℝ)ᵀ = 1 ∧ (1 : Matrix (Fin 3) (Fin 3) ℝ).det ≠ 0 ∧
    (fun _ => -1 : Fin 3 → ℝ) + (1 : Matrix (Fin 3) (Fin 3) ℝ) *ᵥ (fun _ => 1) = 0 := by
  refine ⟨transpose_one, by simp, ?_⟩
  rw [one_mulVec]
  funext a
  simp

/-! ## C238 -/

/-- C238. Around a pixel where a layer is a polynomial of degree 2 with principal curvatures `p ≥ q > 0`, `elongated` is true exactly when the ratio of the
curvatures is larger than the one that is asked, at least 1. -/
theorem C238_ratio (k : ℝ) (g : Fin 2 → ℝ) {H : Matrix (Fin 2) (Fin 2) ℝ} (hs : Hᵀ = H) (c : Fin 2 → ℤ) (p q r : ℝ) (hq : 0 < q) (hpq : q ≤ p) (hr : 1 ≤ r)
    (hroots : ∀ x : ℝ, (x - H 0 0) * (x - H 1 1) - H 0 1 * H 1 0 = (x - p) * (x - q)) :
    elongated c (fun c => poly k g H (coord c)) r = true ↔ r < p / q := by
  have hp : 0 < p := hq.trans_le hpq
  have hdet : H.det = p * q := by rw [det_fin_two]; have := hroots 0; linarith
  have htr : H.trace = p + q := by
    have h0 := hroots 0
    have h1 := hroots 1
    rw [trace_fin_two]
    linarith
  have hD : ((4 * 16 ^ (2 - 1) : ℝ) • H).det = 64 ^ 2 * (p * q) := by rw [det_smul, hdet, Fintype.card_fin]; norm_num
  have hT : ((4 * 16 ^ (2 - 1) : ℝ) • H).trace = 64 * (p + q) := by rw [trace_smul, htr, smul_eq_mul]; norm_num
  have hpos : 0 < (64 : ℝ) ^ 2 * (p * q) := by positivity
  unfold elongated
  simp only [(hess_poly k g hs c).1, hD, hT]
  rw [if_neg hpos.not_gt, if_neg hpos.ne', decide_eq_true_eq, gt_iff_lt, lt_div_iff₀ hpos, div_mul_eq_mul_div, div_lt_iff₀ (by linarith), lt_div_iff₀ hq]
  have hkey : (64 * (p + q)) ^ 2 * r - (r + 1) ^ 2 * (64 ^ 2 * (p * q)) = 64 ^ 2 * ((p - r * q) * (r * p - q)) := by ring
  have hrp : q ≤ r * p := hpq.trans (le_mul_of_one_le_left hp.le hr)
  constructor
  · intro h
    by_contra hc
    have h1 : (p - r * q) * (r * p - q) ≤ 0 := mul_nonpos_of_nonpos_of_nonneg (by linarith) (by linarith)
    nlinarith
  · intro h
    have h2 : q < r * p := by
      rcases hr.lt_or_eq with h1 | h1
      · have := lt_mul_of_one_lt_left hp h1
        linarith
      · subst h1
        linarith
    have h1 : 0 < (p - r * q) * (r * p - q) := mul_pos (by linarith) (by linarith)
    nlinarith

/-- C238. A saddle point is elongated. -/
theorem C238_saddle (k : ℝ) (g : Fin 2 → ℝ) {H : Matrix (Fin 2) (Fin 2) ℝ} (hs : Hᵀ = H) (c : Fin 2 → ℤ) (r : ℝ) (hd : H.det < 0) :
    elongated c (fun c => poly k g H (coord c)) r = true := by
  have hD : ((4 * 16 ^ (2 - 1) : ℝ) • H).det < 0 := by
    rw [det_smul, Fintype.card_fin]
    exact mul_neg_of_pos_of_neg (by positivity) hd
  unfold elongated
  simp only [(hess_poly k g hs c).1]
  rw [if_pos hD]

/-- C238. A valley, that has a single null curvature, is elongated. -/
theorem C238_valley (k : ℝ) (g : Fin 2 → ℝ) {H : Matrix (Fin 2) (Fin 2) ℝ} (hs : Hᵀ = H) (c : Fin 2 → ℤ) (r : ℝ) (hd : H.det = 0) (ht : H.trace ≠ 0) :
    elongated c (fun c => poly k g H (coord c)) r = true := by
  have hD : ((4 * 16 ^ (2 - 1) : ℝ) • H).det = 0 := by rw [det_smul, hd, mul_zero]
  have hT : ((4 * 16 ^ (2 - 1) : ℝ) • H).trace ≠ 0 := by
    rw [trace_smul, smul_eq_mul]
    exact mul_ne_zero (by positivity) ht
  unfold elongated
  simp only [(hess_poly k g hs c).1]
  rw [if_neg (by rw [hD]; exact lt_irrefl _), if_pos hD, decide_eq_true_eq]
  exact hT

example : ∀ x : ℝ, (x - (!![3, 0; 0, 2] : Matrix (Fin 2) (Fin 2) ℝ) 0 0) * (x - (!![3, 0; 0, 2] : Matrix (Fin 2) (Fin 2) ℝ) 1 1) -
    (!![3, 0; 0, 2] : Matrix (Fin 2) (Fin 2) ℝ) 0 1 * (!![3, 0; 0, 2] : Matrix (Fin 2) (Fin 2) ℝ) 1 0 = (x - 3) * (x - 2) := by
  intro x; simp

/-! ## C239 -/

/-- The two bytes of a pixel. -/
def twoBytes (bigendian : Bool) (v : Nat) : List Nat := if bigendian then [v / 256, v % 256] else [v % 256, v / 256]

/-- The bytes of an image, row after row. -/
def imageBytes (bigendian : Bool) (width height : Nat) (pix : Nat → Nat → Nat) : List Nat :=
  (List.range height).flatMap fun y => (List.range width).flatMap fun x => twoBytes bigendian (pix x y)

theorem twoBytes_length (be : Bool) (v : Nat) : (twoBytes be v).length = 2 := by cases be <;> rfl

theorem flat_get {α : Type} (m : Nat) (f : Nat → List α) (hf : ∀ i, (f i).length = m) (n i r : Nat) (hi : i < n) (hr : r < m) :
    ((List.range n).flatMap f)[i * m + r]? = (f i)[r]? := by
  induction n with
  | zero => omega
  | succ n ih =>
    have hl : ((List.range n).flatMap f).length = n * m := by
      rw [List.length_flatMap]
      simp [hf]
    rw [List.range_succ, List.flatMap_append, List.flatMap_singleton]
    rcases Nat.lt_succ_iff_lt_or_eq.1 hi with h | rfl
    · rw [List.getElem?_append_left, ih h]
      rw [hl]
      calc i * m + r < i * m + m := by omega
        _ = (i + 1) * m := by rw [Nat.succ_mul]
        _ ≤ n * m := Nat.mul_le_mul_right m h
    · rw [List.getElem?_append_right (by rw [hl]; omega), hl]
      congr 1
      omega

theorem flat_length {α : Type} (m : Nat) (f : Nat → List α) (hf : ∀ i, (f i).length = m) (n : Nat) : ((List.range n).flatMap f).length = n * m := by
  rw [List.length_flatMap]
  simp [hf]

theorem image_get (be : Bool) (width height : Nat) (pix : Nat → Nat → Nat) (x y b : Nat) (hx : x < width) (hy : y < height) (hb : b < 2) :
    (imageBytes be width height pix)[(y * width + x) * 2 + b]? = (twoBytes be (pix x y))[b]? := by
  have h1 : ∀ y, ((List.range width).flatMap fun x => twoBytes be (pix x y)).length = width * 2 := fun y => flat_length 2 _ (fun _ => twoBytes_length _ _) width
  rw [imageBytes, show (y * width + x) * 2 + b = y * (width * 2) + (x * 2 + b) by ring, flat_get (width * 2) _ h1 height y (x * 2 + b) hy (by omega),
    flat_get 2 _ (fun _ => twoBytes_length _ _) width x b hx hb]

/-- C239. `readTIFF16` gives, at the place number `m` in its order, the pixel number `m` of the image, row after row; the first dimension of the result is the
width of the image. -/
theorem C239_pixels (be : Bool) (width height : Nat) (pix : Nat → Nat → Nat) :
    ∃ out, readTIFF16 width height (imageBytes be width height pix) be = .ok out ∧ out.length = width ∧ (∀ row ∈ out, row.length = height) ∧
      ∀ i j x y, i < width → j < height → x < width → y < height → i * height + j = y * width + x →
        ∃ row, out[i]? = some row ∧ row[j]? = some (pix x y) := by
  have hl : (imageBytes be width height pix).length = width * height * 2 := by
    rw [imageBytes, flat_length (width * 2) _ (fun y => flat_length 2 _ (fun _ => twoBytes_length _ _) width)]
    ring
  rw [readTIFF16, if_neg (by rw [hl]; simp)]
  refine ⟨_, rfl, by simp, ?_, ?_⟩
  · intro row hrow
    obtain ⟨i, _, rfl⟩ := List.mem_map.1 hrow
    simp
  · intro i j x y hi hj hx hy hm
    refine ⟨_, by rw [List.getElem?_map, List.getElem?_range hi, Option.map_some], ?_⟩
    rw [List.getElem?_map, List.getElem?_range hj, Option.map_some]
    congr 1
    have h0 := image_get be width height pix x y 0 hx hy (by omega)
    have h1 := image_get be width height pix x y 1 hx hy (by omega)
    rw [Nat.add_zero] at h0
    simp only [List.getD_eq_getElem?_getD, hm, h0, h1]
    cases be
    · simp [twoBytes, Nat.shiftLeft_eq]
      omega
    · simp [twoBytes, Nat.shiftLeft_eq]
      omega

/-- C239. In a square image, the row `y` of the result is the row `y` of the image. -/
theorem C239_square_partial (be : Bool) (size : Nat) (pix : Nat → Nat → Nat) :
    ∃ out, readTIFF16 size size (imageBytes be size size pix) be = .ok out ∧ ∀ x y, x < size → y < size → ∃ row, out[y]? = some row ∧ row[x]? = some (pix x y) := by
  obtain ⟨out, h1, _, _, h4⟩ := C239_pixels be size size pix
  exact ⟨out, h1, fun x y hx hy => h4 y x x y hy hx hx hy rfl⟩

/-- C239, the part that is false. In any other image the pixels are mixed: the second row of the result does not begin by the second row of the image, nor
by its second column. -/
theorem C239_mixed_counterexample (be : Bool) (width height : Nat) (hw : 2 ≤ width) (hh : 2 ≤ height) (hne : width ≠ height) :
    ∃ (pix : Nat → Nat → Nat) (out : List (List Nat)) (row : List Nat) (v : Nat), readTIFF16 width height (imageBytes be width height pix) be = .ok out ∧
      out[1]? = some row ∧ row[0]? = some v ∧ v ≠ pix 0 1 ∧ v ≠ pix 1 0 := by
  have hy : height / width < height := Nat.div_lt_self (by omega) (by omega)
  have hx : height % width < width := Nat.mod_lt _ (by omega)
  refine ⟨fun x y => if x = height % width ∧ y = height / width then 1 else 0, ?_⟩
  obtain ⟨out, h1, _, _, h4⟩ := C239_pixels be width height fun x y => if x = height % width ∧ y = height / width then 1 else 0
  have hm : 1 * height + 0 = height / width * width + height % width := by
    have := Nat.div_add_mod height width
    rw [Nat.mul_comm] at this
    omega
  obtain ⟨row, h5, h6⟩ := h4 1 0 (height % width) (height / width) (by omega) (by omega) hx hy hm
  refine ⟨out, row, 1, h1, h5, by simpa using h6, ?_, ?_⟩
  · simp only
    rw [if_neg]
    · norm_num
    · rintro ⟨e1, e2⟩
      rw [← e1, ← e2] at hm
      omega
  · simp only
    rw [if_neg]
    · norm_num
    · rintro ⟨e1, e2⟩
      rw [← e1, ← e2] at hm
      omega

end Local
end Py
end Colloids
