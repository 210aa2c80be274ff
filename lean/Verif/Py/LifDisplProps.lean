import Verif.Py.PhaseCorProps
import Verif.Py.LifDisplModel

/-! # C253: displacements between the images of a series -/

namespace Colloids
namespace Py
namespace LifDispl

open Colloids.Py.PhaseCor ComplexConjugate

section Peak

variable {m n : Nat} [NeZero m] [NeZero n]

/-- The sums of `fft2` are inverted. -/
theorem sum_fft2 (a : ZMod m → ZMod n → ℂ) (x : ZMod m) (y : ZMod n) :
    ∑ k : ZMod m, ∑ l : ZMod n, ZMod.stdAddChar (k * x) * ZMod.stdAddChar (l * y) * fft2 a k l = (m : ℂ) * n * a x y := by
  have h1 : ∀ k l, (ZMod.stdAddChar (k * x) : ℂ) * ZMod.stdAddChar (l * y) * fft2 a k l =
      ∑ u : ZMod m, ∑ v : ZMod n, (ZMod.stdAddChar (k * (x - u)) : ℂ) * (ZMod.stdAddChar (l * (y - v)) : ℂ) * a u v := by
    intro k l
    unfold fft2
    rw [Finset.mul_sum]
    refine Finset.sum_congr rfl fun u _ => ?_
    rw [Finset.mul_sum]
    refine Finset.sum_congr rfl fun v _ => ?_
    have e1 : (ZMod.stdAddChar (k * (x - u)) : ℂ) = ZMod.stdAddChar (k * x) * ZMod.stdAddChar (-(u * k)) := by
      rw [← AddChar.map_add_eq_mul]
      congr 1
      ring
    have e2 : (ZMod.stdAddChar (l * (y - v)) : ℂ) = ZMod.stdAddChar (l * y) * ZMod.stdAddChar (-(v * l)) := by
      rw [← AddChar.map_add_eq_mul]
      congr 1
      ring
    rw [e1, e2]
    ring
  simp only [h1]
  have h2 : (∑ k : ZMod m, ∑ l : ZMod n, ∑ u : ZMod m, ∑ v : ZMod n,
      (ZMod.stdAddChar (k * (x - u)) : ℂ) * (ZMod.stdAddChar (l * (y - v)) : ℂ) * a u v) =
      ∑ u : ZMod m, ∑ v : ZMod n, (∑ k : ZMod m, (ZMod.stdAddChar (k * (x - u)) : ℂ)) * (∑ l : ZMod n, (ZMod.stdAddChar (l * (y - v)) : ℂ)) * a u v := by
    have e1 : ∀ k : ZMod m, (∑ l : ZMod n, ∑ u : ZMod m, ∑ v : ZMod n,
        (ZMod.stdAddChar (k * (x - u)) : ℂ) * (ZMod.stdAddChar (l * (y - v)) : ℂ) * a u v) =
        ∑ u : ZMod m, ∑ v : ZMod n, (ZMod.stdAddChar (k * (x - u)) : ℂ) * (∑ l : ZMod n, (ZMod.stdAddChar (l * (y - v)) : ℂ)) * a u v := by
      intro k
      rw [Finset.sum_comm]
      refine Finset.sum_congr rfl fun u _ => ?_
      rw [Finset.sum_comm]
      refine Finset.sum_congr rfl fun v _ => ?_
      rw [Finset.mul_sum, Finset.sum_mul]
    simp only [e1]
    rw [Finset.sum_comm]
    refine Finset.sum_congr rfl fun u _ => ?_
    rw [Finset.sum_comm]
    refine Finset.sum_congr rfl fun v _ => ?_
    rw [Finset.sum_mul, Finset.sum_mul]
  rw [h2, Finset.sum_eq_single x, Finset.sum_eq_single y]
  · rw [sum_char, sum_char, if_pos (sub_self x), if_pos (sub_self y)]
  · intro v _ hv
    rw [sum_char n, if_neg (fun h => hv (sub_eq_zero.1 h).symm)]
    simp
  · simp
  · intro u _ hu
    refine Finset.sum_eq_zero fun v _ => ?_
    rw [sum_char m, if_neg (fun h => hu (sub_eq_zero.1 h).symm)]
    simp
  · simp

/-- Two images with the same spectrum are the same. -/
theorem fft2_injective {a b : ZMod m → ZMod n → ℂ} (h : ∀ k l, fft2 a k l = fft2 b k l) (x : ZMod m) (y : ZMod n) : a x y = b x y := by
  have h1 := sum_fft2 a x y
  simp only [h] at h1
  rw [sum_fft2 b x y] at h1
  have hm : (m : ℂ) ≠ 0 := by exact_mod_cast NeZero.ne m
  have hn : (n : ℂ) ≠ 0 := by exact_mod_cast NeZero.ne n
  exact (mul_left_cancel₀ (mul_ne_zero hm hn) h1).symm

theorem norm_char (N : Nat) [NeZero N] (x : ZMod N) : ‖(ZMod.stdAddChar x : ℂ)‖ = 1 := AddChar.norm_apply _ _

/-- The normalized product of the spectra. -/
theorem normalized_eq (a b : ZMod m → ZMod n → ℝ) (s : ZMod m) (t : ZMod n) (hb : ∀ x y, b x y = a (x + s) (y + t)) (k : ZMod m) (l : ZMod n) :
    normalized (fft2 (fun x y => (a x y : ℂ)) k l * conj (fft2 (fun x y => (b x y : ℂ)) k l)) =
      if fft2 (fun x y => (a x y : ℂ)) k l = 0 then 0 else ZMod.stdAddChar (-(s * k)) * ZMod.stdAddChar (-(t * l)) := by
  have hb' : (fun x y => (b x y : ℂ)) = fun x y => (fun x y => (a x y : ℂ)) (x + s) (y + t) := by
    funext x y
    simp only [hb]
  have hR : fft2 (fun x y => (a x y : ℂ)) k l * conj (fft2 (fun x y => (b x y : ℂ)) k l) =
      ZMod.stdAddChar (-(s * k)) * ZMod.stdAddChar (-(t * l)) * ((‖fft2 (fun x y => (a x y : ℂ)) k l‖ ^ 2 : ℝ) : ℂ) := by
    rw [hb', fft2_shift (fun x y => (a x y : ℂ)) s t k l, map_mul, map_mul, AddChar.map_neg_eq_conj, AddChar.map_neg_eq_conj]
    have : fft2 (fun x y => (a x y : ℂ)) k l * conj (fft2 (fun x y => (a x y : ℂ)) k l) = ((‖fft2 (fun x y => (a x y : ℂ)) k l‖ ^ 2 : ℝ) : ℂ) := by
      rw [Complex.mul_conj, Complex.normSq_eq_norm_sq]
    rw [← this]
    ring
  rw [hR, normalized, norm_mul, norm_mul, norm_char, norm_char, one_mul, one_mul, Complex.norm_real, Real.norm_of_nonneg (by positivity)]
  by_cases h0 : fft2 (fun x y => (a x y : ℂ)) k l = 0
  · rw [if_pos h0, h0, norm_zero]
    norm_num
  · have hp : 0 < ‖fft2 (fun x y => (a x y : ℂ)) k l‖ ^ 2 := pow_pos (norm_pos_iff.2 h0) 2
    have hp' : ((‖fft2 (fun x y => (a x y : ℂ)) k l‖ ^ 2 : ℝ) : ℂ) ≠ 0 := by exact_mod_cast hp.ne'
    rw [if_neg h0, if_pos hp, mul_div_assoc, div_self hp', mul_one]

open Classical in
/-- The correlation is a sum over the coefficients of the spectrum that are not zero. -/
theorem correl_eq (a b : ZMod m → ZMod n → ℝ) (s : ZMod m) (t : ZMod n) (hb : ∀ x y, b x y = a (x + s) (y + t)) (x : ZMod m) (y : ZMod n) :
    correl a b x y = (∑ k : ZMod m, ∑ l : ZMod n, if fft2 (fun x y => (a x y : ℂ)) k l = 0 then 0
      else ((ZMod.stdAddChar ((x - s) * k) : ℂ) * ZMod.stdAddChar ((y - t) * l)).re) / ((m : ℝ) * n) := by
  unfold correl ifft2
  have hmn : ((m : ℂ) * n) = (((m : ℝ) * n : ℝ) : ℂ) := by push_cast; rfl
  rw [hmn, Complex.div_ofReal_re, Complex.re_sum]
  congr 1
  refine Finset.sum_congr rfl fun k _ => ?_
  rw [Complex.re_sum]
  refine Finset.sum_congr rfl fun l _ => ?_
  simp only
  rw [normalized_eq a b s t hb]
  by_cases h0 : fft2 (fun x y => (a x y : ℂ)) k l = 0
  · rw [if_pos h0, if_pos h0, mul_zero, Complex.zero_re]
  · rw [if_neg h0, if_neg h0]
    congr 1
    have e1 : (ZMod.stdAddChar ((x - s) * k) : ℂ) = ZMod.stdAddChar (k * x) * ZMod.stdAddChar (-(s * k)) := by
      rw [← AddChar.map_add_eq_mul]
      congr 1
      ring
    have e2 : (ZMod.stdAddChar ((y - t) * l) : ℂ) = ZMod.stdAddChar (l * y) * ZMod.stdAddChar (-(t * l)) := by
      rw [← AddChar.map_add_eq_mul]
      congr 1
      ring
    rw [e1, e2]
    ring

/-- C253. For an image that moves on a torus, the correlation is maximum at the displacement, whatever the image; it is as high elsewhere only if the image is the
same when it is moved by the difference. -/
theorem C253_peak (a b : ZMod m → ZMod n → ℝ) (s : ZMod m) (t : ZMod n) (hb : ∀ x y, b x y = a (x + s) (y + t)) (x : ZMod m) (y : ZMod n) :
    correl a b x y ≤ correl a b s t ∧ (correl a b x y = correl a b s t ↔ ∀ u v, a (u + (x - s)) (v + (y - t)) = a u v) := by
  classical
  have hmn : (0 : ℝ) < (m : ℝ) * n := by
    have hm : (0 : ℝ) < m := by exact_mod_cast Nat.pos_of_ne_zero (NeZero.ne m)
    have hn : (0 : ℝ) < n := by exact_mod_cast Nat.pos_of_ne_zero (NeZero.ne n)
    exact mul_pos hm hn
  have hnorm : ∀ k l, ‖(ZMod.stdAddChar ((x - s) * k) : ℂ) * ZMod.stdAddChar ((y - t) * l)‖ = 1 := by
    intro k l
    rw [norm_mul, norm_char, norm_char, one_mul]
  have hterm : ∀ k l, (if fft2 (fun x y => (a x y : ℂ)) k l = 0 then 0 else ((ZMod.stdAddChar ((x - s) * k) : ℂ) * ZMod.stdAddChar ((y - t) * l)).re) ≤
      if fft2 (fun x y => (a x y : ℂ)) k l = 0 then 0 else (1 : ℝ) := by
    intro k l
    split
    · exact le_refl _
    · exact (Complex.re_le_norm _).trans (hnorm k l).le
  have hst : correl a b s t = (∑ k : ZMod m, ∑ l : ZMod n, if fft2 (fun x y => (a x y : ℂ)) k l = 0 then 0 else (1 : ℝ)) / ((m : ℝ) * n) := by
    rw [correl_eq a b s t hb]
    simp
  have hle : ∀ k, (∑ l : ZMod n, if fft2 (fun x y => (a x y : ℂ)) k l = 0 then 0 else ((ZMod.stdAddChar ((x - s) * k) : ℂ) * ZMod.stdAddChar ((y - t) * l)).re) ≤
      ∑ l : ZMod n, if fft2 (fun x y => (a x y : ℂ)) k l = 0 then 0 else (1 : ℝ) := fun k => Finset.sum_le_sum fun l _ => hterm k l
  rw [hst, correl_eq a b s t hb]
  refine ⟨div_le_div_of_nonneg_right (Finset.sum_le_sum fun k _ => hle k) hmn.le, ?_⟩
  rw [div_left_inj' hmn.ne', Finset.sum_eq_sum_iff_of_le fun k _ => hle k]
  constructor
  · intro h u v
    have hall : ∀ k l, fft2 (fun x y => (a x y : ℂ)) k l ≠ 0 → (ZMod.stdAddChar ((x - s) * k) : ℂ) * ZMod.stdAddChar ((y - t) * l) = 1 := by
      intro k l h0
      have h1 := (Finset.sum_eq_sum_iff_of_le fun l _ => hterm k l).1 (h k (Finset.mem_univ k)) l (Finset.mem_univ l)
      rw [if_neg h0, if_neg h0] at h1
      have h2 := hnorm k l
      have h3 : ((ZMod.stdAddChar ((x - s) * k) : ℂ) * ZMod.stdAddChar ((y - t) * l)).im = 0 := by
        have h4 := Complex.normSq_eq_norm_sq ((ZMod.stdAddChar ((x - s) * k) : ℂ) * ZMod.stdAddChar ((y - t) * l))
        rw [h2, Complex.normSq_apply, h1] at h4
        have : ((ZMod.stdAddChar ((x - s) * k) : ℂ) * ZMod.stdAddChar ((y - t) * l)).im ^ 2 = 0 := by nlinarith
        exact pow_eq_zero_iff (two_ne_zero) |>.1 this
      exact Complex.ext h1 h3
    have h5 := fft2_injective (a := fun u v => (fun x y => (a x y : ℂ)) (u + (x - s)) (v + (y - t))) (b := fun x y => (a x y : ℂ)) (fun k l => by
      rw [fft2_shift (fun x y => (a x y : ℂ)) (x - s) (y - t) k l]
      by_cases h0 : fft2 (fun x y => (a x y : ℂ)) k l = 0
      · rw [h0, mul_zero]
      · rw [hall k l h0, one_mul]) u v
    simp only at h5
    exact_mod_cast h5
  · intro h k _
    refine Finset.sum_congr rfl fun l _ => ?_
    by_cases h0 : fft2 (fun x y => (a x y : ℂ)) k l = 0
    · rw [if_pos h0, if_pos h0]
    · rw [if_neg h0, if_neg h0]
      have h6 := fft2_shift (fun x y => (a x y : ℂ)) (x - s) (y - t) k l
      have h7 : (fun u v => (fun x y => (a x y : ℂ)) (u + (x - s)) (v + (y - t))) = fun x y => (a x y : ℂ) := by
        funext u v
        simp only [h]
      rw [h7] at h6
      have h8 : (ZMod.stdAddChar ((x - s) * k) : ℂ) * ZMod.stdAddChar ((y - t) * l) = 1 := by
        have : (ZMod.stdAddChar ((x - s) * k) : ℂ) * ZMod.stdAddChar ((y - t) * l) * fft2 (fun x y => (a x y : ℂ)) k l = 1 * fft2 (fun x y => (a x y : ℂ)) k l := by
          rw [one_mul]
          exact h6.symm
        exact mul_right_cancel₀ h0 this
      rw [h8, Complex.one_re]

/-- Images that no translation leaves the same. -/
def Aperiodic (a : ZMod m → ZMod n → ℝ) : Prop := ∀ x y, (∀ u v, a (u + x) (v + y) = a u v) → x = 0 ∧ y = 0

theorem zmod_inj (N : Nat) [NeZero N] (u v : Nat) (hu : u < N) (hv : v < N) (e : (u : ZMod N) = (v : ZMod N)) : u = v := by
  rw [ZMod.natCast_eq_natCast_iff'] at e
  rwa [Nat.mod_eq_of_lt hu, Nat.mod_eq_of_lt hv] at e

/-- The peak of an image without symmetry is the displacement. -/
theorem peak_eq (a b : ZMod m → ZMod n → ℝ) (i j : Nat) (hi : i < m) (hj : j < n) (ha : Aperiodic a)
    (hb : ∀ x y, b x y = a (x + (i : ZMod m)) (y + (j : ZMod n))) : peak a b = (i, j) := by
  unfold peak
  refine argmax2_unique _ i j hi hj fun u v hu hv hne => ?_
  obtain ⟨h1, h2⟩ := C253_peak a b i j hb u v
  refine lt_of_le_of_ne h1 fun h => hne ?_
  obtain ⟨h3, h4⟩ := ha _ _ (h2.1 h)
  exact Prod.ext (zmod_inj m u i hu hi (sub_eq_zero.1 h3)) (zmod_inj n v j hv hj (sub_eq_zero.1 h4))

theorem rep (N : Nat) [NeZero N] (k : Int) (h1 : -(N : Int) ≤ k) (h2 : k < N) :
    ∃ i : Nat, i < N ∧ (i : ZMod N) = (k : ZMod N) ∧ (i : Int) = if 0 ≤ k then k else k + N := by
  by_cases hk : 0 ≤ k
  · refine ⟨k.toNat, by omega, ?_, by rw [if_pos hk]; omega⟩
    have : ((k.toNat : Int) : ZMod N) = (k : ZMod N) := by rw [Int.toNat_of_nonneg hk]
    push_cast at this
    exact this
  · refine ⟨(k + N).toNat, by omega, ?_, by rw [if_neg hk]; omega⟩
    have : (((k + N).toNat : Int) : ZMod N) = ((k + N : Int) : ZMod N) := by rw [Int.toNat_of_nonneg (by omega)]
    push_cast at this
    rw [this]
    simp

theorem peaks_length (frames : List (ZMod m → ZMod n → ℝ)) : (peaks frames).length = frames.length := by
  cases frames with
  | nil => rfl
  | cons a l =>
    unfold peaks
    rw [List.length_cons, List.length_zipWith, List.length_cons]
    omega

theorem peaks_succ (frames : List (ZMod m → ZMod n → ℝ)) (t : Nat) (a b : ZMod m → ZMod n → ℝ) (ha : frames[t]? = some a)
    (hb : frames[t + 1]? = some b) : (peaks frames)[t + 1]? = some (peak a b) := by
  cases frames with
  | nil => exact absurd ha (by simp)
  | cons c l =>
    rw [List.getElem?_cons_succ] at hb
    unfold peaks
    rw [List.getElem?_cons_succ, List.getElem?_zipWith, ha, hb]

end Peak

/-- C253. For square images of an even size, without a window: a displacement for each image, zero for the first one. If an image without translational symmetry is
followed by the same one moved on a torus by `dy` lines and `dx` columns, at most half the size, the displacement is `(dy, dx)`. -/
theorem C253_square_partial {n : Nat} [NeZero n] (h2 : 2 ∣ n) (w : (ZMod n → ZMod n → ℝ) → ZMod n → ZMod n → ℝ) (frames : List (ZMod n → ZMod n → ℝ)) :
    ∃ out, getDisplacements2D w false frames = .ok out ∧ out.length = frames.length ∧ (∀ p, out[0]? = some p → p = (0, 0)) ∧
      ∀ t a b dy dx, frames[t]? = some a → frames[t + 1]? = some b → Aperiodic a → -(n : Int) ≤ 2 * dy → 2 * dy < n → -(n : Int) ≤ 2 * dx → 2 * dx < n →
        (∀ x y, b x y = a (x + ((dy : Int) : ZMod n)) (y + ((dx : Int) : ZMod n))) → out[t + 1]? = some (dy, dx) := by
  have hn : 0 < n := Nat.pos_of_ne_zero (NeZero.ne n)
  refine ⟨(peaks frames).map fun p => (unwrap n p.1, unwrap n p.2), ?_, by rw [List.length_map, peaks_length], ?_, ?_⟩
  · unfold getDisplacements2D
    simp
  · intro p hp
    cases frames with
    | nil => exact absurd hp (by simp [peaks])
    | cons a l =>
      rw [peaks, List.map_cons, List.getElem?_cons_zero, Option.some.injEq] at hp
      rw [← hp]
      simp only [unwrap]
      rw [if_pos (by omega)]
      rfl
  · intro t a b dy dx ha hb hap h3 h4 h5 h6 hmove
    obtain ⟨i, hi, ei, vi⟩ := rep n dy (by omega) (by omega)
    obtain ⟨j, hj, ej, vj⟩ := rep n dx (by omega) (by omega)
    rw [← ei, ← ej] at hmove
    rw [List.getElem?_map, peaks_succ frames t a b ha hb, peak_eq a b i j hi hj hap hmove, Option.map_some, Option.some.injEq]
    refine Prod.ext ?_ ?_
    · simp only [unwrap]
      split at vi <;> split <;> omega
    · simp only [unwrap]
      split at vj <;> split <;> omega

/-- C253, the part that is false. The lines are compared to the number of columns: for images that are not square, an image without symmetry that moves by one
line backwards never gives this displacement. -/
theorem C253_rectangle_counterexample {m n : Nat} [NeZero m] [NeZero n] (hmn : m ≠ n) (w : (ZMod m → ZMod n → ℝ) → ZMod m → ZMod n → ℝ)
    (a b : ZMod m → ZMod n → ℝ) (ha : Aperiodic a) (hb : ∀ x y, b x y = a (x + ((-1 : Int) : ZMod m)) (y + ((0 : Int) : ZMod n))) :
    ∃ first dy dx, getDisplacements2D w false [a, b] = .ok [first, (dy, dx)] ∧ dy ≠ -1 ∧ (2 * m ≤ n → dy = m - 1) := by
  have hm : 0 < m := Nat.pos_of_ne_zero (NeZero.ne m)
  have hn : 0 < n := Nat.pos_of_ne_zero (NeZero.ne n)
  obtain ⟨i, hi, ei, vi⟩ := rep m (-1) (by omega) (by omega)
  obtain ⟨j, hj, ej, vj⟩ := rep n 0 (by omega) (by omega)
  rw [← ei, ← ej] at hb
  have hp := peak_eq a b i j hi hj ha hb
  refine ⟨(unwrap n 0, unwrap m 0), unwrap n i, unwrap m j, ?_, ?_, ?_⟩
  · unfold getDisplacements2D peaks
    simp [hp]
  · rw [if_neg (by omega)] at vi
    unfold unwrap
    split <;> omega
  · intro h
    rw [if_neg (by omega)] at vi
    unfold unwrap
    rw [if_pos (by omega)]
    omega

/-- C253, the part that is false. With a window, images that are not square are an error. -/
theorem C253_window_counterexample {m n : Nat} [NeZero m] [NeZero n] (hmn : m ≠ n) (w : (ZMod m → ZMod n → ℝ) → ZMod m → ZMod n → ℝ)
    (frames : List (ZMod m → ZMod n → ℝ)) : getDisplacements2D w true frames = .error .invalidArgument := by
  unfold getDisplacements2D
  simp [hmn]

/-- An image with a bright pixel has no translational symmetry. -/
theorem aperiodic_pixel (m n : Nat) [NeZero m] [NeZero n] : Aperiodic (m := m) (n := n) fun x y => if x = 0 ∧ y = 0 then 255 else 0 := by
  intro x y h
  have h1 := h 0 0
  simp only [zero_add] at h1
  by_contra hne
  rw [if_neg hne, if_pos ⟨trivial, trivial⟩] at h1
  norm_num at h1

example : Aperiodic (m := 4) (n := 4) fun x y => if x = 0 ∧ y = 0 then 255 else 0 := aperiodic_pixel 4 4

example : Aperiodic (m := 4) (n := 8) fun x y => if x = 0 ∧ y = 0 then 255 else 0 := aperiodic_pixel 4 8

end LifDispl
end Py
end Colloids
