import Mathlib.Tactic.FieldSimp
import Mathlib.Tactic.Linarith
import Verif.CommonLemmas
import Verif.Index.Lemmas
import Verif.Py.DdmModel
import Verif.Py.PhaseCorProps
import Verif.Py.MicroLogProps

/-!
# Differences of images in `python/colloids/ddm.py`
-/

namespace Colloids
namespace Py
namespace Ddm

open Colloids.Py.PhaseCor ComplexConjugate

variable {m n : Nat} [NeZero m] [NeZero n]

theorem parseval1 (N : Nat) [NeZero N] (g : ZMod N → ℂ) :
    ∑ k : ZMod N, ‖∑ x : ZMod N, (ZMod.stdAddChar (-(x * k)) : ℂ) * g x‖ ^ 2 = N * ∑ x : ZMod N, ‖g x‖ ^ 2 := by
  have key : (((∑ k : ZMod N, ‖∑ x : ZMod N, (ZMod.stdAddChar (-(x * k)) : ℂ) * g x‖ ^ 2 : ℝ)) : ℂ) =
      ((N * ∑ x : ZMod N, ‖g x‖ ^ 2 : ℝ) : ℂ) := by
    push_cast
    have h1 : ∀ z : ℂ, ((‖z‖ : ℝ) : ℂ) ^ 2 = z * conj z := fun z => by
      rw [Complex.mul_conj, Complex.normSq_eq_norm_sq]
      push_cast
      rfl
    simp only [h1, map_sum, map_mul, Finset.sum_mul, Finset.mul_sum]
    have h2 : ∀ k x x' : ZMod N, (ZMod.stdAddChar (-(x * k)) : ℂ) * g x * (conj (ZMod.stdAddChar (-(x' * k)) : ℂ) * conj (g x')) =
        ZMod.stdAddChar (k * (x' - x)) * (g x * conj (g x')) := by
      intro k x x'
      rw [← AddChar.map_neg_eq_conj, neg_neg]
      have : (ZMod.stdAddChar (k * (x' - x)) : ℂ) = ZMod.stdAddChar (-(x * k)) * ZMod.stdAddChar (x' * k) := by
        rw [← AddChar.map_add_eq_mul]
        congr 1
        ring
      rw [this]
      ring
    simp only [h2]
    rw [Finset.sum_comm]
    refine Finset.sum_congr rfl fun x _ => ?_
    rw [Finset.sum_comm]
    simp only [← Finset.sum_mul, sum_char, sub_eq_zero]
    rw [Finset.sum_eq_single x]
    · simp
    · intro b _ hb
      rw [if_neg (Ne.symm hb), zero_mul]
    · simp
  exact_mod_cast key

theorem fft2_nested (a : ZMod m → ZMod n → ℂ) (k : ZMod m) (l : ZMod n) :
    fft2 a k l = ∑ x : ZMod m, (ZMod.stdAddChar (-(x * k)) : ℂ) * ∑ y : ZMod n, (ZMod.stdAddChar (-(y * l)) : ℂ) * a x y := by
  unfold fft2
  simp only [Finset.mul_sum, mul_assoc]

/-- **C200** The spectrum of the difference: its sum is the number of pixels times the sum of squared differences (Parseval), it is
zero everywhere only for the same images, and the order of the images does not matter. -/
theorem C200_spectre (a b : Img m n) :
    (∑ k, ∑ l, spectreDiff a b k l = (m * n : ℝ) * ∑ x, ∑ y, (b x y - a x y) ^ 2) ∧
    ((∀ k l, spectreDiff a b k l = 0) ↔ a = b) ∧ (∀ k l, spectreDiff b a k l = spectreDiff a b k l) ∧
    ∀ k l, 0 ≤ spectreDiff a b k l := by
  have hP : ∑ k, ∑ l, spectreDiff a b k l = (m * n : ℝ) * ∑ x, ∑ y, (b x y - a x y) ^ 2 := by
    unfold spectreDiff
    simp only [fft2_nested]
    rw [Finset.sum_comm]
    have e1 : ∀ l : ZMod n, ∑ k : ZMod m, ‖∑ x : ZMod m, (ZMod.stdAddChar (-(x * k)) : ℂ) *
        ∑ y : ZMod n, (ZMod.stdAddChar (-(y * l)) : ℂ) * ((b x y - a x y : ℝ) : ℂ)‖ ^ 2 =
        m * ∑ x : ZMod m, ‖∑ y : ZMod n, (ZMod.stdAddChar (-(y * l)) : ℂ) * ((b x y - a x y : ℝ) : ℂ)‖ ^ 2 :=
      fun l => parseval1 m _
    rw [Finset.sum_congr rfl fun l _ => e1 l, ← Finset.mul_sum, Finset.sum_comm, mul_assoc]
    congr 1
    rw [Finset.mul_sum]
    refine Finset.sum_congr rfl fun x _ => ?_
    rw [parseval1 n (fun y => ((b x y - a x y : ℝ) : ℂ))]
    congr 1
    refine Finset.sum_congr rfl fun y _ => ?_
    rw [Complex.norm_real, Real.norm_eq_abs, sq_abs]
  refine ⟨hP, ⟨?_, ?_⟩, ?_, fun k l => by unfold spectreDiff; positivity⟩
  · intro h
    simp only [h, Finset.sum_const_zero] at hP
    have hm : (0 : ℝ) < m := by exact_mod_cast Nat.pos_of_ne_zero (NeZero.ne m)
    have hn : (0 : ℝ) < n := by exact_mod_cast Nat.pos_of_ne_zero (NeZero.ne n)
    have h0 : ∑ x, ∑ y, (b x y - a x y) ^ 2 = 0 := by
      rcases mul_eq_zero.1 hP.symm with h | h
      · exact absurd h (mul_pos hm hn).ne'
      · exact h
    have h1 := (Finset.sum_eq_zero_iff_of_nonneg (fun x _ => Finset.sum_nonneg fun y _ => sq_nonneg _)).1 h0
    funext x y
    have h2 := (Finset.sum_eq_zero_iff_of_nonneg (fun y _ => sq_nonneg _)).1 (h1 x (Finset.mem_univ _)) y (Finset.mem_univ _)
    have := pow_eq_zero_iff (two_ne_zero) |>.1 h2
    linarith
  · rintro rfl k l
    unfold spectreDiff fft2
    simp
  · intro k l
    unfold spectreDiff
    have : fft2 (fun x y => ((a x y - b x y : ℝ) : ℂ)) k l = -fft2 (fun x y => ((b x y - a x y : ℝ) : ℂ)) k l := by
      unfold fft2
      simp only [← Finset.sum_neg_distrib]
      refine Finset.sum_congr rfl fun x _ => Finset.sum_congr rfl fun y _ => ?_
      push_cast
      ring
    rw [this, norm_neg]

/-- **C200** It does not depend on where the two images are: it is the same if both move, on the torus. -/
theorem C200_translation (a b : Img m n) (s : ZMod m) (t : ZMod n) (k : ZMod m) (l : ZMod n) :
    spectreDiff (fun x y => a (x + s) (y + t)) (fun x y => b (x + s) (y + t)) k l = spectreDiff a b k l := by
  unfold spectreDiff
  rw [fft2_shift (fun x y => ((b x y - a x y : ℝ) : ℂ)) s t k l, norm_mul, norm_mul, AddChar.norm_apply, AddChar.norm_apply]
  ring

/-- **C200** An image that moves by `(s, t)`: the spectrum of the image, times `4 sin²` of half the phase: here
the squared distance between the phase factor and 1. -/
theorem C200_moved (a : Img m n) (s : ZMod m) (t : ZMod n) (k : ZMod m) (l : ZMod n) :
    spectreDiff a (fun x y => a (x + s) (y + t)) k l =
      ‖(ZMod.stdAddChar (s * k) : ℂ) * ZMod.stdAddChar (t * l) - 1‖ ^ 2 * ‖fft2 (fun x y => ((a x y : ℝ) : ℂ)) k l‖ ^ 2 := by
  unfold spectreDiff
  have : fft2 (fun x y => ((a (x + s) (y + t) - a x y : ℝ) : ℂ)) k l =
      ((ZMod.stdAddChar (s * k) : ℂ) * ZMod.stdAddChar (t * l) - 1) * fft2 (fun x y => ((a x y : ℝ) : ℂ)) k l := by
    rw [sub_mul, one_mul, ← fft2_shift (fun x y => ((a x y : ℝ) : ℂ)) s t k l]
    unfold fft2
    rw [← Finset.sum_sub_distrib]
    refine Finset.sum_congr rfl fun x _ => ?_
    rw [← Finset.sum_sub_distrib]
    refine Finset.sum_congr rfl fun y _ => ?_
    push_cast
    ring
  rw [this, norm_mul, mul_pow]

/-! ### Couples -/

theorem couples_mem (N navmax t : Nat) : t ∈ couples N navmax ↔ t < N ∧ max (N / navmax) 1 ∣ t := by
  unfold couples
  dsimp only
  generalize hs : max (N / navmax) 1 = s
  have hs1 : 1 ≤ s := by omega
  simp only [List.mem_map, List.mem_range]
  constructor
  · rintro ⟨i, hi, rfl⟩
    refine ⟨?_, Dvd.intro_left i rfl⟩
    have h1 : i * s + s ≤ N + s - 1 := by
      have := (Nat.le_div_iff_mul_le (by omega)).1 (Nat.succ_le_of_lt hi)
      rw [Nat.succ_mul] at this
      exact this
    omega
  · rintro ⟨h1, i, rfl⟩
    refine ⟨i, ?_, Nat.mul_comm _ _⟩
    refine Nat.lt_of_succ_le ((Nat.le_div_iff_mul_le (by omega)).2 ?_)
    rw [Nat.succ_mul, Nat.mul_comm i s]
    omega

/-- **C200** The couples of images are separated by the interval, inside of the series, regularly spaced from the first image; there
are less than twice the maximum, and all of them if there are less than the maximum. -/
theorem C200_couples (N navmax : Nat) (hn : 0 < navmax) :
    (couples N navmax).Pairwise (· < ·) ∧ (∀ t, t ∈ couples N navmax ↔ t < N ∧ max (N / navmax) 1 ∣ t) ∧
    (0 < N → (couples N navmax).length < 2 * navmax) ∧ (N ≤ navmax → couples N navmax = List.range N) := by
  refine ⟨?_, couples_mem N navmax, ?_, ?_⟩
  · unfold couples
    dsimp only
    rw [List.pairwise_map]
    exact List.pairwise_lt_range.imp fun h => Nat.mul_lt_mul_of_pos_right h (by omega)
  · intro hN
    unfold couples
    simp only [List.length_map, List.length_range]
    by_cases hq : N / navmax ≤ 1
    · rw [max_eq_right hq]
      have : N < 2 * navmax := by
        have := Nat.lt_mul_of_div_lt (Nat.lt_succ_of_le hq) hn
        omega
      simpa using this
    · rw [max_eq_left (by omega)]
      obtain ⟨q, hq'⟩ : ∃ q, q = N / navmax := ⟨_, rfl⟩
      rw [← hq'] at hq ⊢
      have h1 : N < navmax * (q + 1) := by
        have := Nat.lt_mul_div_succ N hn
        rwa [← hq'] at this
      rw [Nat.div_lt_iff_lt_mul (by omega)]
      have h2 : q + navmax ≤ navmax * q + 1 := by
        have : (navmax - 1) * 1 ≤ (navmax - 1) * (q - 1) := Nat.mul_le_mul_left _ (by omega)
        obtain ⟨a, rfl⟩ : ∃ a, navmax = a + 1 := ⟨navmax - 1, by omega⟩
        obtain ⟨c, rfl⟩ : ∃ c, q = c + 1 := ⟨q - 1, by omega⟩
        simp only [Nat.add_sub_cancel] at this
        nlinarith
      have h3 : 2 * navmax * q = navmax * q + navmax * q := by ring
      rw [h3]
      rw [Nat.mul_add] at h1
      omega
  · intro hN
    unfold couples
    dsimp only
    rcases Nat.lt_or_ge N navmax with h | h
    · rw [Nat.div_eq_of_lt h]
      simp
    · have : N = navmax := by omega
      subst this
      rw [Nat.div_self hn]
      simp

/-- **C200** Counterexample: between the maximum and twice as many couples, all are used: more than the maximum. -/
theorem C200_navmax_counterexample (N navmax : Nat) (h1 : navmax < N) (h2 : N < 2 * navmax) :
    navmax < (couples N navmax).length := by
  have hq : N / navmax = 1 := Nat.div_eq_of_lt_le (by omega) (by omega)
  unfold couples
  simp [hq]
  exact h1

omit [NeZero m] [NeZero n] in
theorem sum_couples [NeZero m] [NeZero n] (images : List (Img m n)) (dt : Nat) (f : Nat → Img m n) :
    ∀ (l : List Nat) (r : Img m n), (∀ t ∈ l, ∃ a b, images[t]? = some a ∧ images[t + dt]? = some b ∧ f t = spectreDiff a b) →
      l.foldlM (addCouple images dt) r = .ok fun k p => r k p + (l.map fun t => f t k p).sum := by
  intro l
  induction l with
  | nil => intro r _; simp [pure_eq_ok]
  | cons t l ih =>
    intro r h
    obtain ⟨a, b, h1, h2, h3⟩ := h t (by simp)
    rw [List.foldlM_cons]
    have : addCouple images dt r t = .ok fun k p => r k p + spectreDiff a b k p := by
      unfold addCouple
      rw [h1, h2]
    rw [this, ok_bind, ih _ (fun u hu => h u (List.mem_cons_of_mem _ hu))]
    congr 1
    funext k p
    rw [List.map_cons, List.sum_cons, h3]
    ring

/-- **C200** The time average of a series longer than the interval is the mean over the couples of images separated by the interval. -/
theorem C200_average (images : List (Img m n)) (dt navmax : Nat) (hn : 0 < navmax) (hdt : dt < images.length) :
    ∃ im, timeAveraged images dt navmax = .ok (some im) ∧ ∀ k l,
      im k l = ((couples (images.length - dt) navmax).map fun t =>
        spectreDiff (images.getD t fun _ _ => 0) (images.getD (t + dt) fun _ _ => 0) k l).sum /
          (couples (images.length - dt) navmax).length := by
  unfold timeAveraged
  rw [if_neg (by omega)]
  dsimp only
  have hne : couples (images.length - dt) navmax ≠ [] := by
    intro e
    have : (0 : Nat) ∈ couples (images.length - dt) navmax := (couples_mem _ _ _).2 ⟨by omega, dvd_zero _⟩
    rw [e] at this
    cases this
  rw [sum_couples images dt (fun t => spectreDiff (images.getD t fun _ _ => 0) (images.getD (t + dt) fun _ _ => 0))]
  · rw [ok_bind, if_neg hne]
    refine ⟨_, rfl, fun k l => ?_⟩
    dsimp only
    rw [zero_add]
  · intro t ht
    have h1 := ((couples_mem _ _ _).1 ht).1
    refine ⟨images[t], images[t + dt], List.getElem?_eq_getElem (by omega), List.getElem?_eq_getElem (by omega), ?_⟩
    rw [List.getD_eq_getElem?_getD, List.getD_eq_getElem?_getD, List.getElem?_eq_getElem (by omega),
      List.getElem?_eq_getElem (by omega)]
    rfl

/-! ### Intervals -/

theorem spaced_eq (L num i : Nat) (hL : 0 < L) :
    (2 : ℝ) ^ ((i : ℝ) * (Real.log L / Real.log 2) / num) = (L : ℝ) ^ ((i : ℝ) / num) := by
  have hl : (0 : ℝ) < L := by exact_mod_cast hL
  rw [Real.rpow_def_of_pos (by norm_num), Real.rpow_def_of_pos hl]
  congr 1
  have : Real.log 2 ≠ 0 := (Real.log_pos (by norm_num)).ne'
  field_simp

/-- **C200** The intervals of a series of at least two images: increasing, from 1, lower than the number of images; and
between an interval and the last one chosen before it there is a factor of the number of images to the power `1 / num`, up to the
rounding. -/
theorem C200_intervals {uniq : List Int → List Int} (hu : Micro.Uniques uniq) (L num : Nat) (hL : 2 ≤ L) (hnum : 0 < num) :
    ∃ dts, logSpaced uniq L num = .ok dts ∧ dts.Pairwise (· < ·) ∧ 1 ∈ dts ∧ (∀ d ∈ dts, 1 ≤ d ∧ d < L) ∧
      ∀ j : Nat, 1 ≤ j → j < L → ∃ d ∈ dts, d ≤ j ∧ (j : ℝ) < ((d : ℝ) + 1) * (L : ℝ) ^ ((1 : ℝ) / num) := by
  unfold logSpaced
  rw [if_neg (by omega)]
  have hl : (1 : ℝ) < L := by exact_mod_cast hL
  have hl0 : (0 : ℝ) < L := by linarith
  have hn : (0 : ℝ) < num := by exact_mod_cast hnum
  simp only [spaced_eq L num _ (by omega)]
  have hmem : ∀ d, d ∈ uniq ((List.range num).map fun (i : Nat) => ⌊(L : ℝ) ^ ((i : ℝ) / num)⌋) ↔
      ∃ i < num, ⌊(L : ℝ) ^ ((i : ℝ) / num)⌋ = d := by
    intro d
    rw [hu.mem, List.mem_map]
    simp only [List.mem_range]
  refine ⟨_, rfl, hu.lt _, (hmem 1).2 ⟨0, hnum, by simp⟩, ?_, ?_⟩
  · intro d hd
    obtain ⟨i, hi, rfl⟩ := (hmem d).1 hd
    have hi' : (i : ℝ) < num := by exact_mod_cast hi
    constructor
    · rw [Int.le_floor]
      push_cast
      exact Real.one_le_rpow hl.le (by positivity)
    · rw [Int.floor_lt]
      have : (L : ℝ) ^ ((i : ℝ) / num) < (L : ℝ) ^ (1 : ℝ) := Real.rpow_lt_rpow_of_exponent_lt hl ((div_lt_one hn).2 hi')
      rw [Real.rpow_one] at this
      exact_mod_cast this
  · intro j hj1 hj2
    have hj0 : (1 : ℝ) ≤ j := by exact_mod_cast hj1
    have hjL : (j : ℝ) < L := by exact_mod_cast hj2
    have hx0 : 0 ≤ num * (Real.log j / Real.log L) :=
      mul_nonneg hn.le (div_nonneg (Real.log_nonneg hj0) (Real.log_pos hl).le)
    have hx1 : num * (Real.log j / Real.log L) < num := by
      have : Real.log j / Real.log L < 1 := (div_lt_one (Real.log_pos hl)).2 (Real.log_lt_log (by linarith) hjL)
      nlinarith
    obtain ⟨i, hi⟩ : ∃ i, i = ⌊num * (Real.log j / Real.log L)⌋₊ := ⟨_, rfl⟩
    have f1 : (i : ℝ) ≤ num * (Real.log j / Real.log L) := hi ▸ Nat.floor_le hx0
    have f2 : num * (Real.log j / Real.log L) < i + 1 := hi ▸ Nat.lt_floor_add_one _
    have hi2 : i < num := by
      have : (i : ℝ) < num := lt_of_le_of_lt f1 hx1
      exact_mod_cast this
    have hpow : (L : ℝ) ^ (Real.log j / Real.log L) = j := by
      rw [Real.rpow_def_of_pos hl0, mul_div_cancel₀ _ (Real.log_pos hl).ne', Real.exp_log (by linarith)]
    have g1 : (L : ℝ) ^ ((i : ℝ) / num) ≤ j := by
      rw [← hpow]
      refine Real.rpow_le_rpow_of_exponent_le hl.le ?_
      rw [div_le_iff₀ hn, mul_comm]
      exact f1
    have g2 : (j : ℝ) < (L : ℝ) ^ ((i : ℝ) / num) * (L : ℝ) ^ ((1 : ℝ) / num) := by
      rw [← Real.rpow_add hl0, ← hpow, hpow]
      conv_lhs => rw [← hpow]
      refine Real.rpow_lt_rpow_of_exponent_lt hl ?_
      rw [← add_div, lt_div_iff₀ hn, mul_comm]
      exact f2
    refine ⟨_, (hmem _).2 ⟨i, hi2, rfl⟩, ?_, ?_⟩
    · have : (⌊(L : ℝ) ^ ((i : ℝ) / num)⌋ : ℝ) ≤ j := (Int.floor_le _).trans g1
      exact_mod_cast this
    · refine g2.trans_le (mul_le_mul_of_nonneg_right (Int.lt_floor_add_one _).le (by positivity))

/-- **C200** Counterexample: a single image.  The interval 1 is returned, though it is not smaller than the number of images, and the average
over no couple is not a number. -/
theorem C200_single_counterexample {uniq : List Int → List Int} (hu : Micro.Uniques uniq) (num navmax : Nat) (hnum : 0 < num)
    (hn : 0 < navmax) (im : Img m n) :
    (∃ dts, logSpaced uniq 1 num = .ok dts ∧ 1 ∈ dts) ∧ timeAveraged [im] 1 navmax = .ok none := by
  constructor
  · unfold logSpaced
    rw [if_neg (by omega)]
    refine ⟨_, rfl, ?_⟩
    rw [hu.mem, List.mem_map]
    exact ⟨0, List.mem_range.2 hnum, by simp⟩
  · unfold timeAveraged
    rw [if_neg (by omega)]
    have : couples ([im].length - 1) navmax = [] := by
      simp [couples]
    dsimp only
    rw [this]
    rfl

end Ddm
end Py
end Colloids
