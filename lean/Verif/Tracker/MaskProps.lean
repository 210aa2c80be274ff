import Verif.Tracker.MaskModel
import Mathlib.Tactic.Ring
import Mathlib.Tactic.Linarith
import Mathlib.Tactic.FieldSimp
import Mathlib.Tactic.NormNum
import Mathlib.Tactic.Positivity

/-! # C96 : which waves go through the filter -/

namespace Colloids
namespace Tracker

/-- The number of periods of the wave `i` in `n` pixels: indices above `n / 2` are negative frequencies. -/
def periods (n i : Nat) : Nat := if 2 * i ≤ n then i else n - i

/-- The wave of index `(i, j, k)` is longer than twice the radii: for equal radii, `|wave vector| ≤ 1 / 2r`
in periods per pixel. -/
def Long (D : Dims) (r : Radii) (i j k : Nat) : Prop :=
  (2 * r.r0 * (periods D.n0 i : ℝ) / D.n0) ^ 2 + (2 * r.r1 * (periods D.n1 j : ℝ) / D.n1) ^ 2 +
    (2 * r.r2 * (k : ℝ) / D.n2) ^ 2 ≤ 1

/-- Radii are positive. -/
def Radii.Pos (r : Radii) : Prop := 0 < r.r0 ∧ 0 < r.r1 ∧ 0 < r.r2

/-- `r` is smaller than `s` in all the dimensions. -/
def Radii.Lt (r s : Radii) : Prop := r.r0 < s.r0 ∧ r.r1 < s.r1 ∧ r.r2 < s.r2

/-- No dimension is null. -/
def Dims.Pos (D : Dims) : Prop := 0 < D.n0 ∧ 0 < D.n1 ∧ 0 < D.n2

theorem div_freq (n i : Nat) (r : ℝ) : (i : ℝ) / freq n r = 2 * r * i / n := by
  unfold freq
  rw [div_div, div_div_eq_mul_div]
  congr 1
  ring

theorem freq_pos {n : Nat} {r : ℝ} (hn : 0 < n) (hr : 0 < r) : 0 < freq n r := by
  unfold freq
  have : (0 : ℝ) < n := by exact_mod_cast hn
  positivity

/-- The points under the limit are those of the ellipse. -/
theorem lt_limit {n size k : Nat} {a b r : ℝ} (hn : 0 < n) (hr : 0 < r) (hk : k < size) (ha : 0 ≤ a) (hb : 0 ≤ b) :
    k < limit size 0 a b (freq n r) ↔ a + b + (2 * r * k / n) ^ 2 ≤ 1 := by
  have hf := freq_pos hn hr
  unfold limit
  rw [lt_min_iff]
  by_cases h : a + b > 1
  · rw [if_pos h]
    constructor
    · intro h'
      exact absurd h'.2 (Nat.not_lt_zero k)
    · intro h'
      have := sq_nonneg (2 * r * k / n)
      linarith
  · rw [if_neg h]
    have hs : 0 ≤ 1 - a - b := by linarith
    have hq := mul_nonneg hf.le (Real.sqrt_nonneg (1 - a - b))
    rw [← div_freq]
    constructor
    · intro h'
      have h2 : (k + 1 : ℕ) ≤ ⌊1 + freq n r * Real.sqrt (1 - a - b)⌋₊ := h'.2
      rw [Nat.le_floor_iff (by linarith)] at h2
      push_cast at h2
      have h3 : (k : ℝ) / freq n r ≤ Real.sqrt (1 - a - b) := by
        rw [div_le_iff₀ hf]
        linarith
      have h4 := (Real.le_sqrt (x := (k : ℝ) / freq n r) (by positivity) hs).1 h3
      linarith
    · intro h'
      refine ⟨hk, ?_⟩
      show (k + 1 : ℕ) ≤ _
      rw [Nat.le_floor_iff (by linarith)]
      push_cast
      have h4 : ((k : ℝ) / freq n r) ^ 2 ≤ 1 - a - b := by linarith
      have h3 : (k : ℝ) / freq n r ≤ Real.sqrt (1 - a - b) := Real.le_sqrt_of_sq_le h4
      rw [div_le_iff₀ hf] at h3
      linarith

theorem limit_default {size d : Nat} {a b f : ℝ} (h : ¬ a + b > 1) : limit size d a b f = limit size 0 a b f := by
  unfold limit
  rw [if_neg h, if_neg h]

/-- In the first octant `periods` is the index. -/
theorem periods_half {n i : Nat} (h : i < n / 2 + 1) : periods n i = i := by
  unfold periods
  rw [if_pos (by omega)]

theorem drawLow_iff (D : Dims) (hD : D.Pos) (r : Radii) (hr : r.Pos) (m : Mask) (i j k : Nat) (hi : i < D.n0 / 2 + 1)
    (hj : j < D.n1 / 2 + 1) (hk : k < D.half) : drawLow D r m i j k = true ↔ Long D r i j k := by
  unfold drawLow Long
  rw [if_pos ⟨hi, hj, hk⟩, decide_eq_true_iff, lt_limit hD.2.2 hr.2.2 hk (sq_nonneg _) (sq_nonneg _), div_freq,
    div_freq, periods_half hi, periods_half hj]

theorem sq_le_of {r s x : ℝ} (hr : 0 < r) (h : r < s) (hx : 0 ≤ x) : (2 * r * x) ^ 2 ≤ (2 * s * x) ^ 2 := by
  have h1 : 2 * r * x ≤ 2 * s * x := mul_le_mul_of_nonneg_right (by linarith) hx
  have h2 : 0 ≤ 2 * r * x := by positivity
  exact pow_le_pow_left₀ h2 h1 2

theorem drawBand_iff (D : Dims) (hD : D.Pos) (rmin rmax : Radii) (hr : rmin.Pos) (hlt : rmin.Lt rmax) (m : Mask)
    (i j k : Nat) (hi : i < D.n0 / 2 + 1) (hj : j < D.n1 / 2 + 1) (hk : k < D.half) :
    drawBand D rmin rmax m i j k = true ↔ Long D rmin i j k ∧ ¬ Long D rmax i j k := by
  have hR : rmax.Pos := ⟨hr.1.trans hlt.1, hr.2.1.trans hlt.2.1, hr.2.2.trans hlt.2.2⟩
  have hmin := lt_limit (n := D.n2) (size := D.half) (k := k) (r := rmax.r2)
    (a := ((i : ℝ) / freq D.n0 rmax.r0) ^ 2) (b := ((j : ℝ) / freq D.n1 rmax.r1) ^ 2) hD.2.2 hR.2.2 hk (sq_nonneg _)
    (sq_nonneg _)
  have hmax := lt_limit (n := D.n2) (size := D.half) (k := k) (r := rmin.r2)
    (a := ((i : ℝ) / freq D.n0 rmin.r0) ^ 2) (b := ((j : ℝ) / freq D.n1 rmin.r1) ^ 2) hD.2.2 hr.2.2 hk (sq_nonneg _)
    (sq_nonneg _)
  unfold drawBand Long
  rw [if_pos ⟨hi, hj, hk⟩]
  simp only
  rw [decide_eq_true_iff, periods_half hi, periods_half hj]
  rw [div_freq, div_freq] at hmin hmax
  by_cases hbig : ((i : ℝ) / freq D.n0 rmin.r0) ^ 2 + ((j : ℝ) / freq D.n1 rmin.r1) ^ 2 > 1
  · rw [div_freq, div_freq] at hbig
    rw [div_freq, div_freq, div_freq, div_freq]
    constructor
    · intro ⟨h1, h2⟩
      exfalso
      have : limit D.half
          (limit D.half 0 ((2 * rmax.r0 * (i : ℝ) / D.n0) ^ 2) ((2 * rmax.r1 * (j : ℝ) / D.n1) ^ 2) (freq D.n2 rmax.r2))
          ((2 * rmin.r0 * (i : ℝ) / D.n0) ^ 2) ((2 * rmin.r1 * (j : ℝ) / D.n1) ^ 2) (freq D.n2 rmin.r2) ≤
          limit D.half 0 ((2 * rmax.r0 * (i : ℝ) / D.n0) ^ 2) ((2 * rmax.r1 * (j : ℝ) / D.n1) ^ 2)
            (freq D.n2 rmax.r2) := by
        conv_lhs => unfold limit
        rw [if_pos hbig]
        exact Nat.min_le_right _ _
      omega
    · intro ⟨h1, _⟩
      exfalso
      have := sq_nonneg (2 * rmin.r2 * (k : ℝ) / D.n2)
      linarith
  · rw [limit_default hbig, ← not_lt]
    rw [div_freq, div_freq, div_freq, div_freq, hmin, hmax]
    exact and_comm

/-- What the mirror reads when the dimension is 1, 2 or even. -/
theorem mirrorIdx_even {n i : Nat} (hn : n = 1 ∨ n % 2 = 0) (hi : i < n) :
    mirrorIdx n i = periods n i ∧ mirrorIdx n i < n / 2 + 1 := by
  unfold mirrorIdx periods
  split <;> split <;> omega

theorem mirrorIdx_first {n i : Nat} (hi : i < n / 2 + 1) : mirrorIdx n i = i := by
  unfold mirrorIdx
  split
  · omega
  · rfl

theorem periods_periods {n i : Nat} (hi : i < n) : periods n (periods n i) = periods n i := by
  unfold periods
  by_cases h : 2 * i ≤ n
  · rw [if_pos h, if_pos h]
  · rw [if_neg h, if_pos (by omega)]

theorem mirrorMask_even (D : Dims) (m : Mask) (h0 : D.n0 = 1 ∨ D.n0 % 2 = 0) (h1 : D.n1 = 1 ∨ D.n1 % 2 = 0)
    (i j k : Nat) (hi : i < D.n0) (hj : j < D.n1) :
    mirrorMask D m i j k = m (periods D.n0 i) (periods D.n1 j) k ∧ periods D.n0 i < D.n0 / 2 + 1 ∧
      periods D.n1 j < D.n1 / 2 + 1 := by
  obtain ⟨e0, l0⟩ := mirrorIdx_even h0 hi
  obtain ⟨e1, l1⟩ := mirrorIdx_even h1 hj
  unfold mirrorMask
  simp only
  rw [if_pos l1, e0, e1]
  exact ⟨rfl, by omega, by omega⟩

/-- If the two first dimensions are even (or 1), the low pass filter keeps exactly the waves that are long.
For odd dimensions this is false: see `C96_odd_counterexample`. -/
theorem C96_low_partial (D : Dims) (hD : D.Pos) (h0 : D.n0 = 1 ∨ D.n0 % 2 = 0) (h1 : D.n1 = 1 ∨ D.n1 % 2 = 0)
    (r : Radii) (hr : r.Pos) (m : Mask) (i j k : Nat) (hi : i < D.n0) (hj : j < D.n1) (hk : k ≤ D.n2 / 2) :
    makeLowPassMask D r m i j k = true ↔ Long D r i j k := by
  obtain ⟨e, l0, l1⟩ := mirrorMask_even D (drawLow D r m) h0 h1 i j k hi hj
  unfold makeLowPassMask
  rw [e, drawLow_iff D hD r hr m _ _ k l0 l1 (by unfold Dims.half; omega)]
  unfold Long
  rw [periods_periods hi, periods_periods hj]

/-- If the two first dimensions are even (or 1), the band pass filter keeps exactly the waves longer than
twice the small radii and not longer than twice the large ones. -/
theorem C96_band_partial (D : Dims) (hD : D.Pos) (h0 : D.n0 = 1 ∨ D.n0 % 2 = 0) (h1 : D.n1 = 1 ∨ D.n1 % 2 = 0)
    (rmin rmax : Radii) (hr : rmin.Pos) (hlt : rmin.Lt rmax) (m : Mask) :
    ∃ m', makeBandPassMask D rmin rmax m = .ok m' ∧ ∀ i j k, i < D.n0 → j < D.n1 → k ≤ D.n2 / 2 →
      (m' i j k = true ↔ Long D rmin i j k ∧ ¬ Long D rmax i j k) := by
  refine ⟨_, if_pos hlt, ?_⟩
  intro i j k hi hj hk
  obtain ⟨e, l0, l1⟩ := mirrorMask_even D (drawBand D rmin rmax m) h0 h1 i j k hi hj
  rw [e, drawBand_iff D hD rmin rmax hr hlt m _ _ k l0 l1 (by unfold Dims.half; omega)]
  unfold Long
  rw [periods_periods hi, periods_periods hj]

/-- For all the dimensions, the first octant of the masks is right. -/
theorem C96_octant (D : Dims) (hD : D.Pos) (rmin rmax : Radii) (hr : rmin.Pos) (hlt : rmin.Lt rmax) (m : Mask) :
    ∃ m', makeBandPassMask D rmin rmax m = .ok m' ∧ ∀ i j k, i ≤ D.n0 / 2 → j ≤ D.n1 / 2 → k ≤ D.n2 / 2 →
      (m' i j k = true ↔ Long D rmin i j k ∧ ¬ Long D rmax i j k) ∧
      (makeLowPassMask D rmin m i j k = true ↔ Long D rmin i j k) := by
  refine ⟨_, if_pos hlt, ?_⟩
  intro i j k hi hj hk
  have hi' : i < D.n0 / 2 + 1 := by omega
  have hj' : j < D.n1 / 2 + 1 := by omega
  have hk' : k < D.half := by unfold Dims.half; omega
  constructor
  · rw [← drawBand_iff D hD rmin rmax hr hlt m i j k hi' hj' hk']
    unfold mirrorMask
    simp only
    rw [mirrorIdx_first hj', if_pos hj', mirrorIdx_first hi']
  · rw [← drawLow_iff D hD rmin hr m i j k hi' hj' hk']
    unfold makeLowPassMask mirrorMask
    simp only
    rw [mirrorIdx_first hj', if_pos hj', mirrorIdx_first hi']

/-- The band pass filter removes the mean of the image and the low pass filter keeps it. -/
theorem C96_mean_removed (D : Dims) (hD : D.Pos) (rmin rmax : Radii) (hr : rmin.Pos) (hlt : rmin.Lt rmax) (m : Mask) :
    ∃ m', makeBandPassMask D rmin rmax m = .ok m' ∧ m' 0 0 0 = false ∧ makeLowPassMask D rmin m 0 0 0 = true := by
  obtain ⟨m', h1, h2⟩ := C96_octant D hD rmin rmax hr hlt m
  have h3 := h2 0 0 0 (Nat.zero_le _) (Nat.zero_le _) (Nat.zero_le _)
  have hl : ∀ r : Radii, Long D r 0 0 0 := by
    intro r
    simp [Long, periods]
  refine ⟨m', h1, ?_, h3.2.2 (hl _)⟩
  rw [← Bool.not_eq_true, h3.1]
  exact fun h => h.2 (hl _)

/-- Radii that are not in order in one of the dimensions are refused. -/
theorem C96_refused (D : Dims) (rmin rmax : Radii) (m : Mask) :
    makeBandPassMask D rmin rmax m = .error .invalidArgument ↔
      rmax.r0 ≤ rmin.r0 ∨ rmax.r1 ≤ rmin.r1 ∨ rmax.r2 ≤ rmin.r2 := by
  unfold makeBandPassMask
  constructor
  · intro h
    by_contra hc
    push Not at hc
    rw [if_pos ⟨hc.1, hc.2.1, hc.2.2⟩] at h
    exact absurd h (by simp)
  · intro h
    rw [if_neg]
    intro hc
    rcases h with h | h | h
    · exact absurd hc.1 (not_lt.2 h)
    · exact absurd hc.2.1 (not_lt.2 h)
    · exact absurd hc.2.2 (not_lt.2 h)

/-- If the first dimension is odd and at least 5, the last index, which is frequency -1, gets what belongs
to frequency 0. So there is no odd dimension for which the low pass filter is right with all the radii:
a radius above half the dimension lets frequency -1 through although 1 is stopped. -/
theorem C96_odd_counterexample (D : Dims) (hD : D.Pos) (h0 : D.n0 % 2 = 1) (h5 : 5 ≤ D.n0) (r : Radii) (hr : r.Pos)
    (m : Mask) :
    (∀ j k, j ≤ D.n1 / 2 → makeLowPassMask D r m (D.n0 - 1) j k = makeLowPassMask D r m 0 j k) ∧
    ((D.n0 : ℝ) < 2 * r.r0 →
      makeLowPassMask D r m (D.n0 - 1) 0 0 = true ∧ makeLowPassMask D r m 1 0 0 = false ∧
      ¬ Long D r (D.n0 - 1) 0 0) := by
  have key : ∀ j k, j ≤ D.n1 / 2 → makeLowPassMask D r m (D.n0 - 1) j k = makeLowPassMask D r m 0 j k := by
    intro j k hj
    have hj' : j < D.n1 / 2 + 1 := by omega
    have e1 : mirrorIdx D.n0 (D.n0 - 1) = 0 := by
      unfold mirrorIdx
      rw [if_pos (by omega)]
      omega
    have e2 : mirrorIdx D.n0 0 = 0 := mirrorIdx_first (by omega)
    unfold makeLowPassMask mirrorMask
    simp only
    rw [mirrorIdx_first hj', if_pos hj', if_pos hj', e1, e2]
  refine ⟨key, ?_⟩
  intro hbig
  have hn : (0 : ℝ) < D.n0 := by exact_mod_cast hD.1
  have hone : ∀ i, periods D.n0 i = 1 → ¬ Long D r i 0 0 := by
    intro i hi h
    unfold Long at h
    rw [hi] at h
    have h1 : 1 < 2 * r.r0 * ((1 : ℕ) : ℝ) / D.n0 := by
      rw [lt_div_iff₀ hn]
      push_cast
      linarith
    have h2 : (1 : ℝ) < (2 * r.r0 * ((1 : ℕ) : ℝ) / D.n0) ^ 2 := by nlinarith
    have h3 := sq_nonneg (2 * r.r1 * ((periods D.n1 0 : ℕ) : ℝ) / D.n1)
    have h4 := sq_nonneg (2 * r.r2 * ((0 : ℕ) : ℝ) / D.n2)
    linarith
  let R : Radii := ⟨r.r0 + 1, r.r1 + 1, r.r2 + 1⟩
  obtain ⟨m', -, h3⟩ := C96_octant D hD r R hr ⟨by show r.r0 < r.r0 + 1; linarith, by show r.r1 < r.r1 + 1; linarith, by show r.r2 < r.r2 + 1; linarith⟩ m
  refine ⟨?_, ?_, ?_⟩
  · rw [key 0 0 (Nat.zero_le _), (h3 0 0 0 (Nat.zero_le _) (Nat.zero_le _) (Nat.zero_le _)).2]
    simp [Long, periods]
  · rw [← Bool.not_eq_true, (h3 1 0 0 (by omega) (Nat.zero_le _) (Nat.zero_le _)).2]
    refine hone 1 ?_
    unfold periods
    rw [if_pos (by omega)]
  · refine hone _ ?_
    unfold periods
    rw [if_neg (by omega)]
    omega

/-- If the first dimension is 3, the last index is never written: it keeps what it was before. -/
theorem C96_three_counterexample (D : Dims) (h0 : D.n0 = 3) (r : Radii) (m : Mask) (j k : Nat) (hj : j ≤ D.n1 / 2) :
    makeLowPassMask D r m 2 j k = m 2 j k := by
  have hj' : j < D.n1 / 2 + 1 := by omega
  unfold makeLowPassMask mirrorMask drawLow
  simp only
  rw [mirrorIdx_first hj', if_pos hj', if_neg]
  · unfold mirrorIdx
    rw [h0]
    simp
  · unfold mirrorIdx
    rw [h0]
    simp

/-- An image of 16 × 32 × 33 pixels, radii of 2 and 4 pixels. -/
example : ∃ m', makeBandPassMask ⟨16, 32, 33⟩ ⟨2, 2, 2⟩ ⟨4, 4, 4⟩ (fun _ _ _ => false) = .ok m' ∧
    m' 13 0 0 = true ∧ m' 14 0 0 = false := by
  obtain ⟨m', h1, h2⟩ := C96_band_partial ⟨16, 32, 33⟩ (by refine ⟨?_, ?_, ?_⟩ <;> decide) (Or.inr rfl) (Or.inr rfl)
    ⟨2, 2, 2⟩ ⟨4, 4, 4⟩ (by refine ⟨?_, ?_, ?_⟩ <;> norm_num) (by refine ⟨?_, ?_, ?_⟩ <;> norm_num) (fun _ _ _ => false)
  refine ⟨m', h1, (h2 13 0 0 (by decide) (by decide) (by decide)).2 ?_, ?_⟩
  · constructor <;> norm_num [Long, periods]
  · rw [← Bool.not_eq_true, h2 14 0 0 (by decide) (by decide) (by decide)]
    norm_num [Long, periods]

example : Dims.Pos ⟨5, 8, 8⟩ ∧ Radii.Pos ⟨4, 1, 1⟩ ∧ ((5 : ℕ) : ℝ) < 2 * (4 : ℝ) := by
  refine ⟨by refine ⟨?_, ?_, ?_⟩ <;> decide, ⟨?_, ?_, ?_⟩, ?_⟩ <;> norm_num

end Tracker
end Colloids
