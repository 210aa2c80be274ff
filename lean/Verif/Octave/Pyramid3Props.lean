import Verif.Octave.Pyramid3Model
import Verif.Octave.PyramidProps

/-! # Property C48: downscaling of volumes, upscaling of lines -/

namespace Colloids
namespace Octave

variable {G : Type} [Field G] [LinearOrder G]

/-- The mean of eight pixels. -/
def mean8 (a : Vol G) (k j i : Nat) : G :=
  (a.px (2 * k) (2 * j) (2 * i) + a.px (2 * k) (2 * j) (2 * i + 1) + a.px (2 * k) (2 * j + 1) (2 * i)
    + a.px (2 * k) (2 * j + 1) (2 * i + 1) + a.px (2 * k + 1) (2 * j) (2 * i) + a.px (2 * k + 1) (2 * j) (2 * i + 1)
    + a.px (2 * k + 1) (2 * j + 1) (2 * i) + a.px (2 * k + 1) (2 * j + 1) (2 * i + 1)) / 8

omit [LinearOrder G] in
theorem octant_ok (a : Vol G) (k j i : Nat) (hk : 2 * k + 1 < a.planes) (hj : 2 * j + 1 < a.rows)
    (hi : 2 * i + 1 < a.cols) : octant a k j i = .ok (mean8 a k j i) := by
  unfold octant Vol.get
  rw [if_pos (by omega), if_pos (by omega), if_pos (by omega), if_pos (by omega), if_pos (by omega), if_pos (by omega),
    if_pos (by omega), if_pos (by omega)]
  simp only [ok_bind, pure_eq_ok, mean8]
  congr 1
  ring

omit [LinearOrder G] in
/-- **C48, downscaling in three dimensions.** When the sizes are at most half of those of the previous octave, only
existing pixels are read and each pixel is the mean of eight pixels. -/
theorem C48_downscale_volume (a : Vol G) (planes rows cols : Nat) (hp : planes ≤ a.planes / 2) (hr : rows ≤ a.rows / 2)
    (hc : cols ≤ a.cols / 2) :
    ∃ roi, downscale3 a planes rows cols = .ok roi ∧ ∀ k j i, k < planes → j < rows → i < cols →
      roi k j i = (a.px (2 * k) (2 * j) (2 * i) + a.px (2 * k) (2 * j) (2 * i + 1) + a.px (2 * k) (2 * j + 1) (2 * i)
        + a.px (2 * k) (2 * j + 1) (2 * i + 1) + a.px (2 * k + 1) (2 * j) (2 * i) + a.px (2 * k + 1) (2 * j) (2 * i + 1)
        + a.px (2 * k + 1) (2 * j + 1) (2 * i) + a.px (2 * k + 1) (2 * j + 1) (2 * i + 1)) / 8 := by
  refine ⟨fun k j i => if k < planes ∧ j < rows ∧ i < cols then mean8 a k j i else 0, ?_, ?_⟩
  · unfold downscale3
    rw [takeWhile_range _ _ hr, takeWhile_range _ _ hc, takeWhile_range _ _ hp]
    have turn : ∀ k j i, k < planes → j < rows → i < cols → octant a k j i = .ok (mean8 a k j i) :=
      fun k j i hk hj hi => octant_ok a k j i (by omega) (by omega) (by omega)
    have line : ∀ (roi : Nat → Nat → Nat → G) k j, k < planes → j < rows →
        (List.range cols).foldlM (fun roi i => do
          let v ← octant a k j i
          pure (fun k' j' i' => if k' = k ∧ j' = j ∧ i' = i then v else roi k' j' i')) roi =
        (.ok (fun k' j' i' => if k' = k ∧ j' = j ∧ i' < cols then mean8 a k j i' else roi k' j' i') :
          R (Nat → Nat → Nat → G)) := by
      intro roi k j hk hj
      have := fold_closed (fun (roi : Nat → Nat → Nat → G) i => do
          let v ← octant a k j i
          pure (fun k' j' i' => if k' = k ∧ j' = j ∧ i' = i then v else roi k' j' i'))
        (fun n k' j' i' => if k' = k ∧ j' = j ∧ i' < n then mean8 a k j i' else roi k' j' i') cols (by
        intro i hi
        rw [turn k j i hk hj hi]
        simp only [ok_bind, pure_eq_ok]
        congr 1
        funext k' j' i'
        by_cases h : k' = k ∧ j' = j ∧ i' = i
        · rw [if_pos h, if_pos (by omega), h.2.2]
        · rw [if_neg h]
          by_cases h2 : k' = k ∧ j' = j ∧ i' < i
          · rw [if_pos h2, if_pos (by omega)]
          · rw [if_neg h2, if_neg (by omega)])
      refine Eq.trans ?_ this
      congr 1
      funext k' j' i'
      rw [if_neg (by omega)]
    have plane : ∀ (roi : Nat → Nat → Nat → G) k, k < planes →
        (List.range rows).foldlM (fun roi j => (List.range cols).foldlM (fun roi i => do
          let v ← octant a k j i
          pure (fun k' j' i' => if k' = k ∧ j' = j ∧ i' = i then v else roi k' j' i')) roi) roi =
        (.ok (fun k' j' i' => if k' = k ∧ j' < rows ∧ i' < cols then mean8 a k j' i' else roi k' j' i') :
          R (Nat → Nat → Nat → G)) := by
      intro roi k hk
      have := fold_closed (fun (roi : Nat → Nat → Nat → G) j => (List.range cols).foldlM (fun roi i => do
          let v ← octant a k j i
          pure (fun k' j' i' => if k' = k ∧ j' = j ∧ i' = i then v else roi k' j' i')) roi)
        (fun n k' j' i' => if k' = k ∧ j' < n ∧ i' < cols then mean8 a k j' i' else roi k' j' i') rows (by
        intro j hj
        refine (line _ k j hk hj).trans ?_
        congr 1
        funext k' j' i'
        by_cases h : k' = k ∧ j' = j ∧ i' < cols
        · rw [if_pos h, if_pos (by omega), h.2.1]
        · rw [if_neg h]
          by_cases h2 : k' = k ∧ j' < j ∧ i' < cols
          · rw [if_pos h2, if_pos (by omega)]
          · rw [if_neg h2, if_neg (by omega)])
      refine Eq.trans ?_ this
      congr 1
      funext k' j' i'
      rw [if_neg (by omega)]
    have := fold_closed (fun (roi : Nat → Nat → Nat → G) k =>
        (List.range rows).foldlM (fun roi j => (List.range cols).foldlM (fun roi i => do
          let v ← octant a k j i
          pure (fun k' j' i' => if k' = k ∧ j' = j ∧ i' = i then v else roi k' j' i')) roi) roi)
      (fun n k' j' i' => if k' < n ∧ j' < rows ∧ i' < cols then mean8 a k' j' i' else 0) planes (by
      intro k hk
      refine (plane _ k hk).trans ?_
      congr 1
      funext k' j' i'
      by_cases h : k' = k ∧ j' < rows ∧ i' < cols
      · rw [if_pos h, if_pos (by omega), h.1]
      · rw [if_neg h]
        by_cases h2 : k' < k ∧ j' < rows ∧ i' < cols
        · rw [if_pos h2, if_pos (by omega)]
        · rw [if_neg h2, if_neg (by omega)])
    refine Eq.trans ?_ this
    congr 1
  · intro k j i hk hj hi
    simp only [mean8]
    rw [if_pos ⟨hk, hj, hi⟩]

example : (10 : Nat) ≤ 21 / 2 ∧ 13 ≤ 27 / 2 ∧ 25 ≤ 50 / 2 := by decide

/-- Each volume is the downscaled version of the previous one. -/
def Downscaled3 (vol : Nat → Vol G) : Prop :=
  ∀ t, (vol (t + 1)).planes = (vol t).planes / 2 ∧ (vol (t + 1)).rows = (vol t).rows / 2 ∧
    (vol (t + 1)).cols = (vol t).cols / 2 ∧
    ∀ roi, downscale3 (vol t) (vol (t + 1)).planes (vol (t + 1)).rows (vol (t + 1)).cols = .ok roi →
      ∀ k j i, k < (vol (t + 1)).planes → j < (vol (t + 1)).rows → i < (vol (t + 1)).cols →
        roi k j i = (vol (t + 1)).px k j i

/-- **C48, the pixels of an octave in three dimensions.** After `t` downscalings, pixel `(k, j, i)` is the mean of the cube
of `2^t` pixels of side of the first volume that starts at `(k * 2^t, j * 2^t, i * 2^t)`. -/
theorem C48_block_mean_volume [IsStrictOrderedRing G] (vol : Nat → Vol G) (h : Downscaled3 vol) : ∀ (t k j i : Nat),
    k < (vol t).planes → j < (vol t).rows → i < (vol t).cols → (vol t).px k j i =
      (∑ dk ∈ Finset.range (2 ^ t), ∑ dj ∈ Finset.range (2 ^ t), ∑ di ∈ Finset.range (2 ^ t),
        (vol 0).px (k * 2 ^ t + dk) (j * 2 ^ t + dj) (i * 2 ^ t + di)) / 8 ^ t := by
  intro t
  induction t with
  | zero => intro k j i _ _ _; simp
  | succ t ih =>
    intro k j i hk hj hi
    obtain ⟨h1, h2, h2', h3⟩ := h t
    obtain ⟨roi, hroi, hv⟩ := C48_downscale_volume (vol t) _ _ _ (le_of_eq h1) (le_of_eq h2) (le_of_eq h2')
    have e := h3 roi hroi k j i hk hj hi
    rw [hv k j i hk hj hi] at e
    rw [← e, ih _ _ _ (by omega) (by omega) (by omega), ih _ _ _ (by omega) (by omega) (by omega),
      ih _ _ _ (by omega) (by omega) (by omega), ih _ _ _ (by omega) (by omega) (by omega),
      ih _ _ _ (by omega) (by omega) (by omega), ih _ _ _ (by omega) (by omega) (by omega),
      ih _ _ _ (by omega) (by omega) (by omega), ih _ _ _ (by omega) (by omega) (by omega)]
    have hp : (2 : Nat) ^ (t + 1) = 2 * 2 ^ t := by ring
    have h4 : (8 : G) ^ t ≠ 0 := by positivity
    rw [hp, sum_double]
    simp only [sum_double, Finset.sum_add_distrib]
    have e1 : ∀ x d : Nat, (2 * x + 1) * 2 ^ t + d = x * (2 * 2 ^ t) + (2 ^ t + d) := by
      intro x d; ring
    have e2 : ∀ x d : Nat, 2 * x * 2 ^ t + d = x * (2 * 2 ^ t) + d := by
      intro x d; ring
    simp only [e1, e2]
    rw [pow_succ]
    field_simp
    ring

example : Downscaled3 (fun t => (⟨20 / 2 ^ t, 20 / 2 ^ t, 20 / 2 ^ t, fun _ _ _ => 7⟩ : Vol ℚ)) := by
  intro t
  have e : 20 / 2 ^ (t + 1) = 20 / 2 ^ t / 2 := by simp [pow_succ, Nat.div_div_eq_div_mul]
  refine ⟨e, e, e, ?_⟩
  intro roi hroi k j i hk hj hi
  obtain ⟨roi', hroi', hv⟩ := C48_downscale_volume (⟨20 / 2 ^ t, 20 / 2 ^ t, 20 / 2 ^ t, fun _ _ _ => 7⟩ : Vol ℚ)
    (20 / 2 ^ (t + 1)) (20 / 2 ^ (t + 1)) (20 / 2 ^ (t + 1)) (le_of_eq e) (le_of_eq e) (le_of_eq e)
  rw [hroi'] at hroi
  obtain rfl : roi' = roi := by simpa using hroi
  rw [hv k j i hk hj hi]
  norm_num

omit [LinearOrder G] in
theorem upscale1_ok (row : Nat → G) (n : Nat) (hn : 0 < n) : ∃ m, upscale1 row n = .ok m ∧ m.size = 2 * n ∧
    (∀ i, i < n → m.val (2 * i) = row i) ∧ (∀ i, i + 1 < n → m.val (2 * i + 1) = 1 / 2 * (row i + row (i + 1))) ∧
    m.val (2 * n - 1) = 0 := by
  unfold upscale1
  rw [copyEven_ok _ _ _ _ (by simp), ok_bind, interpolateOdd_ok _ _ _ (le_refl 1) (by simp only []; omega)]
  refine ⟨_, rfl, rfl, ?_, ?_, ?_⟩
  · intro i hi
    simp only []
    rw [if_neg (by omega), if_pos (by omega)]
    congr 1; omega
  · intro i hi
    simp only []
    rw [if_pos (by omega), if_pos (by omega), if_pos (by omega)]
    rw [show (2 * i + 1 - 1 - 0) / 2 = i by omega, show (2 * i + 1 + 1 - 0) / 2 = i + 1 by omega]
  · simp only []
    rw [if_neg (by omega), if_neg (by omega)]

/-- **C48, upscaling in one dimension, but for the last pixel**: linear interpolation at half pixels. -/
theorem C48_upscale_line_partial [IsStrictOrderedRing G] (row : Nat → G) (n : Nat) (hn : 0 < n) :
    ∃ m, upscale1 row n = .ok m ∧ m.size = 2 * n ∧
      ∀ c, c + 1 < 2 * n → m.val c = (row (c / 2) + row ((c + 1) / 2)) / 2 := by
  obtain ⟨m, h1, h2, h3, h4, -⟩ := upscale1_ok row n hn
  refine ⟨m, h1, h2, ?_⟩
  intro c hc
  rcases Nat.even_or_odd' c with ⟨i, rfl | rfl⟩
  · rw [h3 i (by omega), show 2 * i / 2 = i by omega, show (2 * i + 1) / 2 = i by omega]; ring
  · rw [h4 i (by omega), show (2 * i + 1) / 2 = i by omega, show (2 * i + 1 + 1) / 2 = i + 1 by omega]; ring

omit [LinearOrder G] in
/-- **C48 fails on the last pixel of the upscaled line**, which stays black whatever the input. -/
theorem C48_line_end_counterexample (row : Nat → G) (n : Nat) (hn : 0 < n) (m : Mem G) (hm : upscale1 row n = .ok m) :
    m.val (2 * n - 1) = 0 := by
  obtain ⟨m', h1, -, -, -, h5⟩ := upscale1_ok row n hn
  rw [h1] at hm
  obtain rfl : m' = m := by simpa using hm
  exact h5

example : ∃ m, upscale1 (fun _ => (7 : ℚ)) 12 = .ok m ∧ m.size = 24 := by
  obtain ⟨m, h1, h2, -⟩ := upscale1_ok (fun _ => (7 : ℚ)) 12 (by decide)
  exact ⟨m, h1, h2⟩

end Octave
end Colloids
