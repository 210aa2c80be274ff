import Verif.Octave.SubLemmas
import Verif.Octave.Props
import Verif.Octave.Props3
import Mathlib.Tactic.Linarith
import Mathlib.Tactic.FieldSimp
import Mathlib.Tactic.LinearCombination

/-! # C69, C70: subpixel and subscale resolution -/

namespace Colloids
namespace Octave

variable {G : Type} [Field G] [LinearOrder G]

/-! ## C70: the Gaussian response -/

/-- **C70, images with as many rows as columns.** The response at a scale between two layers is
the convolution of the layer below by the square of the kernel, the pixels out of the image
counting as zero. -/
theorem C70_square_partial (o : Finder G) (k : Nat) (kernel : List G) (c0 c1 : Nat)
    (hk : k < o.nbLayers + 3) (hsq : o.width = o.height) :
    convolve2 o k kernel c0 c1 = .ok (∑ x ∈ Finset.range kernel.length,
      ∑ y ∈ Finset.range kernel.length,
        padded o k ((c1 : Int) + (kernel.length / 2 : Nat) - y)
          ((c0 : Int) + (kernel.length / 2 : Nat) - x) * kernel.getD y 0 * kernel.getD x 0) := by
  rw [convolve2_sum o k kernel c0 c1 hk (by intros; omega)]
  generalize kernel.length / 2 = h
  congr 1
  apply Finset.sum_congr rfl
  intro x hx
  have hx' := Finset.mem_range.1 hx
  rw [← Finset.sum_mul]
  congr 1
  by_cases hin : c0 + h + 1 - o.width ≤ x ∧ x < min kernel.length (c0 + h + 1)
  · rw [if_pos hin]
    apply Finset.sum_congr rfl
    intro y hy
    have hy' := Finset.mem_range.1 hy
    by_cases hin' : c1 + h + 1 - o.height ≤ y ∧ y < min kernel.length (c1 + h + 1)
    · rw [if_pos hin', padded, if_pos (by omega)]
      rw [show ((c1 : Int) + h - y).toNat = c1 + h - y from by omega,
        show ((c0 : Int) + h - x).toNat = c0 + h - x from by omega]
    · rw [if_neg hin', padded, if_neg (by omega), zero_mul]
  · rw [if_neg hin]
    symm
    apply Finset.sum_eq_zero
    intro y _
    rw [padded, if_neg (by omega), zero_mul]

example : (exSpot).width = (exSpot).height := by decide

/-- Where the kernel does not reach the borders, a layer that is constant under a kernel of sum 1
gives this constant. -/
theorem C70_constant (o : Finder G) (k : Nat) (kernel : List G) (c0 c1 : Nat) (a : G)
    (hk : k < o.nbLayers + 3) (hsq : o.width = o.height)
    (hsum : kernel.sum = 1)
    (ha : ∀ j i, c1 + kernel.length / 2 < j + kernel.length → j ≤ c1 + kernel.length / 2 →
      c0 + kernel.length / 2 < i + kernel.length → i ≤ c0 + kernel.length / 2 →
      o.layersG k j i = a)
    (h0 : kernel.length ≤ c0 + kernel.length / 2 + 1) (h0' : c0 + kernel.length / 2 < o.height)
    (h1 : kernel.length ≤ c1 + kernel.length / 2 + 1) (h1' : c1 + kernel.length / 2 < o.width) :
    convolve2 o k kernel c0 c1 = .ok a := by
  have hs : ∑ x ∈ Finset.range kernel.length, kernel.getD x 0 = 1 := by
    rw [← sum_map_range, ← hsum]
    congr 1
    apply List.ext_getElem?
    intro i
    by_cases h : i < kernel.length <;> simp [h, List.getD]
  rw [C70_square_partial o k kernel c0 c1 hk hsq]
  congr 1
  have : ∀ x ∈ Finset.range kernel.length, (∑ y ∈ Finset.range kernel.length,
      padded o k ((c1 : Int) + (kernel.length / 2 : Nat) - y)
        ((c0 : Int) + (kernel.length / 2 : Nat) - x) * kernel.getD y 0 * kernel.getD x 0) =
      a * kernel.getD x 0 := by
    intro x hx
    have hx' := Finset.mem_range.1 hx
    rw [← Finset.sum_mul]
    congr 1
    have : ∀ y ∈ Finset.range kernel.length, padded o k ((c1 : Int) + (kernel.length / 2 : Nat) - y)
        ((c0 : Int) + (kernel.length / 2 : Nat) - x) * kernel.getD y 0 = a * kernel.getD y 0 := by
      intro y hy
      have hy' := Finset.mem_range.1 hy
      generalize hh : kernel.length / 2 = h at *
      rw [padded, if_pos (by omega), ha _ _ (by omega) (by omega) (by omega) (by omega)]
    rw [Finset.sum_congr rfl this, ← Finset.mul_sum, hs, mul_one]
  rw [Finset.sum_congr rfl this, ← Finset.mul_sum, hs, mul_one]

/-- **C70 fails when there are more columns than rows**: the columns are clipped with the number
of rows, so that far enough on the right the response between two layers is zero whatever the
image. -/
theorem C70_wide_counterexample (o : Finder G) (k : Nat) (kernel : List G) (c0 c1 : Nat)
    (hk : k < o.nbLayers + 3) (hc : o.width + kernel.length ≤ c0 + kernel.length / 2 + 1) :
    convolve2 o k kernel c0 c1 = .ok 0 := by
  rw [convolve2_sum o k kernel c0 c1 hk (by intros; omega)]
  congr 1
  apply Finset.sum_eq_zero
  intro x _
  rw [if_neg (by omega), zero_mul]

example : 3 + [1 / 4, 1 / 2, (1 / 4 : ℚ)].length ≤ 5 + [1 / 4, 1 / 2, (1 / 4 : ℚ)].length / 2 + 1 := by
  simp

/-- The response: exact layers are read, others are interpolated by the kernel from the layer
just below, the last Gaussian layer serving for all the scales above it. -/
theorem C70_response [FloorSemiring G] (exact : G → Bool) (kernel : G → Nat → List G)
    (o : Finder G) (c0 c1 : Nat) (scale : G) (h0 : 0 ≤ scale) (hc0 : c0 < o.height)
    (hc1 : c1 < o.width) :
    ∃ k, k ≤ o.nbLayers + 2 ∧ ((k : G) ≤ scale ∧ (scale < k + 1 ∨ k = o.nbLayers + 2)) ∧
      gaussianResponse2 exact kernel o c0 c1 scale =
        if exact (scale - k) = true then .ok (o.layersG k c1 c0)
        else convolve2 o k (kernel scale k) c0 c1 := by
  refine ⟨min ⌊scale⌋₊ (o.nbLayers + 2), by omega, ⟨?_, ?_⟩, ?_⟩
  · exact (Nat.le_floor_iff h0).1 (by omega)
  · by_cases h : ⌊scale⌋₊ ≤ o.nbLayers + 2
    · left; rw [Nat.min_eq_left h]; exact Nat.lt_floor_add_one scale
    · right; omega
  · unfold gaussianResponse2
    rw [if_neg (not_lt.2 h0)]
    simp only []
    by_cases h : exact (scale - (min ⌊scale⌋₊ (o.nbLayers + 2) : Nat)) = true
    · rw [if_pos h, if_pos h]
      simp only [Finder.gauss]
      rw [if_pos ⟨by omega, hc1, hc0⟩]
    · rw [if_neg h, if_neg h]

/-- A negative scale is refused. -/
theorem C70_negative [FloorSemiring G] (exact : G → Bool) (kernel : G → Nat → List G)
    (o : Finder G) (c0 c1 : Nat) (scale : G) (h0 : scale < 0) :
    gaussianResponse2 exact kernel o c0 c1 scale = .error .invalidArgument := by
  unfold gaussianResponse2
  rw [if_pos h0]; rfl

/-! ## C69: positions in two dimensions -/

variable [IsStrictOrderedRing G]

theorem parabola_vertex (x : Nat) (a c x0 : G) (ha : a ≠ 0) :
    parabola x (a * (((x : G) - 1 / 2) - x0) ^ 2 + c) (a * (((x : G) + 1 / 2) - x0) ^ 2 + c)
      (a * (((x : G) + 3 / 2) - x0) ^ 2 + c) = x0 := by
  unfold parabola
  simp only []
  have e : a * (((x : G) + 3 / 2) - x0) ^ 2 + c - 2 * (a * (((x : G) + 1 / 2) - x0) ^ 2 + c) +
      (a * (((x : G) - 1 / 2) - x0) ^ 2 + c) = 2 * a := by ring
  rw [e, if_neg (mul_ne_zero two_ne_zero ha)]
  field_simp
  ring

/-- The vertex of a parabola through a strict maximum is less than half a pixel away. -/
theorem parabola_near (x : Nat) (b h a : G) (hb : b < h) (ha : a < h) :
    (x : G) < parabola x b h a ∧ parabola x b h a < x + 1 := by
  unfold parabola
  simp only []
  have hd : a - 2 * h + b < 0 := by linarith
  rw [if_neg hd.ne]
  have h1 : (a - b) / 2 / (a - 2 * h + b) < 1 / 2 := by
    rw [div_lt_iff_of_neg hd]; linarith
  have h2 : -(1 / 2) < (a - b) / 2 / (a - 2 * h + b) := by
    rw [lt_div_iff_of_neg hd]; linarith
  constructor <;> linarith

/-- The layer used to find the position. -/
def posLayer (k : Nat) : Nat := if 0 < k then k - 1 else k

omit [IsStrictOrderedRing G] in
theorem spatial_ok (o : Finder G) (i j k : Nat) (hk : k < o.nbLayers + 2) (hi : 1 ≤ i)
    (hi' : i + 1 < o.height) (hj : 1 ≤ j) (hj' : j + 1 < o.width) :
    spatialSubpix2 o (i, j, k) = .ok
      ((parabola i (o.layersG (posLayer k) j (i - 1)) (o.layersG (posLayer k) j i)
          (o.layersG (posLayer k) j (i + 1)),
        parabola j (o.layersG (posLayer k) (j - 1) i) (o.layersG (posLayer k) j i)
          (o.layersG (posLayer k) (j + 1) i)), o.layers k j i) := by
  unfold spatialSubpix2
  have hl : posLayer k < o.nbLayers + 3 := by unfold posLayer; split <;> omega
  simp only [Finder.gauss, Finder.layer]
  rw [show (if 0 < k then k - 1 else k) = posLayer k from rfl]
  rw [if_pos (⟨hl, by omega, by omega⟩ : posLayer k < o.nbLayers + 3 ∧ j < o.width ∧ i < o.height),
    if_pos (⟨hl, by omega, by omega⟩ : posLayer k < o.nbLayers + 3 ∧ j < o.width ∧ i + 1 < o.height),
    if_pos (⟨hl, by omega, by omega⟩ : posLayer k < o.nbLayers + 3 ∧ j < o.width ∧ i - 1 < o.height),
    if_pos (⟨hl, by omega, by omega⟩ : posLayer k < o.nbLayers + 3 ∧ j + 1 < o.width ∧ i < o.height),
    if_pos (⟨hl, by omega, by omega⟩ : posLayer k < o.nbLayers + 3 ∧ j - 1 < o.width ∧ i < o.height),
    if_pos (by omega)]
  rfl

/-- **C69, exactness in two dimensions.** When the Gaussian layer below the detected scale is a
parabola along the row and the column of the pixel, the position is the place of its extremum
(pixel `i` covering the coordinates from `i` to `i + 1`), for every curvature that is not null. -/
theorem C69_exact (o : Finder G) (i j k : Nat) (hk : 1 ≤ k) (hk' : k < o.nbLayers + 2)
    (hi : 1 ≤ i) (hi' : i + 1 < o.height) (hj : 1 ≤ j) (hj' : j + 1 < o.width)
    (a b c d x0 y0 : G) (ha : a ≠ 0) (hb : b ≠ 0)
    (hx : ∀ x, i ≤ x + 1 → x ≤ i + 1 → o.layersG (k - 1) j x = a * ((x : G) + 1 / 2 - x0) ^ 2 + c)
    (hy : ∀ y, j ≤ y + 1 → y ≤ j + 1 → o.layersG (k - 1) y i = b * ((y : G) + 1 / 2 - y0) ^ 2 + d) :
    spatialSubpix2 o (i, j, k) = .ok ((x0, y0), o.layers k j i) := by
  rw [spatial_ok o i j k hk' hi hi' hj hj', posLayer, if_pos (by omega)]
  have e1 : parabola i (o.layersG (k - 1) j (i - 1)) (o.layersG (k - 1) j i)
      (o.layersG (k - 1) j (i + 1)) = x0 := by
    rw [hx (i - 1) (by omega) (by omega), hx i (by omega) (by omega), hx (i + 1) (by omega) (by omega)]
    refine Eq.trans ?_ (parabola_vertex i a c x0 ha)
    push_cast [Nat.cast_sub hi]
    congr 1 <;> ring
  have e2 : parabola j (o.layersG (k - 1) (j - 1) i) (o.layersG (k - 1) j i)
      (o.layersG (k - 1) (j + 1) i) = y0 := by
    rw [hy (j - 1) (by omega) (by omega), hy j (by omega) (by omega), hy (j + 1) (by omega) (by omega)]
    refine Eq.trans ?_ (parabola_vertex j b d y0 hb)
    push_cast [Nat.cast_sub hj]
    congr 1 <;> ring
  rw [e1, e2]

/-- **C69, in two dimensions, when the pixel is a maximum of the Gaussian layer below**: the
position is inside the pixel. Missing for the full claim: the detected pixels are minima of the
difference of Gaussians, and nothing makes them maxima of a Gaussian layer. -/
theorem C69_inside_partial (o : Finder G) (i j k : Nat) (hk : 1 ≤ k) (hk' : k < o.nbLayers + 2)
    (hi : 1 ≤ i) (hi' : i + 1 < o.height) (hj : 1 ≤ j) (hj' : j + 1 < o.width)
    (h1 : o.layersG (k - 1) j (i - 1) < o.layersG (k - 1) j i)
    (h2 : o.layersG (k - 1) j (i + 1) < o.layersG (k - 1) j i)
    (h3 : o.layersG (k - 1) (j - 1) i < o.layersG (k - 1) j i)
    (h4 : o.layersG (k - 1) (j + 1) i < o.layersG (k - 1) j i) :
    ∃ x y, spatialSubpix2 o (i, j, k) = .ok ((x, y), o.layers k j i) ∧ (i : G) < x ∧ x < i + 1 ∧
      (j : G) < y ∧ y < j + 1 := by
  rw [spatial_ok o i j k hk' hi hi' hj hj', posLayer, if_pos (by omega)]
  exact ⟨_, _, rfl, (parabola_near i _ _ _ h1 h2).1, (parabola_near i _ _ _ h1 h2).2,
    (parabola_near j _ _ _ h3 h4).1, (parabola_near j _ _ _ h3 h4).2⟩

/-- A smooth spot whose top is at abscissa 47/10 and ordinate 22/5. -/
def exTop : Finder ℚ where
  nbLayers := 1
  width := 9
  height := 9
  sizes := [2, 2, 3, 4]
  layersG := fun _ j i => -((i : ℚ) + 1 / 2 - 47 / 10) ^ 2 - 2 * ((j : ℚ) + 1 / 2 - 22 / 5) ^ 2
  layers := fun _ _ _ => 0

example : (∀ x, 4 ≤ x + 1 → x ≤ 4 + 1 → exTop.layersG (1 - 1) 4 x =
      -1 * ((x : ℚ) + 1 / 2 - 47 / 10) ^ 2 + (-2 / 100)) ∧
    (∀ y, 4 ≤ y + 1 → y ≤ 4 + 1 → exTop.layersG (1 - 1) y 4 =
      -2 * ((y : ℚ) + 1 / 2 - 22 / 5) ^ 2 + (-4 / 100)) ∧
    exTop.layersG (1 - 1) 4 (4 - 1) < exTop.layersG (1 - 1) 4 4 ∧
    exTop.layersG (1 - 1) 4 (4 + 1) < exTop.layersG (1 - 1) 4 4 ∧
    exTop.layersG (1 - 1) (4 - 1) 4 < exTop.layersG (1 - 1) 4 4 ∧
    exTop.layersG (1 - 1) (4 + 1) 4 < exTop.layersG (1 - 1) 4 4 := by
  refine ⟨?_, ?_, by norm_num [exTop], by norm_num [exTop], by norm_num [exTop],
    by norm_num [exTop]⟩
  · intro x _ _; simp only [exTop]; push_cast; ring
  · intro y _ _; simp only [exTop]; push_cast; ring

/-- A bright slope with a spot in the difference of Gaussians. -/
def exSlope : Finder ℚ where
  nbLayers := 1
  width := 9
  height := 9
  sizes := [2, 2, 3, 4]
  layersG := fun k j i => (if i = 4 then 100 else if i = 5 then 201 else 0) +
    (if 2 ≤ k ∧ j = 4 ∧ i = 4 then -1 else 0)
  layers := fun k j i => if k = 1 ∧ j = 4 ∧ i = 4 then -1 else 0

/-- **C69 fails in two dimensions**: here the layers are the differences of the Gaussian layers,
exactly one center is detected, and its abscissa is found far out of the image (at -96, for an image
of 9 pixels), because the estimate of the shift is not bounded. (That the Gaussian layers are blurs
of one another is not asked for.) -/
theorem C69_unbounded_counterexample :
    (∀ k j i, exSlope.layers k j i = exSlope.layersG (k + 1) j i - exSlope.layersG k j i) ∧
    (initializeBinary2 (fun x => x != 0) (6 / 5) exSlope).map (·.centers) = .ok [(4, 4, 1)] ∧
    spatialSubpix2 exSlope (4, 4, 1) = .ok ((-96, 9 / 2), -1) := by
  refine ⟨?_, by decide +kernel, by decide +kernel⟩
  intro k j i
  simp only [exSlope]
  by_cases h : j = 4 ∧ i = 4
  · rcases Nat.lt_trichotomy k 1 with hk | rfl | hk
    · obtain rfl : k = 0 := by omega
      simp
    · simp [h]
    · have : 2 ≤ k := by omega
      have : 2 ≤ k + 1 := by omega
      have : k ≠ 1 := by omega
      simp [*]
  · simp [h]

/-! ## C69: scales in two dimensions -/

omit [IsStrictOrderedRing G] [LinearOrder G] in
theorem responses_ok (resp : G → R G) (g : G → G) (s : G)
    (h : ∀ u : Nat, u < 8 → resp (s - 1 + 1 / 2 * (u : G)) = .ok (g (s - 1 + 1 / 2 * (u : G)))) :
    ∃ a, responses resp s = .ok a ∧ ∀ u, u < 5 →
      a u = g (s - 1 + 1 / 2 * ((u + 2 : Nat) : G)) - g (s - 1 + 1 / 2 * (u : G)) := by
  refine ⟨fun u => (tab 8 (fun u => g (s - 1 + 1 / 2 * (u : G)))).getD (u + 2) 0 -
    (tab 8 (fun u => g (s - 1 + 1 / 2 * (u : G)))).getD u 0, ?_, ?_⟩
  · unfold responses
    rw [mapM_tab _ (fun u => g (s - 1 + 1 / 2 * (u : G))) 8 h]; rfl
  · intro u hu
    simp only [tab, List.getD, List.getElem?_map]
    rw [List.getElem?_range (by omega), List.getElem?_range (by omega)]
    rfl

/-- The saturated value is not a number or within half a layer. -/
theorem saturate_near (l : G) (s : Ext G) : s.saturate (l - 1 / 2) (l + 1 / 2) = .nan ∨
    ∃ x, s.saturate (l - 1 / 2) (l + 1 / 2) = .fin x ∧ |x - l| ≤ 1 / 2 := by
  cases s with
  | nan => left; rfl
  | neg => right; exact ⟨_, rfl, by rw [abs_le]; constructor <;> linarith⟩
  | pos => right; exact ⟨_, rfl, by rw [abs_le]; constructor <;> linarith⟩
  | fin x =>
    right
    refine ⟨_, rfl, ?_⟩
    have h1 : l - 1 / 2 ≤ max (l - 1 / 2) (min (l + 1 / 2) x) := le_max_left _ _
    have h2 : max (l - 1 / 2) (min (l + 1 / 2) x) ≤ l + 1 / 2 :=
      max_le (by linarith) (min_le_left _ _)
    rw [abs_le]; constructor <;> linarith

/-- **C69, scale in two dimensions.** For any response that is defined at all the scales that are
not negative, the estimate of the scale of a pixel of layer `l ≥ 1` never asks for a negative
scale, and the result is within half a layer of `l` unless it is not a number. -/
theorem C69_scale (resp : G → R G) (hresp : ∀ s, 0 ≤ s → ∃ g, resp s = .ok g) (l : Nat)
    (hl : 1 ≤ l) :
    ∃ r, scaleSubpix2 resp l = .ok r ∧ (r = .nan ∨ ∃ x, r = .fin x ∧ |x - l| ≤ 1 / 2) := by
  have hl' : (1 : G) ≤ l := by exact_mod_cast hl
  choose! g hg using hresp
  have hu : ∀ s : G, 1 ≤ s → ∀ u : Nat, u < 8 →
      resp (s - 1 + 1 / 2 * (u : G)) = .ok (g (s - 1 + 1 / 2 * (u : G))) := by
    intro s hs u _
    apply hg
    have : (0 : G) ≤ u := Nat.cast_nonneg u
    linarith
  obtain ⟨a, ha, -⟩ := responses_ok resp g l (hu _ hl')
  unfold scaleSubpix2
  rw [ha, ok_bind]
  simp only []
  have key : ∀ s' : R (Ext G), (∃ e, s' = .ok e) → ∃ r,
      (s' >>= fun s' => pure (s'.saturate ((l : G) - 1 / 2) ((l : G) + 1 / 2))) = (.ok r : R (Ext G)) ∧
      (r = .nan ∨ ∃ x, r = .fin x ∧ |x - l| ≤ 1 / 2) := by
    rintro s' ⟨e, rfl⟩
    exact ⟨_, rfl, saturate_near _ _⟩
  apply key
  split
  · rename_i x hx
    split
    · split
      · rename_i h1 h2
        have h3 : (2 : G) ≤ l := by
          have : 1 < l := by
            have : (1 : G) < l := by linarith
            exact_mod_cast this
          exact_mod_cast this
        obtain ⟨b, hb, -⟩ := responses_ok resp g ((l : G) - 1 / 2) (hu _ (by linarith))
        rw [hb, ok_bind]
        exact ⟨_, rfl⟩
      · exact ⟨_, rfl⟩
    · split
      · exact ⟨_, rfl⟩
      · exact ⟨_, rfl⟩
  · exact ⟨_, rfl⟩

omit [IsStrictOrderedRing G] in
/-- **C69: the scale can be not a number**, here where the response is the same at all scales. -/
theorem C69_scale_nan_counterexample (c : G) (l : Nat) :
    scaleSubpix2 (fun _ => .ok c) l = .ok .nan := by
  have hr : ∀ s : G, responses (fun _ => .ok c) s = .ok (fun u =>
      (tab 8 (fun _ => c)).getD (u + 2) 0 - (tab 8 (fun _ => c)).getD u 0) := by
    intro s
    unfold responses
    rw [mapM_tab _ (fun _ => c) 8 (fun _ _ => rfl)]; rfl
  unfold scaleSubpix2
  rw [hr, ok_bind]
  simp [tab, List.range_succ, Ext.div, Ext.subFrom, Ext.saturate, pure_eq_ok]

/-- **C69, exactness of the scale.** When the difference of the responses at `s + 1` and `s` is a
parabola in `s` with its extremum at most half a layer away from `l`, the scale found is the place
of this extremum. -/
theorem C69_scale_exact (resp : G → G) (l : Nat) (hl : 1 ≤ l) (A C s0 : G) (hA : A ≠ 0)
    (hs : |s0 - l| ≤ 1 / 2)
    (hD : ∀ s, 0 ≤ s → resp (s + 1) - resp s = A * (s - s0) ^ 2 + C) :
    scaleSubpix2 (fun s => .ok (resp s)) l = .ok (.fin s0) := by
  have hl' : (1 : G) ≤ l := by exact_mod_cast hl
  rw [abs_le] at hs
  have ha : ∀ s : G, 1 ≤ s → ∃ a, responses (fun s => .ok (resp s)) s = .ok a ∧
      ∀ u, u < 5 → a u = A * ((s - 1 + 1 / 2 * (u : G)) - s0) ^ 2 + C := by
    intro s h1
    obtain ⟨a, ha, hv⟩ := responses_ok (fun s => .ok (resp s)) resp s (fun _ _ => rfl)
    refine ⟨a, ha, ?_⟩
    intro u hu
    have h0 : (0 : G) ≤ u := Nat.cast_nonneg u
    rw [hv u hu, ← hD _ (by linarith)]
    congr 2
    push_cast; ring
  have newton : ∀ (s : G) (a : Nat → G), (∀ u, u < 5 → a u = A * ((s - 1 + 1 / 2 * (u : G)) - s0) ^ 2 + C) →
      (Ext.div ((-a 4 + 8 * a 3 - 8 * a 1 + a 0) / 6) (a 4 - 2 * a 2 + a 0)).subFrom s = .fin s0 ∧
      (Ext.div (a 3 - a 1) (a 4 - 2 * a 2 + a 0)).subFrom s = .fin s0 := by
    intro s a hv
    have hd : a 4 - 2 * a 2 + a 0 = 2 * A := by
      rw [hv 4 (by omega), hv 2 (by omega), hv 0 (by omega)]; push_cast; ring
    have hA2 : 2 * A ≠ 0 := mul_ne_zero two_ne_zero hA
    have hn : (-a 4 + 8 * a 3 - 8 * a 1 + a 0) / 6 = 2 * A * (s - s0) := by
      rw [hv 4 (by omega), hv 3 (by omega), hv 1 (by omega), hv 0 (by omega)]; push_cast; ring
    have hn' : a 3 - a 1 = 2 * A * (s - s0) := by
      rw [hv 3 (by omega), hv 1 (by omega)]; push_cast; ring
    rw [hd, hn, hn']
    simp only [Ext.div, if_neg hA2, Ext.subFrom]
    rw [mul_div_cancel_left₀ _ hA2]
    simp
  have sat : (Ext.fin s0).saturate ((l : G) - 1 / 2) (l + 1 / 2) = .fin s0 := by
    simp only [Ext.saturate]
    rw [min_eq_right (by linarith), max_eq_right (by linarith)]
  obtain ⟨a, ha1, hv⟩ := ha l hl'
  unfold scaleSubpix2
  rw [ha1, ok_bind]
  simp only []
  rw [(newton l a hv).1, (newton l a hv).2, sat]
  simp only []
  split
  · split
    · rename_i h1 h2
      have h3 : (2 : G) ≤ l := by
        have : 1 < l := by
          have : (1 : G) < l := by linarith
          exact_mod_cast this
        exact_mod_cast this
      obtain ⟨b, hb, hv'⟩ := ha ((l : G) - 1 / 2) (by linarith)
      rw [hb, ok_bind, (newton _ b hv').1]
      simp only [pure_eq_ok, ok_bind, sat]
    · simp only [pure_eq_ok, ok_bind, sat]
  · split
    · simp only [pure_eq_ok, ok_bind, sat]
    · simp only [pure_eq_ok, ok_bind, sat]

/-- A response whose differences are a parabola. -/
example : ∃ (resp : ℚ → ℚ) (A C s0 : ℚ), A ≠ 0 ∧ |s0 - (2 : Nat)| ≤ 1 / 2 ∧
    ∀ s, 0 ≤ s → resp (s + 1) - resp s = A * (s - s0) ^ 2 + C := by
  refine ⟨fun s => s ^ 3 - 15 / 2 * s ^ 2, 3, -37 / 2, 2, by norm_num, by norm_num, ?_⟩
  intro s _; ring

/-! ## C69: three dimensions -/

theorem saturate_bound (b num den x : G) (hb : 0 ≤ b) (h : saturate b num den = some x) :
    |x| ≤ b := by
  unfold saturate at h
  split at h
  · split at h
    · simp at h
    · split at h
      · simp only [Option.some.injEq] at h; subst x; rw [abs_of_nonneg hb]
      · simp only [Option.some.injEq] at h; subst x; rw [abs_neg, abs_of_nonneg hb]
  · simp only [Option.some.injEq] at h
    subst x
    rw [abs_le]
    exact ⟨le_max_left _ _, max_le (by linarith) (min_le_left _ _)⟩

theorem subpixel7_bound (a : Nat → G) (x : G) (h : subpixel7 a = some x) :
    |x - 7 / 16| ≤ 1 := by
  unfold subpixel7 at h
  rw [Option.map_eq_some_iff] at h
  obtain ⟨s, hs, rfl⟩ := h
  have := saturate_bound _ _ _ _ zero_le_one hs
  rw [abs_le] at *
  constructor <;> linarith

/-- **C69, in three dimensions** (under the hypotheses of C47): each center found has a position
within one pixel of its pixel, and a scale within half a layer of its layer; each coordinate and
the scale can be not a number. -/
theorem C69_three_dimensions (nz : G → Bool) (maxRatio : G) (o : Finder3 G)
    (hs : o.sizes.length = o.nbLayers + 3) (s1 : Nat) (hs1 : o.sizes[1]? = some s1) (h3 : 3 ≤ s1)
    (hd : s1 + 3 ≤ o.depth) :
    ∃ cs, initializeBinary3 nz maxRatio o = .ok cs ∧ ∀ x ∈ cs,
      (∀ p, x.pos.1 = some p → |p - (x.pixel.1 + 7 / 16)| ≤ 1) ∧
      (∀ p, x.pos.2.1 = some p → |p - (x.pixel.2.1 + 7 / 16)| ≤ 1) ∧
      (∀ p, x.pos.2.2 = some p → |p - (x.pixel.2.2.1 + 7 / 16)| ≤ 1) ∧
      (∀ r, x.r = some r → |r - x.pixel.2.2.2| ≤ 1 / 2) := by
  obtain ⟨cs, hcs, -, hall, -⟩ := C46_three_dimensions_partial nz maxRatio o hs s1 hs1 h3 hd
  refine ⟨cs, hcs, ?_⟩
  intro x hx
  obtain ⟨l, k, j, i, rfl, -⟩ := hall x hx
  have near : ∀ (n : Nat) (a : Nat → G) p, (subpixel7 a).map (fun x => (n : G) + x) = some p →
      |p - (n + 7 / 16)| ≤ 1 := by
    intro n a p hp
    rw [Option.map_eq_some_iff] at hp
    obtain ⟨y, hy, rfl⟩ := hp
    have := subpixel7_bound a y hy
    rwa [show (n : G) + y - (n + 7 / 16) = y - 7 / 16 by ring]
  refine ⟨near _ _, near _ _, near _ _, ?_⟩
  intro r hr
  simp only [centerOf] at hr
  rw [Option.map_eq_some_iff] at hr
  obtain ⟨y, hy, rfl⟩ := hr
  rw [show (l : G) + y - (centerOf o l k j i).pixel.2.2.2 = y by simp [centerOf]]
  unfold subscale at hy
  split at hy
  · simp at hy
  · simp only [Option.some.injEq] at hy
    subst y
    rw [abs_le]
    exact ⟨le_max_left _ _, max_le (by norm_num) (min_le_left _ _)⟩

/-- **C69, exactness in three dimensions.** On a parabola with its extremum at most one pixel away,
the seven point estimate finds the extremum, up to the fixed offset of 7/16 of a pixel (in two
dimensions the offset is 1/2). -/
theorem C69_exact_three (a : Nat → G) (A C x0 : G) (hA : A ≠ 0) (hx : |x0| ≤ 1)
    (ha : ∀ u, u < 7 → a u = A * ((u : G) - 3 - x0) ^ 2 + C) :
    subpixel7 a = some (x0 + 7 / 16) := by
  unfold subpixel7
  have hd : a 6 / 90 - 3 * a 5 / 20 + 3 / 2 * a 4 - 49 * a 3 / 18 + 3 / 2 * a 2 - 3 * a 1 / 20
      + a 0 / 90 = 2 * A := by
    rw [ha 6 (by omega), ha 5 (by omega), ha 4 (by omega), ha 3 (by omega), ha 2 (by omega),
      ha 1 (by omega), ha 0 (by omega)]; push_cast; ring
  have hn : (a 6 - 9 * a 5 + 45 * a 4 - 45 * a 2 + 9 * a 1 - a 0) / 60 = 2 * A * (-x0) := by
    rw [ha 6 (by omega), ha 5 (by omega), ha 4 (by omega), ha 2 (by omega), ha 1 (by omega),
      ha 0 (by omega)]; push_cast; ring
  have hA2 : 2 * A ≠ 0 := mul_ne_zero two_ne_zero hA
  rw [abs_le] at hx
  rw [hd, hn]
  simp only [saturate, if_neg hA2]
  rw [mul_div_cancel_left₀ _ hA2, min_eq_right (by linarith), max_eq_right (by linarith)]
  simp; ring

example : (-1 : ℚ) ≠ 0 ∧ |(1 / 3 : ℚ)| ≤ 1 ∧ ∀ u, u < 7 →
    (fun u : Nat => -((u : ℚ) - 10 / 3) ^ 2) u = -1 * ((u : ℚ) - 3 - 1 / 3) ^ 2 + 0 := by
  refine ⟨by norm_num, by norm_num [abs_le], ?_⟩
  intro u _; ring

end Octave
end Colloids
