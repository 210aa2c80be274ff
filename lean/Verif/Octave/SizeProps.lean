import Verif.Octave.PyramidProps
import Mathlib.Analysis.SpecialFunctions.Pow.Real

/-! # C71, C72, C73 and the end of C48: from the octaves to the input -/

namespace Colloids
namespace Octave

variable {G : Type} [Field G] [LinearOrder G]

/-! ## C48: coordinates -/

omit [LinearOrder G] in
theorem subpixAll_flatMap (octave0 : Bool) (n : Nat) (found : Nat → List (Spot G))
    (seam : Nat → Spot G → Spot G) (scale : Spot G → Spot G) :
    subpixAll octave0 n found seam scale =
      (List.range' (if octave0 then 0 else 1) (n - (if octave0 then 0 else 1))).flatMap (fun o =>
        (if (if octave0 then 0 else 1) < o then (found o).map (seam (o - 1)) else found o).map
          (fun c => { pos := (scale c).pos.map (fun x => x * (2 : G) ^ ((o : Int) - 1))
                      r := (scale c).r * (2 : G) ^ ((o : Int) - 1) })) := by
  unfold subpixAll
  simp only []
  generalize List.range' _ _ = l
  have : ∀ acc : List (Spot G), l.foldl (fun centers o => centers ++
      (if (if octave0 then 0 else 1) < o then (found o).map (seam (o - 1)) else found o).map
          (fun c => { pos := (scale c).pos.map (fun x => x * (2 : G) ^ ((o : Int) - 1))
                      r := (scale c).r * (2 : G) ^ ((o : Int) - 1) })) acc = acc ++ l.flatMap (fun o =>
        (if (if octave0 then 0 else 1) < o then (found o).map (seam (o - 1)) else found o).map
          (fun c => { pos := (scale c).pos.map (fun x => x * (2 : G) ^ ((o : Int) - 1))
                      r := (scale c).r * (2 : G) ^ ((o : Int) - 1) })) := by
    induction l with
    | nil => intro acc; simp
    | cons a l ih => intro acc; rw [List.foldl_cons, ih, List.flatMap_cons, List.append_assoc]
  have h := this []
  rw [List.nil_append] at h
  exact h

omit [LinearOrder G] in
/-- **C48, number of centers.** Each center of each octave that is used gives one center. -/
theorem C48_count (octave0 : Bool) (n : Nat) (found : Nat → List (Spot G))
    (seam : Nat → Spot G → Spot G) (scale : Spot G → Spot G) :
    (subpixAll octave0 n found seam scale).length =
      ((List.range' (if octave0 then 0 else 1) (n - (if octave0 then 0 else 1))).map
        (fun o => (found o).length)).sum := by
  rw [subpixAll_flatMap, List.length_flatMap]
  congr 1
  apply List.map_congr_left
  intro o _
  generalize (if octave0 then 0 else 1) = o0
  by_cases h : o0 < o <;> simp [h]

/-- **C48, coordinates.** If the seam and the scale leave the coordinates alone, every center
comes from a center of an octave `o` that is used; and a coordinate inside pixel `i` of octave
`o ≥ 1` becomes a coordinate inside the block of input pixels that `C48_block_mean` averages in
pixel `i`: from `i * 2^(o-1)` to `(i + 1) * 2^(o-1)`. -/
theorem C48_coordinates [IsStrictOrderedRing G] (octave0 : Bool) (n : Nat)
    (found : Nat → List (Spot G)) (seam : Nat → Spot G → Spot G) (scale : Spot G → Spot G)
    (hseam : ∀ o c, (seam o c).pos = c.pos) (hscale : ∀ c, (scale c).pos = c.pos)
    (x : Spot G) (hx : x ∈ subpixAll octave0 n found seam scale) :
    ∃ o c, (octave0 = false → 1 ≤ o) ∧ o < n ∧ c ∈ found o ∧ x.pos.length = c.pos.length ∧
      ∀ (d : Nat) (p : G), c.pos[d]? = some p → ∃ p', x.pos[d]? = some p' ∧ (o = 0 → p' = p / 2) ∧
        ∀ (i : Nat), 1 ≤ o → ((i : G) ≤ p ↔ ((i * 2 ^ (o - 1) : Nat) : G) ≤ p') ∧
          (p < (i : G) + 1 ↔ p' < (((i + 1) * 2 ^ (o - 1) : Nat) : G)) := by
  rw [subpixAll_flatMap, List.mem_flatMap] at hx
  obtain ⟨o, ho, hx⟩ := hx
  rw [List.mem_map] at hx
  obtain ⟨c0, hc0, rfl⟩ := hx
  rw [List.mem_range'_1] at ho
  have hc : ∃ c ∈ found o, c0.pos = c.pos := by
    by_cases h : (if octave0 then 0 else 1) < o
    · rw [if_pos h, List.mem_map] at hc0
      obtain ⟨c, hc, rfl⟩ := hc0
      exact ⟨c, hc, hseam _ _⟩
    · rw [if_neg h] at hc0
      exact ⟨c0, hc0, rfl⟩
  obtain ⟨c, hc, hpos⟩ := hc
  refine ⟨o, c, ?_, ?_, hc, ?_, ?_⟩
  · rintro rfl; simpa using ho.1
  · split at ho <;> omega
  · simp [hscale, hpos]
  · intro d p hp
    refine ⟨p * (2 : G) ^ ((o : Int) - 1), ?_, ?_, ?_⟩
    · simp [hscale, hpos, hp]
    · rintro rfl
      simp [div_eq_mul_inv]
    · intro i h1
      obtain ⟨o', rfl⟩ := Nat.exists_eq_add_of_le h1
      have e : (2 : G) ^ (((1 + o' : Nat) : Int) - 1) = 2 ^ o' := by
        rw [show (((1 + o' : Nat) : Int) - 1) = (o' : Int) by push_cast; ring, zpow_natCast]
      have hpow : (0 : G) < 2 ^ o' := by positivity
      rw [e, show 1 + o' - 1 = o' by omega]
      push_cast
      exact ⟨(mul_le_mul_iff_left₀ hpow).symm, (mul_lt_mul_iff_left₀ hpow).symm⟩

/-! ## C71: the blur along Z with several threads -/

/-- A column out of all the sections is left alone. -/
theorem zblur_out {C : Type} (blur : C → C) (threads cols : Nat) (c : Nat) : ∀ (order : List Nat)
    (col : Nat → C), (∀ t ∈ order, ¬ (t * (cols / threads) ≤ c ∧
      c < min (t * (cols / threads) + cols / threads) cols)) →
    zblur blur threads cols order col c = col c := by
  intro order
  induction order with
  | nil => intro col _; rfl
  | cons t l ih =>
    intro col h
    have := ih (fun c => if t * (cols / threads) ≤ c ∧
      c < min (t * (cols / threads) + cols / threads) cols then blur (col c) else col c)
      (fun t ht => h t (by simp [ht]))
    rw [if_neg (h t (by simp))] at this
    exact this

/-- A column of the section of one thread is blurred once. -/
theorem zblur_in {C : Type} (blur : C → C) (threads cols : Nat) (c t0 : Nat)
    (hin : t0 * (cols / threads) ≤ c ∧ c < min (t0 * (cols / threads) + cols / threads) cols) :
    ∀ (order : List Nat) (col : Nat → C), order.Nodup → t0 ∈ order →
    zblur blur threads cols order col c = blur (col c) := by
  have huniq : ∀ t, (t * (cols / threads) ≤ c ∧
      c < min (t * (cols / threads) + cols / threads) cols) → t = t0 := by
    intro t ht
    by_cases hs : 0 < cols / threads
    · rw [← (row_iff hs c t).1 ⟨ht.1, by omega⟩, (row_iff hs c t0).1 ⟨hin.1, by omega⟩]
    · omega
  intro order
  induction order with
  | nil => intro _ _ h; simp at h
  | cons t l ih =>
    intro col hn hmem
    have hn' := List.nodup_cons.1 hn
    by_cases ht : t = t0
    · subst ht
      have := zblur_out blur threads cols c l (fun c => if t * (cols / threads) ≤ c ∧
        c < min (t * (cols / threads) + cols / threads) cols then blur (col c) else col c)
        (fun u hu h => hn'.1 (huniq u h ▸ hu))
      rw [if_pos hin] at this
      exact this
    · have hmem' : t0 ∈ l := by
        rcases List.mem_cons.1 hmem with h | h
        · exact absurd h.symm ht
        · exact h
      have := ih (fun c => if t * (cols / threads) ≤ c ∧
        c < min (t * (cols / threads) + cols / threads) cols then blur (col c) else col c) hn'.2 hmem'
      rw [if_neg (fun h => ht (huniq t h))] at this
      exact this

/-- **C71, when the number of threads divides the number of columns of the flattened image**: each
column is blurred exactly once, whatever the order of the threads. Missing for the full claim:
other numbers of threads, see below. -/
theorem C71_blur_partial {C : Type} (blur : C → C) (threads cols : Nat) (order : List Nat)
    (horder : order.Perm (List.range threads)) (ht : 0 < threads) (hdvd : threads ∣ cols)
    (col : Nat → C) (c : Nat) (hc : c < cols) :
    zblur blur threads cols order col c = blur (col c) := by
  obtain ⟨s, rfl⟩ := hdvd
  have hs : 0 < s := Nat.pos_of_ne_zero (by rintro rfl; simp at hc)
  have hdiv : threads * s / threads = s := Nat.mul_div_cancel_left s ht
  have h := (row_iff hs c (c / s)).2 rfl
  refine zblur_in blur threads (threads * s) c (c / s) ?_ order col
    (horder.nodup_iff.2 List.nodup_range) ?_
  · rw [hdiv]; omega
  · rw [horder.mem_iff, List.mem_range, Nat.div_lt_iff_lt_mul hs]; exact hc

example : [2, 0, 1].Perm (List.range 3) ∧ 3 ∣ 12 := by decide

/-- **C71 fails otherwise**: the last `cols % threads` columns are left without blur. -/
theorem C71_remainder_counterexample {C : Type} (blur : C → C) (threads cols : Nat)
    (order : List Nat) (horder : ∀ t ∈ order, t < threads) (col : Nat → C) (c : Nat)
    (hc : threads * (cols / threads) ≤ c) :
    zblur blur threads cols order col c = col c := by
  apply zblur_out
  rintro t ht ⟨_, h2⟩
  have h3 : (t + 1) * (cols / threads) ≤ threads * (cols / threads) :=
    Nat.mul_le_mul_right _ (horder t ht)
  rw [Nat.add_mul] at h3
  omega

/-- Four threads on a plane of 15 by 15 pixels: the last pixel is not blurred along Z. -/
example : (∀ t ∈ [3, 1, 0, 2], t < 4) ∧ 4 * (225 / 4) ≤ 224 ∧ 224 < 225 := by decide

/-! ## C72: sizes -/

variable [IsStrictOrderedRing G]

/-- **C72, scales.** A center detected at layer `l` (from 1 to the number `n` of layers, see C46)
has, with the correction at the seam between the octaves or without, a scale between `1/2` and
`n + 1/2`, unless it is not a number. `resp` and `resp'` are the responses in this octave and in
the previous one. -/
theorem C72_scale [FloorSemiring G] (n : Nat) (resp resp' : G → R G)
    (hresp : ∀ s, 0 ≤ s → ∃ g, resp s = .ok g) (hresp' : ∀ s, 0 ≤ s → ∃ g, resp' s = .ok g)
    (l : Nat) (hl : 1 ≤ l) (hn : l ≤ n) :
    ∃ r, scaleSubpix2 resp l = .ok r ∧ ∃ r', seamScale n (scaleSubpix2 resp') r = .ok r' ∧
      (r = .nan ∨ ∃ x, r = .fin x ∧ 1 / 2 ≤ x ∧ x ≤ n + 1 / 2) ∧
      (r' = .nan ∨ ∃ x, r' = .fin x ∧ 1 / 2 ≤ x ∧ x ≤ n + 1 / 2) := by
  obtain ⟨r, hr, hcase⟩ := C69_scale resp hresp l hl
  refine ⟨r, hr, ?_⟩
  have hl' : (1 : G) ≤ l := by exact_mod_cast hl
  have hn' : (l : G) ≤ n := by exact_mod_cast hn
  rcases hcase with rfl | ⟨x, rfl, hx⟩
  · exact ⟨.nan, rfl, .inl rfl, .inl rfl⟩
  · rw [abs_le] at hx
    have h1 : 1 / 2 ≤ x := by linarith
    have h2 : x ≤ n + 1 / 2 := by linarith
    unfold seamScale
    by_cases hlt : x < 1
    · simp only [if_pos hlt]
      have hfl : ⌊x + n + 1 / 2⌋₊ = n + 1 := by
        rw [Nat.floor_eq_iff (by linarith)]
        push_cast
        constructor <;> linarith
      rw [if_pos (by linarith), hfl]
      obtain ⟨s, hs, hcase'⟩ := C69_scale resp' hresp' (n + 1) (by omega)
      rw [hs, ok_bind]
      rcases hcase' with rfl | ⟨y, rfl, hy⟩
      · exact ⟨.nan, rfl, .inr ⟨x, rfl, h1, h2⟩, .inl rfl⟩
      · rw [abs_le] at hy
        push_cast at hy
        exact ⟨_, rfl, .inr ⟨x, rfl, h1, h2⟩, .inr ⟨y - n, rfl, by linarith, by linarith⟩⟩
    · simp only [if_neg hlt]
      exact ⟨_, rfl, .inr ⟨x, rfl, h1, h2⟩, .inr ⟨x, rfl, h1, h2⟩⟩

omit [Field G] [LinearOrder G] [IsStrictOrderedRing G] in
/-- **C72, radii.** With scales in this range, the radii found in octave `o` lie between
`u * 2^(o-1)` and `u * 2^o`, where `u` does not depend on the octave: the ranges of consecutive
octaves touch each other and do not overlap. `c` is the product of the prefactor and of the radius
of the preblur; the radius is computed in octavefinder.hpp 56 and multiscalefinder.hpp 119. -/
theorem C72_radius (n : Nat) (hn : 1 ≤ n) (c x : ℝ) (hc : 0 < c) (h1 : 1 / 2 ≤ x)
    (h2 : x ≤ n + 1 / 2) (o : Nat) :
    let radius := c * (2 : ℝ) ^ ((x + 1) / n) * (2 : ℝ) ^ ((o : Int) - 1)
    let u := c * (2 : ℝ) ^ ((3 / 2 : ℝ) / n)
    u * (2 : ℝ) ^ ((o : Int) - 1) ≤ radius ∧ radius ≤ u * (2 : ℝ) ^ o := by
  intro radius u
  have hn0 : (0 : ℝ) < n := by exact_mod_cast hn
  have hp : (0 : ℝ) < (2 : ℝ) ^ ((o : Int) - 1) := by positivity
  constructor
  · apply mul_le_mul_of_nonneg_right _ hp.le
    apply mul_le_mul_of_nonneg_left _ hc.le
    apply Real.rpow_le_rpow_of_exponent_le (by norm_num)
    apply div_le_div_of_nonneg_right _ hn0.le
    linarith
  · have e : u * (2 : ℝ) ^ o = c * (2 : ℝ) ^ ((n + 3 / 2 : ℝ) / n) * (2 : ℝ) ^ ((o : Int) - 1) := by
      have : (n + 3 / 2 : ℝ) / n = 3 / 2 / n + 1 := by field_simp; ring
      rw [this, Real.rpow_add (by norm_num), Real.rpow_one, zpow_sub₀ (by norm_num), zpow_natCast,
        zpow_one]
      simp only [u]
      ring
    rw [e]
    apply mul_le_mul_of_nonneg_right _ hp.le
    apply mul_le_mul_of_nonneg_left _ hc.le
    apply Real.rpow_le_rpow_of_exponent_le (by norm_num)
    apply div_le_div_of_nonneg_right _ hn0.le
    linarith

example : (1 : Nat) ≤ 3 ∧ (0 : ℝ) < 16 / 10 ∧ (1 / 2 : ℝ) ≤ 2 ∧ (2 : ℝ) ≤ (3 : Nat) + 1 / 2 := by
  norm_num

/-! ## C73: the same place in octaves 0 and 1 -/

/-- A finder whose first Gaussian layer is the image in memory. -/
def Holds (o : Finder G) (m : Mem G) (rows cols : Nat) : Prop :=
  o.width = rows ∧ o.height = cols ∧
    ∀ r c, r < rows → c < cols → o.layersG 0 r c = m.val (r * cols + c)

/-- **C73 fails**: for a spot that is symmetric around the pixel `(i, j)` of the input, octave 1
gives the position `(i + 1/2, j + 1/2)`, and octave 0, which is filled with the upscaled image,
gives `(i + 1/4, j + 1/4)` once back to the coordinates of the input. `a` is the input after the
blur that precedes upscaling, `o1` octave 1. -/
theorem C73_octave0_counterexample (a : Img G) (m : Mem G) (hm : upscale2 a = .ok m)
    (o0 o1 : Finder G) (h0 : Holds o0 m (2 * a.rows) (2 * a.cols)) (hw1 : o1.width = a.rows)
    (hh1 : o1.height = a.cols) (i j : Nat) (hi : 1 ≤ i) (hi' : i + 1 < a.cols) (hj : 1 ≤ j)
    (hj' : j + 1 < a.rows)
    (hax : a.px j (i - 1) = a.px j (i + 1)) (hay : a.px (j - 1) i = a.px (j + 1) i)
    (hbx : o1.layersG 0 j (i - 1) = o1.layersG 0 j (i + 1))
    (hby : o1.layersG 0 (j - 1) i = o1.layersG 0 (j + 1) i) :
    spatialSubpix2 o1 (i, j, 1) = .ok (((i : G) + 1 / 2, (j : G) + 1 / 2), o1.layers 1 j i) ∧
    ∃ x y v, spatialSubpix2 o0 (2 * i, 2 * j, 1) = .ok ((x, y), v) ∧
      x / 2 = i + 1 / 4 ∧ y / 2 = j + 1 / 4 := by
  have sym : ∀ (x : Nat) (b h : G), parabola x b h b = x + 1 / 2 := by
    intro x b h
    unfold parabola
    simp
  obtain ⟨m', hm', -, hv⟩ := C48_upscale_partial a (by omega) (by omega)
  rw [hm] at hm'
  obtain rfl : m = m' := by simpa using hm'
  obtain ⟨hw, hh, hl⟩ := h0
  constructor
  · rw [spatial_ok o1 i j 1 (by omega) hi (by omega) hj (by omega), posLayer, if_pos (by omega),
      show 1 - 1 = 0 from rfl, hbx, hby, sym, sym]
  · refine ⟨_, _, _, spatial_ok o0 (2 * i) (2 * j) 1 (by omega) (by omega) (by omega) (by omega)
      (by omega), ?_⟩
    rw [posLayer, if_pos (by omega), show 1 - 1 = 0 from rfl]
    rw [hl (2 * j) (2 * i - 1) (by omega) (by omega), hl (2 * j) (2 * i) (by omega) (by omega),
      hl (2 * j) (2 * i + 1) (by omega) (by omega), hl (2 * j - 1) (2 * i) (by omega) (by omega),
      hl (2 * j + 1) (2 * i) (by omega) (by omega)]
    have ex : m.val (2 * j * (2 * a.cols) + (2 * i - 1)) = m.val (2 * j * (2 * a.cols) + (2 * i + 1)) := by
      rw [hv _ _ (by omega) (by omega), hv _ _ (by omega) (by omega)]
      rw [show 2 * j / 2 = j by omega, show (2 * j + 1) / 2 = j by omega,
        show (2 * i - 1) / 2 = i - 1 by omega, show (2 * i - 1 + 1) / 2 = i by omega,
        show (2 * i + 1) / 2 = i by omega, show (2 * i + 1 + 1) / 2 = i + 1 by omega, hax]
      ring
    have ey : m.val ((2 * j - 1) * (2 * a.cols) + 2 * i) = m.val ((2 * j + 1) * (2 * a.cols) + 2 * i) := by
      rw [hv _ _ (by omega) (by omega), hv _ _ (by omega) (by omega)]
      rw [show 2 * i / 2 = i by omega, show (2 * i + 1) / 2 = i by omega,
        show (2 * j - 1) / 2 = j - 1 by omega, show (2 * j - 1 + 1) / 2 = j by omega,
        show (2 * j + 1) / 2 = j by omega, show (2 * j + 1 + 1) / 2 = j + 1 by omega, hay]
      ring
    rw [ex, ey, sym, sym]
    push_cast
    constructor <;> ring

/-- A symmetric spot. -/
example : ∃ (a : Img ℚ) (m : Mem ℚ), upscale2 a = .ok m ∧ a.px 3 2 = a.px 3 4 ∧ a.px 2 3 = a.px 4 3 ∧
    a.px 3 2 < a.px 3 3 := by
  obtain ⟨m, hm, -⟩ := C48_upscale_partial
    (⟨7, 7, fun j i => if i = 3 ∧ j = 3 then 1 else 0⟩ : Img ℚ) (by decide) (by decide)
  exact ⟨_, m, hm, by norm_num, by norm_num, by norm_num⟩

end Octave
end Colloids
