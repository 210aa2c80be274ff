import Verif.Octave.Lemmas
import Mathlib.Algebra.Field.Rat
import Mathlib.Algebra.Order.Ring.Rat
import Mathlib.Tactic.NormNum
import Mathlib.Tactic.Linarith
import Mathlib.Tactic.FieldSimp
import Mathlib.Tactic.Ring
import Mathlib.Tactic.IntervalCases

/-! # C46: the detection finds the local minima of the scale space -/

namespace Colloids
namespace Octave

variable {G : Type} [Field G] [LinearOrder G]

theorem margin_ok {o : Finder G} {k s : Nat} (h : o.sizes[k]? = some s) :
    margin o k = .ok (max (s + 1) 3) := by
  simp [margin, getR_ok.2 h]

/-- **C46, in two dimensions.** For all images, whatever their size: the detection succeeds; a
pixel of the scale space is registered at most once; the binary images show exactly the
registered pixels; each of them is a local minimum of the scale space, negative, not an edge,
at least its size and at least three pixels away from the borders; and each strict local minimum with these
properties in the scanned part of the image is registered. -/
theorem C46_two_dimensions (nz : G → Bool) (maxRatio : G) (o : Finder G)
    (hs : o.sizes.length = o.nbLayers + 3) :
    ∃ d, initializeBinary2 nz maxRatio o = .ok d ∧ d.centers.Nodup ∧
      (∀ p, d.binary p = true ↔ p ∈ d.centers) ∧
      (∀ i j k, (i, j, k) ∈ d.centers → 1 ≤ k ∧ k ≤ o.nbLayers ∧
        (3 ≤ j ∧ j + 3 ≤ o.width ∧ 3 ≤ i ∧ i + 3 ≤ o.height) ∧
        (∃ s, o.sizes[k]? = some s ∧ Inside2 o s j i) ∧ LocalMin2 o k j i ∧
        Blob2 nz maxRatio o k j i) ∧
      (∀ i j k s s0, 1 ≤ k → k ≤ o.nbLayers → o.sizes[k]? = some s → Inside2 o s j i →
        -- the scanned part depends on the size at the first layer of the pair of layers
        o.sizes[if k % 2 = 1 then k else k - 1]? = some s0 → Inside2 o (max (s0 + 1) 3) j i →
        StrictMin2 o k j i → Blob2 nz maxRatio o k j i → (i, j, k) ∈ d.centers) := by
  classical
  set m : Nat → Nat := fun k => max ((o.sizes[k]?).getD 0 + 1) 3 with hm
  have hm3 : ∀ k, 3 ≤ m k := fun k => le_max_right _ _
  set blk : Nat → List (Nat × Nat × Nat) := fun k =>
    (steps (m k) (o.width - m k)).flatMap (fun j =>
      (steps (m k) (o.height - m k)).map (fun i => (k, j, i))) with hblk
  set L := (steps 1 (o.nbLayers + 1)).flatMap blk with hL
  have hmem : ∀ k j i, (k, j, i) ∈ L ↔ (1 ≤ k ∧ k < o.nbLayers + 1 ∧ (k - 1) % 2 = 0) ∧
      (m k ≤ j ∧ j < o.width - m k ∧ (j - m k) % 2 = 0) ∧
      (m k ≤ i ∧ i < o.height - m k ∧ (i - m k) % 2 = 0) := by
    intro k j i
    simp only [hL, hblk, List.mem_flatMap, List.mem_map, Prod.mk.injEq, mem_steps]
    constructor
    · rintro ⟨k', hk', j', hj', i', hi', rfl, rfl, rfl⟩; exact ⟨hk', hj', hi'⟩
    · rintro ⟨hk', hj', hi'⟩; exact ⟨k, hk', j, hj', i, hi', rfl, rfl, rfl⟩
  have hrun : initializeBinary2 nz maxRatio o =
      L.foldlM (block2 nz maxRatio o) { binary := fun _ => false, centers := [] } := by
    rw [hL, foldlM_flatMap]
    apply foldlM_congr_mem
    intro k hk d
    rw [mem_steps] at hk
    have : o.sizes[k]? = some o.sizes[k] := List.getElem?_eq_getElem (by omega)
    rw [margin_ok this]
    simp only [ok_bind, hblk, hm, this, Option.getD_some]
  have hspec : ∀ b : Nat × Nat × Nat, ∃ verdict : Option ((Nat × Nat × Nat) × Bool), b ∈ L →
      (∀ d, block2 nz maxRatio o d b = .ok (d.apply verdict)) ∧
      (∀ i j k v, verdict = some ((i, j, k), v) → InBlock b k j i) ∧
      (∀ i j k, verdict = some ((i, j, k), true) →
        1 ≤ k ∧ k ≤ o.nbLayers ∧ (3 ≤ j ∧ j + 3 ≤ o.width ∧ 3 ≤ i ∧ i + 3 ≤ o.height) ∧
        (∃ s, o.sizes[k]? = some s ∧ Inside2 o s j i) ∧
        LocalMin2 o k j i ∧ Blob2 nz maxRatio o k j i) ∧
      (∀ i j k, InBlock b k j i → k ≤ o.nbLayers →
        (∃ s, o.sizes[k]? = some s ∧ Inside2 o s j i) →
        StrictMin2 o k j i → Blob2 nz maxRatio o k j i → verdict = some ((i, j, k), true)) := by
    rintro ⟨k, j, i⟩
    by_cases hb : (k, j, i) ∈ L
    · have h3 := hm3 k
      have hb' := (hmem k j i).1 hb
      obtain ⟨v, hv⟩ := block2_spec nz maxRatio o (k, j, i) hs hb'.1.1 (by omega)
        (by simp only; omega) (by simp only; omega) (by simp only; omega) (by simp only; omega)
      exact ⟨v, fun _ => hv⟩
    · exact ⟨none, fun h => absurd h hb⟩
  choose verdict hverdict using hspec
  have hnd : L.Nodup := by
    rw [hL, List.nodup_flatMap]
    refine ⟨fun k _ => ?_, ?_⟩
    · simp only [hblk]
      rw [List.nodup_flatMap]
      refine ⟨fun j _ => (steps_nodup _ _).map (by intro a b h; simpa using h), ?_⟩
      refine (steps_nodup _ _).imp ?_
      intro j j' hjj x hx hx'
      simp only [List.mem_map] at hx hx'
      obtain ⟨i, _, rfl⟩ := hx
      obtain ⟨i', _, he⟩ := hx'
      simp only [Prod.mk.injEq] at he
      exact hjj he.2.1.symm
    · refine (steps_nodup _ _).imp ?_
      intro k k' hkk x hx hx'
      simp only [hblk, List.mem_flatMap, List.mem_map] at hx hx'
      obtain ⟨j, _, i, _, rfl⟩ := hx
      obtain ⟨j', _, i', _, he⟩ := hx'
      simp only [Prod.mk.injEq] at he
      exact hkk he.1.symm
  obtain ⟨d, hd, h1, h2, h3⟩ := detect_fold (block2 nz maxRatio o) verdict L
    (fun b hb => (hverdict b hb).1) hnd (by
      rintro ⟨k, j, i⟩ hb ⟨k', j', i'⟩ hb' ⟨pi, pj, pk⟩ v v' e e'
      have a := (hverdict _ hb).2.1 _ _ _ _ e
      have a' := (hverdict _ hb').2.1 _ _ _ _ e'
      rw [hmem] at hb hb'
      simp only [InBlock] at a a'
      have hk : k = k' := by omega
      subst hk
      simp only [Prod.mk.injEq, true_and]
      omega)
  refine ⟨d, by rw [hrun, hd], h1, h2, ?_, ?_⟩
  · intro i j k hc
    obtain ⟨b, hb, hv⟩ := (h3 _).1 hc
    exact (hverdict b hb).2.2.1 i j k hv
  · intro i j k s s0 hk1 hk2 hsk hin hs0 hin0 hst hbl
    rw [h3]
    set kb := if k % 2 = 1 then k else k - 1 with hkb
    have hkb' : kb ≤ k ∧ k ≤ kb + 1 ∧ kb % 2 = 1 := by
      rw [hkb]; split <;> omega
    have hmk : m kb = max (s0 + 1) 3 := by simp only [hm, hs0, Option.getD_some]
    have h3' := hm3 kb
    obtain ⟨a1, a2, a3, a4⟩ := hin0
    rw [← hmk] at a1 a2 a3 a4
    refine ⟨(kb, m kb + 2 * ((j - m kb) / 2), m kb + 2 * ((i - m kb) / 2)), ?_, ?_⟩
    · rw [hmem]; omega
    · refine (hverdict _ ?_).2.2.2 i j k ?_ hk2 ⟨s, hsk, hin⟩ hst hbl
      · rw [hmem]; omega
      · simp only [InBlock]; omega

/-- A round spot in the middle of a 9 × 9 image with one layer, for the hypotheses below. -/
def exSpot : Finder ℚ where
  nbLayers := 1
  width := 9
  height := 9
  sizes := [2, 2, 3, 4]
  layersG := fun k _ _ => k
  layers := fun k j i => if k = 1 ∧ j = 4 ∧ i = 4 then -1 else 0

example : exSpot.sizes.length = exSpot.nbLayers + 3 ∧ Inside2 exSpot 3 4 4 ∧
    StrictMin2 exSpot 1 4 4 ∧ Blob2 (fun x => x != 0) (6/5) exSpot 1 4 4 := by
  refine ⟨rfl, by simp [Inside2, exSpot], ?_, ?_⟩
  · intro k' j' i' _ _ _ _ _ _ hne
    simp only [exSpot]
    rw [if_pos (by simp), if_neg (by simpa using hne)]
    norm_num
  · norm_num [Blob2, exSpot, edge, ratioAbove]

/-- The edge filter of **C46** never rejects a minimum that is as curved along the rows as along
the columns and without cross derivative, as long as the largest ratio is at least one. -/
theorem C46_round [IsStrictOrderedRing G] (nz : G → Bool) (maxRatio h : G) (hr : 1 ≤ maxRatio)
    (h0 : h ≠ 0) : edge nz maxRatio h h 0 = false := by
  have hpos : 0 < h * h := mul_self_pos.2 h0
  have h4 : (4 : G) * h * h ≠ 0 := by positivity
  have e : (h + h) ^ 2 / (4 * h * h) = 1 := by field_simp; ring
  simp only [edge, ratioAbove, if_neg h4, e, Bool.or_eq_false_iff, Bool.and_eq_false_iff,
    decide_eq_false_iff_not, not_lt]
  exact ⟨.inl (by nlinarith), hr⟩

example : (1 : ℚ) ≤ 6 / 5 ∧ (2 : ℚ) ≠ 0 := by norm_num

/-- For **C46**: the ratio of the edge filter is at least one at every minimum. With a largest
ratio below one, no strict local minimum is ever registered, whatever the image. -/
theorem C46_ratio_below_one [IsStrictOrderedRing G] (nz : G → Bool) (maxRatio : G)
    (o : Finder G) (hs : o.sizes.length = o.nbLayers + 3) (hr : maxRatio < 1)
    (d : Det (Nat × Nat × Nat)) (hd : initializeBinary2 nz maxRatio o = .ok d) (i j k : Nat)
    (hst : StrictMin2 o k j i) : (i, j, k) ∉ d.centers := by
  intro hc
  obtain ⟨d', hd', _, _, hsound, _⟩ := C46_two_dimensions nz maxRatio o hs
  rw [hd] at hd'
  obtain rfl : d = d' := by simpa using hd'
  obtain ⟨hk, hk', hin, _, _, hbl⟩ := hsound i j k hc
  have a1 := hst k (j - 1) i (by omega) (by omega) (by omega) (by omega) (by omega) (by omega)
    (by simp; omega)
  have a2 := hst k (j + 1) i (by omega) (by omega) (by omega) (by omega) (by omega) (by omega)
    (by simp)
  have a3 := hst k j (i - 1) (by omega) (by omega) (by omega) (by omega) (by omega) (by omega)
    (by simp; omega)
  have a4 := hst k j (i + 1) (by omega) (by omega) (by omega) (by omega) (by omega) (by omega)
    (by simp)
  have hh := hbl.2.2
  set h0 := o.layers k (j - 1) i - 2 * o.layers k j i + o.layers k (j + 1) i with e0
  set h1 := o.layers k j (i - 1) - 2 * o.layers k j i + o.layers k j (i + 1) with e1
  have p0 : 0 < h0 := by rw [e0]; linarith
  have p1 : 0 < h1 := by rw [e1]; linarith
  have p4 : 0 < 4 * h0 * h1 := by positivity
  simp only [edge, ratioAbove, if_neg (ne_of_gt p4), Bool.or_eq_false_iff,
    decide_eq_false_iff_not, not_lt] at hh
  have h2 : (h0 + h1) ^ 2 / (4 * h0 * h1) < 1 := lt_of_le_of_lt hh.2 hr
  rw [div_lt_one p4] at h2
  nlinarith [sq_nonneg (h0 - h1)]

/-- **C46, in one dimension**, when no size is below two (true for the default radius of the
blur). Missing for the full claim: smaller sizes, see the counterexample below. -/
theorem C46_one_dimension_partial (nz : G → Bool) (o : Finder G)
    (hs : o.sizes.length = o.nbLayers + 3) (hw : 0 < o.width)
    (h2 : ∀ s ∈ o.sizes, 2 ≤ s) :
    ∃ d, initializeBinary1 nz o = .ok d ∧ d.centers.Nodup ∧
      (∀ p, d.binary p = true ↔ p ∈ d.centers) ∧
      (∀ i k, (i, k) ∈ d.centers → 1 ≤ k ∧ k ≤ o.nbLayers ∧ (3 ≤ i ∧ i + 3 ≤ o.height) ∧
        (∃ s, o.sizes[k]? = some s ∧ s ≤ i ∧ i + s < o.height) ∧ LocalMin1 o k i ∧
        Blob1 nz o k i) ∧
      (∀ i k s s0, 1 ≤ k → k ≤ o.nbLayers → o.sizes[k]? = some s → s ≤ i → i + s < o.height →
        o.sizes[if k % 2 = 1 then k else k - 1]? = some s0 → s0 + 1 ≤ i →
        i + (s0 + 1) < o.height →
        StrictMin1 o k i → Blob1 nz o k i → (i, k) ∈ d.centers) := by
  classical
  set m : Nat → Nat := fun k => max ((o.sizes[k]?).getD 0 + 1) 3 with hm
  have hm3 : ∀ k, 3 ≤ m k := fun k => le_max_right _ _
  set blk : Nat → List (Nat × Nat × Nat) := fun k =>
    (steps (m k) (o.height - m k)).map (fun i => (k, i, i)) with hblk
  set L := (steps 1 (o.nbLayers + 1)).flatMap blk with hL
  have hmem : ∀ k i q, (k, i, q) ∈ L ↔ (1 ≤ k ∧ k < o.nbLayers + 1 ∧ (k - 1) % 2 = 0) ∧
      (m k ≤ i ∧ i < o.height - m k ∧ (i - m k) % 2 = 0) ∧ q = i := by
    intro k i q
    simp only [hL, hblk, List.mem_flatMap, List.mem_map, Prod.mk.injEq, mem_steps]
    constructor
    · rintro ⟨k', hk', i', hi', rfl, rfl, rfl⟩; exact ⟨hk', hi', rfl⟩
    · rintro ⟨hk', hi', rfl⟩; exact ⟨k, hk', _, hi', rfl, rfl, rfl⟩
  have hrun : initializeBinary1 nz o =
      L.foldlM (block1 nz o) { binary := fun _ => false, centers := [] } := by
    rw [hL, foldlM_flatMap]
    apply foldlM_congr_mem
    intro k hk d
    rw [mem_steps] at hk
    have hlt : k < o.sizes.length := by omega
    have : o.sizes[k]? = some o.sizes[k] := List.getElem?_eq_getElem hlt
    have h2k := h2 o.sizes[k] (List.getElem_mem hlt)
    rw [margin_ok this, getR_ok.2 this]
    simp only [ok_bind, hblk, hm, this, Option.getD_some]
    congr 1
    refine List.map_congr_left fun i hi => ?_
    rw [mem_steps] at hi
    simp only [Prod.mk.injEq, true_and]
    have : max (o.sizes[k] + 1) 3 = o.sizes[k] + 1 := by omega
    rw [this] at hi ⊢
    omega
  have hspec : ∀ b : Nat × Nat × Nat, ∃ verdict : Option ((Nat × Nat) × Bool), b ∈ L →
      (∀ d, block1 nz o d b = .ok (d.apply verdict)) ∧
      (∀ i k v, verdict = some ((i, k), v) → InBlock1 b k i) ∧
      (∀ i k, verdict = some ((i, k), true) →
        1 ≤ k ∧ k ≤ o.nbLayers ∧ (3 ≤ i ∧ i + 3 ≤ o.height) ∧
        (∃ s, o.sizes[k]? = some s ∧ s ≤ i ∧ i + s < o.height) ∧
        LocalMin1 o k i ∧ Blob1 nz o k i) ∧
      (∀ i k, InBlock1 b k i → k ≤ o.nbLayers →
        (∃ s, o.sizes[k]? = some s ∧ s ≤ i ∧ i + s < o.height) →
        StrictMin1 o k i → Blob1 nz o k i → verdict = some ((i, k), true)) := by
    rintro ⟨k, i, q⟩
    by_cases hb : (k, i, q) ∈ L
    · have h3 := hm3 k
      have hb' := (hmem k i q).1 hb
      obtain ⟨v, hv⟩ := block1_spec nz o (k, i, q) hs hw hb'.1.1 (by omega) hb'.2.2
        (by simp only; omega) (by simp only; omega)
      exact ⟨v, fun _ => hv⟩
    · exact ⟨none, fun h => absurd h hb⟩
  choose verdict hverdict using hspec
  have hnd : L.Nodup := by
    rw [hL, List.nodup_flatMap]
    refine ⟨fun k _ => (steps_nodup _ _).map (by intro a b h; simpa using h), ?_⟩
    refine (steps_nodup _ _).imp ?_
    intro k k' hkk x hx hx'
    simp only [hblk, List.mem_map] at hx hx'
    obtain ⟨i, _, rfl⟩ := hx
    obtain ⟨i', _, he⟩ := hx'
    simp only [Prod.mk.injEq] at he
    exact hkk he.1.symm
  obtain ⟨d, hd, h1, h2, h3⟩ := detect_fold (block1 nz o) verdict L
    (fun b hb => (hverdict b hb).1) hnd (by
      rintro ⟨k, i, q⟩ hb ⟨k', i', q'⟩ hb' ⟨pi, pk⟩ v v' e e'
      have a := (hverdict _ hb).2.1 _ _ _ e
      have a' := (hverdict _ hb').2.1 _ _ _ e'
      rw [hmem] at hb hb'
      simp only [InBlock1] at a a'
      have hk : k = k' := by omega
      subst hk
      simp only [Prod.mk.injEq, true_and]
      omega)
  refine ⟨d, by rw [hrun, hd], h1, h2, ?_, ?_⟩
  · intro i k hc
    obtain ⟨b, hb, hv⟩ := (h3 _).1 hc
    exact (hverdict b hb).2.2.1 i k hv
  · intro i k s s0 hk1 hk2 hsk hin hin' hs0 hin0 hin0' hst hbl
    rw [h3]
    set kb := if k % 2 = 1 then k else k - 1 with hkb
    have hkb' : kb ≤ k ∧ k ≤ kb + 1 ∧ kb % 2 = 1 := by
      rw [hkb]; split <;> omega
    have hmk : m kb = s0 + 1 := by
      have := ‹∀ s ∈ o.sizes, 2 ≤ s› s0 (List.mem_of_getElem? hs0)
      simp only [hm, hs0, Option.getD_some]; omega
    have h3' := hm3 kb
    rw [← hmk] at hin0 hin0'
    refine ⟨(kb, m kb + 2 * ((i - m kb) / 2), m kb + 2 * ((i - m kb) / 2)), ?_, ?_⟩
    · rw [hmem]; omega
    · refine (hverdict _ ?_).2.2.2 i k ?_ hk2 ⟨s, hsk, hin, hin'⟩ hst hbl
      · rw [hmem]; omega
      · simp only [InBlock1]; omega

/-- A spike at column 5 of a signal of 12 samples. The layers are the differences of the
Gaussian layers, as in octavefinder.cpp 167-168. -/
def exSpike (sizes : List Nat) : Finder ℚ where
  nbLayers := 1
  width := 1
  height := 12
  sizes := sizes
  layersG := fun k _ i => if k = 1 ∧ i = 5 then 1 else 0
  layers := fun k _ i => (if k + 1 = 1 ∧ i = 5 then 1 else 0) - (if k = 1 ∧ i = 5 then 1 else 0)

theorem exSpike_min (sizes : List Nat) : StrictMin1 (exSpike sizes) 1 5 := by
  intro k' i' _ _ _ _ hne
  simp only [exSpike]
  by_cases hk : k' = 1
  · subst hk
    have : i' ≠ 5 := fun h => hne (by rw [h])
    simp [this]
  · norm_num [hk]
    split <;> norm_num

theorem exSpike_blob (sizes : List Nat) : Blob1 (fun x => x != 0) (exSpike sizes) 1 5 := by
  norm_num [Blob1, exSpike, steep]

example : (exSpike [2, 2, 3, 4]).sizes.length = (exSpike [2, 2, 3, 4]).nbLayers + 3 ∧
    0 < (exSpike [2, 2, 3, 4]).width ∧ (∀ s ∈ (exSpike [2, 2, 3, 4]).sizes, 2 ≤ s) ∧
    StrictMin1 (exSpike [2, 2, 3, 4]) 1 5 ∧ Blob1 (fun x => x != 0) (exSpike [2, 2, 3, 4]) 1 5 :=
  ⟨rfl, by decide, by decide, exSpike_min _, exSpike_blob _⟩

/-- **C46 fails in one dimension when a size is below two** (radius of the blur about one or
less): the pointers start one or two pixels before the loop. A spike at column 5 is the only
local minimum; it is not registered and the next column, where nothing is lower than its
neighbours by any amount, is registered instead. -/
theorem C46_one_dimension_counterexample :
    StrictMin1 (exSpike [1, 1, 1, 2]) 1 5 ∧
      Blob1 (fun x => x != 0) (exSpike [1, 1, 1, 2]) 1 5 ∧
      (initializeBinary1 (fun x => x != 0) (exSpike [1, 1, 1, 2])).map (·.centers) = .ok [(6, 1)] ∧
      ¬ LocalMin1 (exSpike [1, 1, 1, 2]) 1 6 := by
  refine ⟨exSpike_min _, exSpike_blob _, by decide +kernel, ?_⟩
  intro h
  have := h 1 5 (by omega) (by omega) (by omega) (by omega)
  norm_num [exSpike] at this

end Octave
end Colloids
