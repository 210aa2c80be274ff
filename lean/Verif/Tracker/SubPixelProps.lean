import Verif.Tracker.CentroidProps
import Mathlib.Algebra.Order.Floor.Semiring

/-! # C100 : the list of the centers -/

namespace Colloids
namespace Tracker

open Octave (Ext)

variable {G : Type} [Field G] [LinearOrder G]

/-- The pixel at a place of the memory. -/
def pixelOf (D : Dims) (l : Nat) : Nat × Nat × Nat :=
  (l / (D.n1 * D.n2), l % (D.n1 * D.n2) / D.n2, l % (D.n1 * D.n2) % D.n2)

theorem pixelOf_idx {D : Dims} {i j k : Nat} (hj : j < D.n1) (hk : k < D.n2) : pixelOf D (D.idx i j k) = (i, j, k) := by
  obtain ⟨d0, d1, d2⟩ := idx_div (i := i) hj hk
  unfold pixelOf
  rw [d0, d1, d2]

theorem mem_flatPositions {map : List Bool} {l : Nat} : l ∈ flatPositions map ↔ map[l]? = some true := by
  unfold flatPositions
  rw [List.mem_filter, List.mem_range, List.getD_eq_getElem?_getD]
  constructor
  · rintro ⟨h1, h2⟩
    rw [List.getElem?_eq_getElem h1] at h2 ⊢
    simpa using h2
  · intro h
    obtain ⟨h1, h2⟩ := List.getElem?_eq_some_iff.1 h
    refine ⟨h1, ?_⟩
    rw [h]
    rfl

theorem nodup_flatPositions (map : List Bool) : (flatPositions map).Nodup :=
  List.nodup_range.filter _

/-- If the marks are away from the borders and no dimension is between 5 and 12 pixels, every marked pixel
has two pixels on each side in the dimensions that are not flat. -/
theorem C100_fits (D : Dims) (map : List Bool) (hc : Clean D map) (h0 : D.n0 < 5 ∨ 13 ≤ D.n0)
    (h1 : D.n1 < 5 ∨ 13 ≤ D.n1) (h2 : D.n2 < 5 ∨ 13 ≤ D.n2) (i j k : Nat) (hi : i < D.n0) (hj : j < D.n1)
    (hk : k < D.n2) (hm : Marked D map i j k) : Fits3 D i j k := by
  obtain ⟨⟨a1, a2⟩, ⟨b1, b2⟩, c1, c2⟩ := hc.2 i j k hi hj hk hm
  have key : ∀ n x : Nat, (n < 5 ∨ 13 ≤ n) → x < n → (13 ≤ n → 6 ≤ x ∧ x + 6 < n) → Fits n x := by
    intro n x hn hx hh
    refine ⟨hx, fun h5 => ?_⟩
    rcases hn with hn | hn
    · omega
    · have := hh hn
      omega
  exact ⟨key _ _ h0 a1 a2, key _ _ h1 b1 b2, key _ _ h2 c1 c2⟩

/-- The centers are exactly the marked pixels that are the maximum of a neighbourhood without negative pixel
(except if the first coordinate found for them is negative), once each, in the order of decreasing
brightness. Coordinates, and the bounds of the box, are in the order x, y, z if `fortran`. -/
theorem C100_centers [IsStrictOrderedRing G] (D : Dims) (img : List G) (v : Nat → Nat → Nat → G) (hv : Shows D img v)
    (map : List Bool) (hm : map.length = D.size) (hfit : ∀ i j k, i < D.n0 → j < D.n1 → k < D.n2 →
      Marked D map i j k → Fits3 D i j k) (fortran : Bool) :
    ∃ px : List (Nat × Nat × Nat),
      px.Nodup ∧ px.Pairwise (fun a b => v b.1 b.2.1 b.2.2 ≤ v a.1 a.2.1 a.2.2) ∧
      (∀ i j k, (i, j, k) ∈ px ↔ i < D.n0 ∧ j < D.n1 ∧ k < D.n2 ∧ Marked D map i j k ∧ Top D v i j k ∧
        negExt (centerAt D v i j k).x0 = false) ∧
      subPixel D img fortran (sortByIntensity img (flatPositions map)) =
        .ok ⟨px.map (fun p => let c := centerAt D v p.1 p.2.1 p.2.2
            if fortran then ⟨c.x2, c.x1, c.x0⟩ else c),
          if fortran then (D.n2, D.n1, D.n0) else (D.n0, D.n1, D.n2)⟩ := by
  classical
  have hsort : (sortByIntensity img (flatPositions map)).Perm (flatPositions map) := List.mergeSort_perm _ _
  have hfs : ∀ l ∈ (sortByIntensity img (flatPositions map)).reverse, ∃ i j k, i < D.n0 ∧ j < D.n1 ∧ k < D.n2 ∧
      Marked D map i j k ∧ l = D.idx i j k := by
    intro l hl
    have h1 := mem_flatPositions.1 (hsort.mem_iff.1 (List.mem_reverse.1 hl))
    have h2 : l < D.size := by
      rw [← hm]
      exact (List.getElem?_eq_some_iff.1 h1).1
    obtain ⟨i, j, k, hi, hj, hk, rfl⟩ := idx_surj h2
    exact ⟨i, j, k, hi, hj, hk, h1, rfl⟩
  let res : Nat → Pos3 G := fun l =>
    if Top D v (pixelOf D l).1 (pixelOf D l).2.1 (pixelOf D l).2.2 then
      centerAt D v (pixelOf D l).1 (pixelOf D l).2.1 (pixelOf D l).2.2 else noPos
  have hcent : ∀ l ∈ (sortByIntensity img (flatPositions map)).reverse, centroid D img l = .ok (res l) := by
    intro l hl
    obtain ⟨i, j, k, hi, hj, hk, hmk, rfl⟩ := hfs l hl
    rw [C98_centroid D img v hv i j k (hfit i j k hi hj hk hmk)]
    simp only [res, pixelOf_idx hj hk]
  let keep : Nat → Bool := fun l =>
    decide (Top D v (pixelOf D l).1 (pixelOf D l).2.1 (pixelOf D l).2.2 ∧
      negExt (centerAt D v (pixelOf D l).1 (pixelOf D l).2.1 (pixelOf D l).2.2).x0 = false)
  have hkeep : ∀ l, (!negExt (res l).x0) = keep l := by
    intro l
    simp only [res, keep]
    by_cases hT : Top D v (pixelOf D l).1 (pixelOf D l).2.1 (pixelOf D l).2.2
    · rw [if_pos hT]
      cases negExt (centerAt D v (pixelOf D l).1 (pixelOf D l).2.1 (pixelOf D l).2.2).x0 <;> simp [hT]
    · rw [if_neg hT]
      have : negExt (noPos : Pos3 G).x0 = true := by
        unfold noPos negExt
        simp
      rw [this]
      simp [hT]
  let ls := ((sortByIntensity img (flatPositions map)).reverse).filter keep
  have hls : ∀ l ∈ ls, l ∈ (sortByIntensity img (flatPositions map)).reverse ∧ keep l = true :=
    fun l hl => List.mem_filter.1 hl
  refine ⟨ls.map (pixelOf D), ?_, ?_, ?_, ?_⟩
  · refine List.Nodup.map_on ?_ ?_
    · intro a ha b hb hab
      obtain ⟨i, j, k, hi, hj, hk, -, rfl⟩ := hfs a (hls a ha).1
      obtain ⟨i', j', k', hi', hj', hk', -, rfl⟩ := hfs b (hls b hb).1
      rw [pixelOf_idx hj hk, pixelOf_idx hj' hk'] at hab
      simp only [Prod.mk.injEq] at hab
      rw [hab.1, hab.2.1, hab.2.2]
    · refine List.Nodup.filter _ (List.nodup_reverse.2 (hsort.nodup_iff.2 (nodup_flatPositions map)))
  · rw [List.pairwise_map]
    have hp : (sortByIntensity img (flatPositions map)).Pairwise (fun a b => brighter img a b = true) :=
      List.pairwise_mergeSort (le := brighter img)
        (fun a b c h1 h2 => by
          unfold brighter at *
          rw [decide_eq_true_iff] at *
          exact le_trans h1 h2)
        (fun a b => by
          unfold brighter
          rw [Bool.or_eq_true, decide_eq_true_iff, decide_eq_true_iff]
          exact le_total _ _)
        _
    have hp2 : ((sortByIntensity img (flatPositions map)).reverse).Pairwise (fun a b => brighter img b a = true) :=
      List.pairwise_reverse.2 hp
    have hp3 : ls.Pairwise (fun a b => brighter img b a = true) := hp2.filter _
    refine hp3.imp_of_mem ?_
    intro a b ha hb hab
    obtain ⟨i, j, k, hi, hj, hk, -, rfl⟩ := hfs a (hls a ha).1
    obtain ⟨i', j', k', hi', hj', hk', -, rfl⟩ := hfs b (hls b hb).1
    rw [pixelOf_idx hj hk, pixelOf_idx hj' hk']
    unfold brighter at hab
    rw [decide_eq_true_iff, List.getD_eq_getElem?_getD, List.getD_eq_getElem?_getD, hv.2 _ _ _ hi hj hk,
      hv.2 _ _ _ hi' hj' hk'] at hab
    exact hab
  · intro i j k
    rw [List.mem_map]
    constructor
    · rintro ⟨l, hl, e⟩
      obtain ⟨h1, h2⟩ := hls l hl
      obtain ⟨i', j', k', hi', hj', hk', hmk, rfl⟩ := hfs l h1
      rw [pixelOf_idx hj' hk'] at e
      simp only [Prod.mk.injEq] at e
      obtain ⟨rfl, rfl, rfl⟩ := e
      have h3 := of_decide_eq_true h2
      rw [pixelOf_idx hj' hk'] at h3
      exact ⟨hi', hj', hk', hmk, h3⟩
    · rintro ⟨hi, hj, hk, hmk, hT⟩
      refine ⟨D.idx i j k, List.mem_filter.2 ⟨List.mem_reverse.2 (hsort.mem_iff.2 (mem_flatPositions.2 hmk)), ?_⟩,
        pixelOf_idx hj hk⟩
      simp only [keep, pixelOf_idx hj hk, decide_eq_true_iff]
      exact hT
  · unfold subPixel
    rw [TreeIndex.mapM_ok_of _ res _ hcent, ok_bind]
    simp only
    have hf : ((sortByIntensity img (flatPositions map)).reverse.map res).filter (fun c => !negExt c.x0) =
        (ls.map (pixelOf D)).map (fun p => centerAt D v p.1 p.2.1 p.2.2) := by
      rw [List.filter_map, List.map_map]
      have : ((fun c : Pos3 G => !negExt c.x0) ∘ res) = keep := funext hkeep
      rw [this]
      refine List.map_congr_left ?_
      intro l hl
      have h2 := of_decide_eq_true (hls l hl).2
      simp only [res, Function.comp]
      rw [if_pos h2.1]
    rw [hf]
    cases fortran with
    | false => simp [pure_eq_ok]
    | true =>
      simp only [if_true, pure_eq_ok, List.map_map]
      rfl

/-- The brightness exported for a center is that of the pixel that contains its coordinates, divided by the
number of pixels. -/
theorem C100_intensity_partial [IsStrictOrderedRing G] [FloorSemiring G] (D : Dims) (img : List G)
    (v : Nat → Nat → Nat → G) (hv : Shows D img v) (fortran : Bool) (x0 x1 x2 : G) (i j k : Nat)
    (hi : i < D.n0) (hj : j < D.n1) (hk : k < D.n2) (h0 : (i : G) ≤ x0 ∧ x0 < i + 1)
    (h1 : (j : G) ≤ x1 ∧ x1 < j + 1) (h2 : (k : G) ≤ x2 ∧ x2 < k + 1) :
    getIntensity D img fortran (if fortran then ⟨.fin x2, .fin x1, .fin x0⟩ else ⟨.fin x0, .fin x1, .fin x2⟩) =
      .ok (v i j k / ((D.n0 * D.n1 * D.n2 : Nat) : G)) := by
  have ts : ∀ (x : G) (n : Nat), (n : G) ≤ x ∧ x < n + 1 → toSize (.fin x) = .ok n := by
    intro x n h
    have hn : (0 : G) ≤ n := Nat.cast_nonneg n
    unfold toSize
    simp only
    rw [if_pos (by linarith), (Nat.floor_eq_iff (by linarith)).2 h]
  have hval := getR_some (hv.2 i j k hi hj hk)
  have e : D.n1 * D.n2 * i + D.n2 * j + 1 * k = D.idx i j k := by
    unfold Dims.idx
    rw [Nat.mul_comm _ i, Nat.mul_comm _ j, Nat.one_mul]
  unfold getIntensity
  cases fortran with
  | false =>
    simp only [Bool.false_eq_true, if_false]
    rw [ts _ _ h0, ok_bind, ts _ _ h1, ok_bind, ts _ _ h2, ok_bind, e, hval, ok_bind]
    rfl
  | true =>
    simp only [if_true, swap02]
    rw [ts _ _ h0, ok_bind, ts _ _ h1, ok_bind, ts _ _ h2, ok_bind, e, hval, ok_bind]
    rfl

/-- So if the center is before the middle of its pixel, the brightness exported is not that of the pixel but
that of the one before: coordinates are truncated although pixel `k` is around the coordinate `k`. -/
theorem C100_previous_counterexample [IsStrictOrderedRing G] [FloorSemiring G] (n k : Nat) (hk : 3 ≤ k)
    (hn : k + 3 ≤ n) (img : List G) (f : Nat → G) (himg : img.length = n) (hf : ∀ a (h : a < n), img[a]? = some (f a))
    (top b s : G) (hb : b ≠ 0) (hpar : ∀ a, k ≤ a + 2 → a ≤ k + 2 → f a = top - b * ((a : G) - s) ^ 2)
    (hs : (k : G) - 1 ≤ s ∧ s < k) :
    addExt (k : G) (lineShift n k f) = .fin s ∧
    getIntensity ⟨1, 1, n⟩ img true ⟨.fin s, .fin 0, .fin 0⟩ = .ok (f (k - 1) / (n : G)) := by
  refine ⟨(C98_parabola n k (by omega) f top b s hb hpar (by omega)).1, ?_⟩
  have hv : Shows ⟨1, 1, n⟩ img (fun _ _ c => f c) := by
    refine ⟨by rw [himg]; unfold Dims.size; simp, ?_⟩
    intro i j c hi hj hc
    have hi0 : i = 0 := by simp only at hi; omega
    have hj0 : j = 0 := by simp only at hj; omega
    subst hi0 hj0
    have : Dims.idx ⟨1, 1, n⟩ 0 0 c = c := by unfold Dims.idx; simp
    rw [this]
    exact hf c hc
  have hc : ((k - 1 : Nat) : G) = (k : G) - 1 := by rw [Nat.cast_sub (by omega)]; norm_num
  have := C100_intensity_partial ⟨1, 1, n⟩ img (fun _ _ c => f c) hv true 0 0 s 0 0 (k - 1) (by simp) (by simp)
    (by show k - 1 < n; omega) (by norm_num) (by norm_num) (by rw [hc]; exact ⟨hs.1, by linarith [hs.2]⟩)
  simp only [if_true, one_mul] at this
  exact this

/-- A line of 15 pixels with a parabola whose summit is 7.25, and a flat place. -/
def bump : List ℚ := [0, 0, 0, 0, 0, 0, 0, 100 - 16 * (1/4)^2, 100 - 16 * (3/4)^2, 0, 0, 0, 0, 0, 0]

example : findPixelCenters (G := ℚ) ⟨1, 1, 15⟩ 1 bump (List.replicate 15 false) =
    .ok ((List.replicate 15 false).set 7 true) := by decide +kernel

example : Fits3 ⟨1, 1, 15⟩ 0 0 7 := by
  unfold Fits3 Fits
  simp

end Tracker
end Colloids
