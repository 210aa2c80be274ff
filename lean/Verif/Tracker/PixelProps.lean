import Verif.Tracker.PixelLemmas
import Mathlib.Tactic.NormNum
import Mathlib.Tactic.IntervalCases
import Mathlib.Algebra.Order.Ring.Rat
import Mathlib.Algebra.Field.Rat

/-! # C97 : the local maxima of the image -/

namespace Colloids
namespace Tracker

variable {G : Type} [Field G] [LinearOrder G]

/-- The image shows the brightness `v`. -/
def Shows (D : Dims) (img : List G) (v : Nat → Nat → Nat → G) : Prop :=
  img.length = D.size ∧ ∀ i j k, i < D.n0 → j < D.n1 → k < D.n2 → img[D.idx i j k]? = some (v i j k)

/-- The pixel is marked. -/
def Marked (D : Dims) (map : List Bool) (i j k : Nat) : Prop := map[D.idx i j k]? = some true

/-- A map of the right size without a mark near the borders: as it is when it is made, for instance. -/
def Clean (D : Dims) (map : List Bool) : Prop :=
  map.length = D.size ∧ ∀ i j k, i < D.n0 → j < D.n1 → k < D.n2 → Marked D map i j k → Interior D i j k

/-- No neighbour before the pixel is as bright as `x` (`strict`) or brighter than `x`. Only dimensions of at
least 13 pixels have neighbours. -/
def Before (D : Dims) (v : Nat → Nat → Nat → G) (rel : G → G → Prop) (i j k : Nat) : Prop :=
  (13 ≤ D.n0 → rel (v (i - 1) j k) (v i j k)) ∧ (13 ≤ D.n1 → rel (v i (j - 1) k) (v i j k)) ∧
    (13 ≤ D.n2 → rel (v i j (k - 1)) (v i j k))

/-- The same for the neighbours after the pixel. -/
def After (D : Dims) (v : Nat → Nat → Nat → G) (rel : G → G → Prop) (i j k : Nat) : Prop :=
  (13 ≤ D.n0 → rel (v (i + 1) j k) (v i j k)) ∧ (13 ≤ D.n1 → rel (v i (j + 1) k) (v i j k)) ∧
    (13 ≤ D.n2 → rel (v i j (k + 1)) (v i j k))

theorem idx_pred0 {D : Dims} {i j k : Nat} (h : 1 ≤ i) : D.idx i j k - D.n1 * D.n2 = D.idx (i - 1) j k := by
  unfold Dims.idx
  have : i * (D.n1 * D.n2) = (i - 1) * (D.n1 * D.n2) + D.n1 * D.n2 := by
    rw [← Nat.succ_mul]
    congr 1
    omega
  omega

theorem idx_pred1 {D : Dims} {i j k : Nat} (h : 1 ≤ j) : D.idx i j k - D.n2 = D.idx i (j - 1) k := by
  unfold Dims.idx
  have : j * D.n2 = (j - 1) * D.n2 + D.n2 := by
    rw [← Nat.succ_mul]
    congr 1
    omega
  omega

theorem idx_pred2 {D : Dims} {i j k : Nat} (h : 1 ≤ k) : D.idx i j k - 1 = D.idx i j (k - 1) := by
  unfold Dims.idx
  omega

theorem idx_succ0 {D : Dims} {i j k : Nat} : D.idx i j k + D.n1 * D.n2 = D.idx (i + 1) j k := by
  unfold Dims.idx
  rw [Nat.succ_mul]
  omega

theorem idx_succ1 {D : Dims} {i j k : Nat} : D.idx i j k + D.n2 = D.idx i (j + 1) k := by
  unfold Dims.idx
  rw [Nat.succ_mul]
  omega

omit [Field G] in
/-- On an interior pixel the condition on the memory is that on the neighbours. -/
theorem peak_iff {D : Dims} {img : List G} {v : Nat → Nat → Nat → G} (hv : Shows D img v) {thr : G} {i j k : Nat}
    (hI : Interior D i j k) :
    Peak thr img (steps D) (D.idx i j k) ↔ thr ≤ v i j k ∧ Before D v (· ≤ ·) i j k ∧ After D v (· ≤ ·) i j k := by
  obtain ⟨⟨a1, a2⟩, ⟨b1, b2⟩, c1, c2⟩ := hI
  have hx := hv.2 i j k a1 b1 c1
  constructor
  · rintro ⟨x, e, h1, h2⟩
    rw [hx] at e
    cases e
    refine ⟨h1, ⟨fun h => ?_, fun h => ?_, fun h => ?_⟩, ⟨fun h => ?_, fun h => ?_, fun h => ?_⟩⟩
    · have := a2 h
      refine (h2 _ (mem_steps.2 (Or.inl ⟨h, rfl⟩))).1 _ ?_
      rw [idx_pred0 (by omega)]
      exact hv.2 _ _ _ (by omega) b1 c1
    · have := b2 h
      refine (h2 _ (mem_steps.2 (Or.inr (Or.inl ⟨h, rfl⟩)))).1 _ ?_
      rw [idx_pred1 (by omega)]
      exact hv.2 _ _ _ a1 (by omega) c1
    · have := c2 h
      refine (h2 _ (mem_steps.2 (Or.inr (Or.inr ⟨h, rfl⟩)))).1 _ ?_
      rw [idx_pred2 (by omega)]
      exact hv.2 _ _ _ a1 b1 (by omega)
    · have := a2 h
      refine (h2 _ (mem_steps.2 (Or.inl ⟨h, rfl⟩))).2 _ ?_
      rw [idx_succ0]
      exact hv.2 _ _ _ (by omega) b1 c1
    · have := b2 h
      refine (h2 _ (mem_steps.2 (Or.inr (Or.inl ⟨h, rfl⟩)))).2 _ ?_
      rw [idx_succ1]
      exact hv.2 _ _ _ a1 (by omega) c1
    · have := c2 h
      refine (h2 _ (mem_steps.2 (Or.inr (Or.inr ⟨h, rfl⟩)))).2 _ ?_
      exact hv.2 i j (k + 1) a1 b1 (by omega)
  · rintro ⟨h1, ⟨p0, p1, p2⟩, s0, s1, s2⟩
    refine ⟨_, hx, h1, ?_⟩
    intro s hs
    rcases mem_steps.1 hs with ⟨h, rfl⟩ | ⟨h, rfl⟩ | ⟨h, rfl⟩
    · have := a2 h
      rw [idx_pred0 (by omega), idx_succ0, hv.2 _ _ _ (by omega) b1 c1, hv.2 _ _ _ (by omega) b1 c1]
      exact ⟨fun a e => by cases e; exact p0 h, fun a e => by cases e; exact s0 h⟩
    · have := b2 h
      rw [idx_pred1 (by omega), idx_succ1, hv.2 _ _ _ a1 (by omega) c1, hv.2 _ _ _ a1 (by omega) c1]
      exact ⟨fun a e => by cases e; exact p1 h, fun a e => by cases e; exact s1 h⟩
    · have := c2 h
      rw [idx_pred2 (by omega), hv.2 _ _ _ a1 b1 (by omega)]
      refine ⟨fun a e => by cases e; exact p2 h, fun a e => ?_⟩
      have e' := hv.2 i j (k + 1) a1 b1 (by omega)
      rw [show D.idx i j k + 1 = D.idx i j (k + 1) from rfl, e'] at e
      cases e
      exact s2 h

/-- The work done by the function, before it is told in terms of pixels. -/
theorem findPixelCenters_ok (D : Dims) (hD : 0 < D.n0 ∧ 0 < D.n1 ∧ 0 < D.n2) (threshold : G) (img : List G)
    (hi : img.length = D.size) (map : List Bool) (hm : map.length = D.size) :
    ∃ m1 map' : List Bool, findPixelCenters D threshold img map = .ok map' ∧ map'.length = D.size ∧
      (∀ r, r < offset D ∨ D.size - offset D ≤ r → m1[r]? = map[r]?) ∧
      (∀ r, offset D ≤ r → r < D.size - offset D → (m1[r]? = some true ↔
        Peak (threshold * (D.size : G)) img (steps D) r ∧ ∀ s ∈ steps D, m1[r - s]? ≠ some true)) ∧
      ∀ r, map'[r]? = some true ↔ m1[r]? = some true ∧ ∀ f ∈ margins D, ¬ (f.1 ≤ r ∧ r < f.1 + f.2) := by
  have h2 := two_offset D hD.1 hD.2.1 hD.2.2
  have hpos : ∀ s ∈ steps D, 0 < s := by
    intro s hs
    rcases mem_steps.1 hs with ⟨-, rfl⟩ | ⟨-, rfl⟩ | ⟨-, rfl⟩
    · exact Nat.mul_pos hD.2.1 hD.2.2
    · exact hD.2.2
    · exact Nat.one_pos
  have hle : ∀ s ∈ steps D, s ≤ offset D := by
    intro s hs
    rw [offset_eq]
    rcases mem_steps.1 hs with ⟨h, rfl⟩ | ⟨h, rfl⟩ | ⟨h, rfl⟩ <;> rw [if_pos h] <;> omega
  obtain ⟨m1, a1, a2, a3, a4⟩ := scan_ok D (threshold * (D.size : G)) img hpos (D.size - 2 * offset D) (offset D) map
    (fun s hs => ⟨hle s hs, by have := hle s hs; omega⟩) (by omega) (by omega)
  obtain ⟨m2, b1, b2, b3⟩ := clears_ok (margins D) m1 (fun f hf => by rw [a2, hm]; exact margins_le D f hf)
  refine ⟨m1, m2, ?_, by omega, fun r hr => a3 r (by omega), fun r h3 h4 => a4 r h3 (by omega), b3⟩
  unfold findPixelCenters
  simp only
  rw [if_neg (by omega)]
  rw [a1]
  exact b1

omit [Field G] in
/-- The marks of a clean map are in the range of the loop. -/
theorem clean_out {D : Dims} {map : List Bool} (hc : Clean D map) {r : Nat}
    (hr : r < offset D ∨ D.size - offset D ≤ r) : map[r]? ≠ some true := by
  intro h
  have hlt : r < D.size := by
    rw [← hc.1]
    exact (List.getElem?_eq_some_iff.1 h).1
  obtain ⟨i, j, k, hi, hj, hk, rfl⟩ := idx_surj hlt
  have := interior_range (hc.2 i j k hi hj hk h)
  omega

/-- Every pixel that is marked is away from the borders, at least as bright as the threshold (in the unit of
the filtered image: times the number of pixels), and no neighbour is brighter. The map stays clean for the
next image, and what it was before does not matter. -/
theorem C97_sound (D : Dims) (hD : 0 < D.n0 ∧ 0 < D.n1 ∧ 0 < D.n2) (threshold : G) (img : List G)
    (v : Nat → Nat → Nat → G) (hv : Shows D img v) (map : List Bool) (hc : Clean D map) :
    ∃ map', findPixelCenters D threshold img map = .ok map' ∧ Clean D map' ∧
      ∀ i j k, i < D.n0 → j < D.n1 → k < D.n2 → Marked D map' i j k →
        Interior D i j k ∧ threshold * ((D.n0 * D.n1 * D.n2 : Nat) : G) ≤ v i j k ∧
        Before D v (· ≤ ·) i j k ∧ After D v (· ≤ ·) i j k := by
  obtain ⟨m1, map', e, hl, h1, h2, h3⟩ := findPixelCenters_ok D hD threshold img hv.1 map hc.1
  have key : ∀ i j k, i < D.n0 → j < D.n1 → k < D.n2 → Marked D map' i j k →
      Interior D i j k ∧ Peak (threshold * (D.size : G)) img (steps D) (D.idx i j k) := by
    intro i j k hi hj hk hmk
    obtain ⟨g1, g2⟩ := (h3 _).1 hmk
    have hjk := (margins_spec hi hj hk).1 g2
    have hin : offset D ≤ D.idx i j k ∧ D.idx i j k < D.size - offset D := by
      by_contra hcon
      have ho : D.idx i j k < offset D ∨ D.size - offset D ≤ D.idx i j k := by omega
      rw [h1 _ ho] at g1
      exact clean_out hc ho g1
    exact ⟨⟨range_first hj hk hi hin.1 (by omega), hjk⟩, ((h2 _ hin.1 hin.2).1 g1).1⟩
  refine ⟨map', e, ⟨hl, fun i j k hi hj hk h => (key i j k hi hj hk h).1⟩, ?_⟩
  intro i j k hi hj hk h
  obtain ⟨k1, k2⟩ := key i j k hi hj hk h
  exact ⟨k1, (peak_iff hv k1).1 k2⟩

omit [Field G] in
/-- The pixels before a pixel that they do not reach are not marked. -/
theorem not_marked_before {D : Dims} {img : List G} {v : Nat → Nat → Nat → G} (hv : Shows D img v) {thr : G}
    {i j k : Nat} (hI : Interior D i j k) (hb : Before D v (· < ·) i j k) {s : Nat} (hs : s ∈ steps D) :
    ¬ Peak thr img (steps D) (D.idx i j k - s) := by
  obtain ⟨⟨a1, a2⟩, ⟨b1, b2⟩, c1, c2⟩ := hI
  rintro ⟨x, e, -, h2⟩
  have h3 := (h2 s hs).2 (v i j k)
  have hsle : s ≤ D.idx i j k := by
    rcases mem_steps.1 hs with ⟨h, rfl⟩ | ⟨h, rfl⟩ | ⟨h, rfl⟩
    · have := a2 h
      have h5 := idx_succ0 (D := D) (i := i - 1) (j := j) (k := k)
      rw [show i - 1 + 1 = i by omega] at h5
      omega
    · have := b2 h
      have h5 := idx_succ1 (D := D) (i := i) (j := j - 1) (k := k)
      rw [show j - 1 + 1 = j by omega] at h5
      omega
    · have := c2 h
      unfold Dims.idx
      omega
  rw [Nat.sub_add_cancel hsle, hv.2 i j k a1 b1 c1] at h3
  have h4 := h3 rfl
  rcases mem_steps.1 hs with ⟨h, rfl⟩ | ⟨h, rfl⟩ | ⟨h, rfl⟩
  · have := a2 h
    rw [idx_pred0 (by omega), hv.2 _ _ _ (by omega) b1 c1] at e
    cases e
    exact absurd (hb.1 h) (not_lt.2 h4)
  · have := b2 h
    rw [idx_pred1 (by omega), hv.2 _ _ _ a1 (by omega) c1] at e
    cases e
    exact absurd (hb.2.1 h) (not_lt.2 h4)
  · have := c2 h
    rw [idx_pred2 (by omega), hv.2 _ _ _ a1 b1 (by omega)] at e
    cases e
    exact absurd (hb.2.2 h) (not_lt.2 h4)

/-- A pixel away from the borders, at least as bright as the threshold, brighter than the neighbours before
it and not less bright than those after it, is marked. Pixels that are exactly as bright as a neighbour
before them may be lost, together with that neighbour: see `C97_plateau_counterexample`. -/
theorem C97_complete_partial (D : Dims) (hD : 0 < D.n0 ∧ 0 < D.n1 ∧ 0 < D.n2) (threshold : G) (img : List G)
    (v : Nat → Nat → Nat → G) (hv : Shows D img v) (map : List Bool) (hc : Clean D map) :
    ∃ map', findPixelCenters D threshold img map = .ok map' ∧
      ∀ i j k, Interior D i j k → threshold * ((D.n0 * D.n1 * D.n2 : Nat) : G) ≤ v i j k →
        Before D v (· < ·) i j k → After D v (· ≤ ·) i j k → Marked D map' i j k := by
  obtain ⟨m1, map', e, hl, h1, h2, h3⟩ := findPixelCenters_ok D hD threshold img hv.1 map hc.1
  refine ⟨map', e, ?_⟩
  intro i j k hI ht hb ha
  have hr := interior_range hI
  refine (h3 _).2 ⟨?_, (margins_spec hI.1.1 hI.2.1.1 hI.2.2.1).2 hI.2⟩
  refine (h2 _ hr.1 (by omega)).2 ⟨(peak_iff hv hI).2 ⟨ht, ⟨fun h => (hb.1 h).le, fun h => (hb.2.1 h).le,
    fun h => (hb.2.2 h).le⟩, ha⟩, ?_⟩
  intro s hs hmk
  by_cases ho : D.idx i j k - s < offset D ∨ D.size - offset D ≤ D.idx i j k - s
  · rw [h1 _ ho] at hmk
    exact clean_out hc ho hmk
  · exact not_marked_before hv hI hb hs ((h2 _ (by omega) (by omega)).1 hmk).1

/-- Two neighbours are never both marked. -/
theorem C97_separated (D : Dims) (hD : 0 < D.n0 ∧ 0 < D.n1 ∧ 0 < D.n2) (threshold : G) (img : List G)
    (hi : img.length = D.size) (map : List Bool) (hc : Clean D map) :
    ∃ map', findPixelCenters D threshold img map = .ok map' ∧
      ∀ i j k, Interior D i j k → Marked D map' i j k →
        (13 ≤ D.n0 → ¬ Marked D map' (i - 1) j k) ∧ (13 ≤ D.n1 → ¬ Marked D map' i (j - 1) k) ∧
        (13 ≤ D.n2 → ¬ Marked D map' i j (k - 1)) := by
  obtain ⟨m1, map', e, hl, h1, h2, h3⟩ := findPixelCenters_ok D hD threshold img hi map hc.1
  refine ⟨map', e, ?_⟩
  intro i j k hI hmk
  have hr := interior_range hI
  have hno := ((h2 _ hr.1 (by omega)).1 ((h3 _).1 hmk).1).2
  obtain ⟨⟨a1, a2⟩, ⟨b1, b2⟩, c1, c2⟩ := hI
  refine ⟨fun h hm => ?_, fun h hm => ?_, fun h hm => ?_⟩
  · have := a2 h
    refine hno _ (mem_steps.2 (Or.inl ⟨h, rfl⟩)) ?_
    rw [idx_pred0 (by omega)]
    exact ((h3 _).1 hm).1
  · have := b2 h
    refine hno _ (mem_steps.2 (Or.inr (Or.inl ⟨h, rfl⟩))) ?_
    rw [idx_pred1 (by omega)]
    exact ((h3 _).1 hm).1
  · have := c2 h
    refine hno _ (mem_steps.2 (Or.inr (Or.inr ⟨h, rfl⟩))) ?_
    rw [idx_pred2 (by omega)]
    exact ((h3 _).1 hm).1

/-- Brightness of a line of 15 pixels: `a` in pixels `u..w`, 0 elsewhere. -/
def plateau (u w : Nat) : List ℚ := (List.range 15).map fun k => if u ≤ k ∧ k ≤ w then 5 else 0

/-- Three pixels with the same brightness, brighter than all the others, are two centers: the third is
marked because the second is not. And a plateau of two pixels of two lines, one of which is in the margin of
the second dimension, is no center at all. -/
theorem C97_plateau_counterexample :
    findPixelCenters (G := ℚ) ⟨1, 1, 15⟩ 0 (plateau 6 8) (List.replicate 15 false) =
      .ok [false, false, false, false, false, false, true, false, true, false, false, false, false, false, false] ∧
    (∃ map' : List Bool, findPixelCenters (G := ℚ) ⟨2, 15, 1⟩ (1 / 30)
        (List.replicate 20 0 ++ [5, 5, 0, 0, 0, 0, 0, 0, 0, 0]) (List.replicate 30 false) = .ok map' ∧
      ∀ p : Nat, map'[p]? ≠ some true) := by
  constructor
  · decide +kernel
  · refine ⟨List.replicate 30 false, by decide +kernel, ?_⟩
    intro p h
    have := (List.getElem?_eq_some_iff.1 h)
    obtain ⟨h1, h2⟩ := this
    rw [List.getElem_replicate] at h2
    exact absurd h2 (by decide)

/-- A line of 15 pixels with a maximum in the middle. -/
example : Clean ⟨1, 1, 15⟩ (List.replicate 15 false) ∧
    findPixelCenters (G := ℚ) ⟨1, 1, 15⟩ (1 / 15) (plateau 7 7) (List.replicate 15 false) =
      .ok ((List.replicate 15 false).set 7 true) := by
  refine ⟨⟨rfl, ?_⟩, by decide +kernel⟩
  intro i j k _ _ _ h
  unfold Marked at h
  obtain ⟨h1, h2⟩ := (List.getElem?_eq_some_iff.1 h)
  rw [List.getElem_replicate] at h2
  exact absurd h2 (by decide)

example : Interior ⟨1, 20, 15⟩ 0 6 8 := by
  unfold Interior Inside
  simp

end Tracker
end Colloids
