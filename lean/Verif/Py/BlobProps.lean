import Mathlib.Tactic.Linarith
import Mathlib.Tactic.Ring
import Mathlib.Tactic.FieldSimp
import Verif.CommonLemmas
import Verif.Index.Lemmas
import Verif.Py.LocalProps
import Verif.Py.BlobModel

/-! # Proofs about the centers of blobs: C240-C241 -/

namespace Colloids
namespace Py
namespace Blob

open Local Matrix

variable {n : Nat}

/-! ## C240 -/

theorem outside_false {d : Fin (n + 1) → ℝ} : outside d = false ↔ ∀ a, |d a| ≤ 1 / 2 := by
  rw [outside, decide_eq_false_iff_not]
  push Not
  rfl

theorem moved_near (c : Fin (n + 1) → ℤ) (d : Fin (n + 1) → ℝ) (a : Fin (n + 1)) : |moved c d a - c a| ≤ 1 := by
  unfold moved
  by_cases h1 : d a > 1 / 2
  · have h2 : ¬ d a < -(1 / 2) := by linarith
    rw [if_pos h1, if_neg h2]
    simp
  · rw [if_neg h1]
    by_cases h2 : d a < -(1 / 2)
    · rw [if_pos h2]
      simp
    · rw [if_neg h2]
      simp

/-- What the loop makes of a center. -/
theorem turn_spec {loc : (Fin (n + 1) → ℤ) → R ((Fin (n + 1) → ℝ) × ℝ)} (hl : ∀ p, ∃ r, loc p = .ok r) (c : Cen n) (hc : loc c.pixel = .ok (c.disp, c.val)) :
    ∃ c', turn loc c = .ok c' ∧
      (c'.pixel = (fun _ => -1) ∨ (loc c'.pixel = .ok (c'.disp, c'.val) ∧ (∀ a, |c'.disp a| ≤ 1 / 2) ∧ ∀ a, |c'.pixel a - c.pixel a| ≤ 1)) ∧
      ((∀ a, |c.disp a| ≤ 1 / 2) → c' = c) := by
  rcases h : outside c.disp with _ | _
  · refine ⟨c, ?_, Or.inr ⟨hc, outside_false.1 h, by simp⟩, fun _ => rfl⟩
    rw [turn, h]
    rfl
  · obtain ⟨r, hr⟩ := hl (moved c.pixel c.disp)
    refine ⟨second c (moved c.pixel c.disp) r.1 r.2, ?_, ?_, ?_⟩
    · rw [turn, h, if_pos rfl, hr]
      rfl
    · rw [second]
      rcases h2 : outside r.1 with _ | _
      · exact Or.inr ⟨hr, outside_false.1 h2, moved_near _ _⟩
      · exact Or.inl rfl
    · intro h3
      rw [outside_false.2 h3] at h
      cases h

theorem run_spec {loc : (Fin (n + 1) → ℤ) → R ((Fin (n + 1) → ℝ) × ℝ)} (hl : ∀ p, ∃ r, loc p = .ok r) (centers : List (Fin (n + 1) → ℤ)) :
    ∃ (f : (Fin (n + 1) → ℤ) → Cen n) (g : Cen n → Cen n), (∀ c, (f c).pixel = c ∧ loc c = .ok ((f c).disp, (f c).val)) ∧
      (∀ c, turn loc (f c) = .ok (g (f c))) ∧ findBlob loc centers = .ok (((centers.map fun c => g (f c)).filter good).map row) := by
  choose r hr using hl
  refine ⟨fun c => ⟨c, (r c).1, (r c).2⟩,
    fun c => if outside c.disp then second c (moved c.pixel c.disp) (r (moved c.pixel c.disp)).1 (r (moved c.pixel c.disp)).2 else c, fun c => ⟨rfl, hr c⟩, ?_, ?_⟩
  · intro c
    simp only [turn, hr, ok_bind, pure_eq_ok]
    split <;> rfl
  · have h1 : centers.mapM (fun c => do let r ← loc c; pure (⟨c, r.1, r.2⟩ : Cen n)) = .ok (centers.map fun c => (⟨c, (r c).1, (r c).2⟩ : Cen n)) :=
      TreeIndex.mapM_ok_of _ _ _ fun c _ => by rw [hr]; rfl
    rw [findBlob, h1, ok_bind]
    rw [TreeIndex.mapM_ok_of (g := fun c : Cen n => if outside c.disp then
      second c (moved c.pixel c.disp) (r (moved c.pixel c.disp)).1 (r (moved c.pixel c.disp)).2 else c)]
    · rw [ok_bind, List.map_map]
      rfl
    · intro c _
      simp only [turn, hr, ok_bind, pure_eq_ok]
      split <;> rfl

/-- C240. The centers given by `find_blob` are inside their pixel: each one has a negative value and is at most half a pixel away, in each direction, from a pixel
where the displacement was computed, and that pixel is a minimum or a neighbour of a minimum. No minimum gives two centers. -/
theorem C240_sound {loc : (Fin (n + 1) → ℤ) → R ((Fin (n + 1) → ℝ) × ℝ)} (hl : ∀ p, ∃ r, loc p = .ok r) (centers : List (Fin (n + 1) → ℤ)) :
    ∃ rows, findBlob loc centers = .ok rows ∧ rows.length ≤ centers.length ∧ ∀ x v, (x, v) ∈ rows →
      v < 0 ∧ ∃ p d, loc p = .ok (d, v) ∧ (∀ a, x a = p a + d a ∧ |x a - p a| ≤ 1 / 2) ∧ ∃ c ∈ centers, ∀ a, |p a - c a| ≤ 1 := by
  obtain ⟨f, g, hf, hg, h⟩ := run_spec hl centers
  refine ⟨_, h, ?_, ?_⟩
  · rw [List.length_map]
    exact (List.length_filter_le _ _).trans (by rw [List.length_map])
  · intro x v hm
    simp only [List.mem_map, List.mem_filter] at hm
    obtain ⟨c', ⟨⟨c, hc, rfl⟩, hgood⟩, he⟩ := hm
    obtain ⟨c'', h1, h2, _⟩ := turn_spec hl (f c) (by rw [(hf c).1]; exact (hf c).2)
    rw [hg, Except.ok.injEq] at h1
    subst h1
    rw [good, Bool.and_eq_true, decide_eq_true_eq, decide_eq_true_eq] at hgood
    rw [row, Prod.mk.injEq] at he
    obtain ⟨rfl, rfl⟩ := he
    rcases h2 with h2 | ⟨h2, h3, h4⟩
    · rw [h2] at hgood
      exact absurd hgood.1 (by norm_num)
    · refine ⟨hgood.2, _, _, h2, fun a => ⟨rfl, ?_⟩, c, hc, ?_⟩
      · simpa using h3 a
      · intro a
        have := h4 a
        rwa [congrFun (hf c).1 a] at this

/-- C240. A minimum whose displacement is at most half a pixel in each direction, with a negative value, gives the center that is expected; it is not moved. -/
theorem C240_kept {loc : (Fin (n + 1) → ℤ) → R ((Fin (n + 1) → ℝ) × ℝ)} (hl : ∀ p, ∃ r, loc p = .ok r) (centers : List (Fin (n + 1) → ℤ))
    (c : Fin (n + 1) → ℤ) (hc : c ∈ centers) (h0 : 0 ≤ c 0) (d : Fin (n + 1) → ℝ) (v : ℝ) (h : loc c = .ok (d, v)) (hd : ∀ a, |d a| ≤ 1 / 2) (hv : v < 0) :
    ∃ rows, findBlob loc centers = .ok rows ∧ ((fun a => c a + d a : Fin (n + 1) → ℝ), v) ∈ rows := by
  obtain ⟨f, g, hf, hg, hr⟩ := run_spec hl centers
  refine ⟨_, hr, ?_⟩
  obtain ⟨c', h1, _, h3⟩ := turn_spec hl (f c) (by rw [(hf c).1]; exact (hf c).2)
  have hd' := (hf c).2
  rw [h, Except.ok.injEq, Prod.mk.injEq] at hd'
  have h4 := h3 (by rw [← hd'.1]; exact hd)
  rw [hg, Except.ok.injEq, h4] at h1
  simp only [List.mem_map, List.mem_filter]
  refine ⟨f c, ⟨⟨c, hc, h1⟩, ?_⟩, ?_⟩
  · rw [good, Bool.and_eq_true, decide_eq_true_eq, decide_eq_true_eq, (hf c).1, ← hd'.2]
    exact ⟨by omega, hv⟩
  · rw [row, (hf c).1, ← hd'.1, ← hd'.2]

example : (∀ p : Fin 3 → ℤ, ∃ r, (fun _ => .ok ((fun _ => 1 / 4), -1) : (Fin 3 → ℤ) → R ((Fin 3 → ℝ) × ℝ)) p = .ok r) ∧
    (fun _ => (1 : ℤ)) ∈ [(fun _ => (1 : ℤ) : Fin 3 → ℤ)] ∧ (∀ a : Fin 3, |(fun _ => 1 / 4 : Fin 3 → ℝ) a| ≤ 1 / 2) :=
  ⟨fun _ => ⟨_, rfl⟩, by simp, fun _ => by norm_num [abs_of_pos]⟩

/-- C240, the part that is false. The centers are not at the minimum, even on a polynomial of degree 2: from a pixel at most 1 pixel away from the minimum in each
direction, the center is given half way between the pixel and the minimum, and the pixel is not changed although the minimum may be in a neighbouring one. -/
theorem C240_half_counterexample (k : ℝ) (g : Fin (n + 1) → ℝ) {H : Matrix (Fin (n + 1)) (Fin (n + 1)) ℝ} (hs : Hᵀ = H) (hd : H.det ≠ 0) (c : Fin (n + 1) → ℤ)
    (x : Fin (n + 1) → ℝ) (hx : g + H *ᵥ x = 0) (h0 : 0 ≤ c 0) (hc : ∀ a, |x a - c a| ≤ 1) (hneg : poly k g H (coord c) < 0)
    (hmin : poly k g H x ≤ poly k g H (coord c)) :
    ∃ y v, findBlob (fun c => localDisp c (fun c => poly k g H (coord c))) [c] = .ok [(y, v)] ∧ ∀ a, y a = (c a + x a) / 2 := by
  obtain ⟨dc, v, h1, _, h3, h4⟩ := C237_half_partial k g hs hd c x hx
  have hdc : ∀ a, |dc a| ≤ 1 / 2 := by
    intro a
    have h5 := hc a
    have h6 := h3 a
    rw [abs_le] at h5 ⊢
    constructor <;> linarith [h5.1, h5.2]
  have hv : v < 0 := by
    have : (0 : ℝ) ≤ 4 ^ n := by positivity
    have h7 : n + 1 - 1 = n := by omega
    rw [h7] at h4
    nlinarith [mul_nonneg this (sub_nonneg.2 hmin)]
  refine ⟨fun a => c a + dc a, v, ?_, fun a => ?_⟩
  · have ht : turn (fun c => localDisp c (fun c => poly k g H (coord c))) ⟨c, dc, v⟩ = .ok ⟨c, dc, v⟩ := by
      rw [turn, outside_false.2 hdc]
      rfl
    have hg : good (⟨c, dc, v⟩ : Cen n) = true := by
      rw [good, Bool.and_eq_true, decide_eq_true_eq, decide_eq_true_eq]
      exact ⟨by show c 0 > -1; omega, hv⟩
    simp only [findBlob, List.mapM_cons, List.mapM_nil, h1, ok_bind, pure_eq_ok, ht, List.filter_cons, hg, if_true, List.filter_nil, List.map_cons, List.map_nil]
    rfl
  · have := h3 a
    simp only
    linarith

/-- C240: what is asked in the counterexample is met by a parabola with a minimum that is a pixel away. -/
example : (1 : Matrix (Fin 1) (Fin 1) ℝ)ᵀ = 1 ∧ (1 : Matrix (Fin 1) (Fin 1) ℝ).det ≠ 0 ∧ (fun _ => -2 : Fin 1 → ℝ) + (1 : Matrix (Fin 1) (Fin 1) ℝ) *ᵥ (fun _ => 2) = 0 ∧
    poly (-9) (fun _ => -2 : Fin 1 → ℝ) 1 (coord fun _ => 1) < 0 ∧
    poly (-9) (fun _ => -2 : Fin 1 → ℝ) 1 (fun _ => 2) ≤ poly (-9) (fun _ => -2 : Fin 1 → ℝ) 1 (coord fun _ => 1) := by
  refine ⟨transpose_one, by simp, ?_, ?_, ?_⟩
  · rw [one_mulVec]
    funext a
    simp
  · simp only [poly, one_mulVec, coord, dotProduct, Finset.univ_unique, Finset.sum_singleton]
    norm_num
  · simp only [poly, one_mulVec, coord, dotProduct, Finset.univ_unique, Finset.sum_singleton]
    norm_num

/-! ## C241 -/

theorem radius_octave (s : ℝ) : radius (s + 3) = 2 * radius s := by
  unfold radius
  rw [show (s + 3) / 3 = s / 3 + 1 by ring, Real.rpow_add (by norm_num), Real.rpow_one]
  ring

/-- C241. In the files of `save_2Dcenters` a blob of the image and a blob of the image with doubled pixels that is twice larger have the same radius; larger scales
have larger radii; the radius of the head is the one at scale 10, so no blob found at a scale up to 7 in the image is larger. -/
theorem C241_radius (r : Row) :
    (∃ a b, centers2D [⟨r.s + 3, r.y, r.x, r.v⟩] [r] = [a, b] ∧ a.r = b.r ∧ a.r = 2 * radius r.s ∧ b.x = r.x ∧ b.y = r.y ∧ b.v = r.v) ∧
    (∀ s s', s < s' → 0 < radius s ∧ radius s < radius s') ∧
    ∀ doubled single : List Row, (∀ q ∈ doubled, q.s ≤ 10) → (∀ q ∈ single, q.s ≤ 7) →
      (head2D doubled single).1.2.1 = doubled.length + single.length ∧ ∀ q ∈ centers2D doubled single, q.r ≤ (head2D doubled single).2.2.2 := by
  have hmono : ∀ s s', s ≤ s' → radius s ≤ radius s' := by
    intro s s' h
    unfold radius
    exact mul_le_mul_of_nonneg_left (Real.rpow_le_rpow_of_exponent_le (by norm_num) (by linarith)) (by positivity)
  have hhead : (1.6 * √2 * (2 : ℝ) ^ ((7 : ℝ) / 3)) = radius 10 := by
    unfold radius
    rw [show ((10 : ℝ) / 3) = 7 / 3 + 1 by norm_num, Real.rpow_add (by norm_num), Real.rpow_one]
    have h2 : √(2 : ℝ) * √2 = 2 := Real.mul_self_sqrt (by norm_num)
    have h3 : √(2 : ℝ) ≠ 0 := by positivity
    field_simp
    nlinarith [h2]
  refine ⟨⟨_, _, rfl, ?_, ?_, ?_, ?_, ?_⟩, ?_, ?_⟩
  · show radius ((r.s + 3) * 1) = radius (r.s + 3)
    rw [mul_one]
  · simp only [mul_one, radius_octave]
  · simp only [add_zero]
  · simp only [add_zero]
  · simp only [add_zero]
  · intro s s' h
    unfold radius
    refine ⟨by positivity, ?_⟩
    exact mul_lt_mul_of_pos_left (Real.rpow_lt_rpow_of_exponent_lt (by norm_num) (by linarith)) (by positivity)
  · intro doubled single h1 h2
    constructor
    · simp [head2D, centers2D]
    · intro q hq
      simp only [centers2D, List.map_append, List.map_map, List.mem_append, List.mem_map, Function.comp_def] at hq
      show q.r ≤ 1.6 * √2 * (2 : ℝ) ^ ((7 : ℝ) / 3)
      rw [hhead]
      rcases hq with ⟨a, ha, rfl⟩ | ⟨a, ha, rfl⟩
      · exact hmono _ _ (by simpa using h1 a ha)
      · exact hmono _ _ (by have := h2 a ha; linarith)

theorem sum_double (f : Nat → ℝ) (w : Nat) : ∑ x ∈ Finset.range (2 * w), f (x / 2) = 2 * ∑ x ∈ Finset.range w, f x := by
  induction w with
  | zero => simp
  | succ w ih =>
    rw [show 2 * (w + 1) = 2 * w + 1 + 1 by ring, Finset.sum_range_succ, Finset.sum_range_succ, ih, Finset.sum_range_succ,
      show (2 * w + 1) / 2 = w by omega, show 2 * w / 2 = w by omega]
    ring

theorem sum_double_mul (f : Nat → ℝ) (w : Nat) :
    ∑ x ∈ Finset.range (2 * w), f (x / 2) * x = 4 * ∑ x ∈ Finset.range w, f x * x + ∑ x ∈ Finset.range w, f x := by
  induction w with
  | zero => simp
  | succ w ih =>
    rw [show 2 * (w + 1) = 2 * w + 1 + 1 by ring, Finset.sum_range_succ, Finset.sum_range_succ, ih, Finset.sum_range_succ, Finset.sum_range_succ,
      show (2 * w + 1) / 2 = w by omega, show 2 * w / 2 = w by omega]
    push_cast
    ring

/-- The total intensity of an image. -/
noncomputable def mass (h w : Nat) (im : Nat → Nat → ℝ) : ℝ := ∑ y ∈ Finset.range h, ∑ x ∈ Finset.range w, im y x

/-- The abscissa of the center of mass. -/
noncomputable def comX (h w : Nat) (im : Nat → Nat → ℝ) : ℝ := (∑ y ∈ Finset.range h, ∑ x ∈ Finset.range w, im y x * x) / mass h w im

/-- The ordinate of the center of mass. -/
noncomputable def comY (h w : Nat) (im : Nat → Nat → ℝ) : ℝ := (∑ y ∈ Finset.range h, (∑ x ∈ Finset.range w, im y x) * y) / mass h w im

/-- C241, the part that is false. A blob found at its center of mass in the image with doubled pixels is not saved at its place: it is a quarter of pixel too far on
both axes. -/
theorem C241_shift_counterexample (h w : Nat) (im : Nat → Nat → ℝ) (hm : mass h w im ≠ 0) (s v : ℝ) :
    ∃ q, centers2D [⟨s, comY (2 * h) (2 * w) (doubledIm im), comX (2 * h) (2 * w) (doubledIm im), v⟩] [] = [q] ∧
      q.x = comX h w im + 1 / 4 ∧ q.y = comY h w im + 1 / 4 := by
  have hmass : mass (2 * h) (2 * w) (doubledIm im) = 4 * mass h w im := by
    unfold mass doubledIm
    simp only [sum_double]
    rw [← Finset.mul_sum, sum_double (fun y => ∑ x ∈ Finset.range w, im y x)]
    ring
  refine ⟨_, rfl, ?_, ?_⟩
  · have hn : ∑ y ∈ Finset.range (2 * h), ∑ x ∈ Finset.range (2 * w), doubledIm im y x * x =
        8 * (∑ y ∈ Finset.range h, ∑ x ∈ Finset.range w, im y x * x) + 2 * mass h w im := by
      unfold doubledIm mass
      simp only [sum_double_mul]
      rw [sum_double (fun y => 4 * ∑ x ∈ Finset.range w, im y x * x + ∑ x ∈ Finset.range w, im y x), Finset.sum_add_distrib, ← Finset.mul_sum]
      ring
    show comX (2 * h) (2 * w) (doubledIm im) * 0.5 = _
    unfold comX
    rw [hn, hmass]
    field_simp
    ring
  · have hn : ∑ y ∈ Finset.range (2 * h), (∑ x ∈ Finset.range (2 * w), doubledIm im y x) * (y : ℝ) =
        8 * (∑ y ∈ Finset.range h, (∑ x ∈ Finset.range w, im y x) * y) + 2 * mass h w im := by
      unfold doubledIm mass
      simp only [sum_double]
      rw [sum_double_mul (fun y => 2 * ∑ x ∈ Finset.range w, im y x) h, ← Finset.mul_sum]
      simp only [mul_assoc]
      rw [← Finset.mul_sum]
      ring
    show comY (2 * h) (2 * w) (doubledIm im) * 0.5 = _
    unfold comY
    rw [hn, hmass]
    field_simp
    ring

/-- C241, the part that is false. The head says 256 pixels by 256 pixels for a slice of any size: a center can be out of the box of its own file. -/
theorem C241_head_counterexample (single : List Row) (r : Row) (hr : r ∈ single) (hx : 256 ≤ r.x) :
    ∃ q ∈ centers2D [] single, ((head2D [] single).2.1 : ℝ) ≤ q.x := by
  refine ⟨⟨r.x + 0, r.y + 0, radius (r.s + 3), r.v + 0⟩, ?_, ?_⟩
  · simp only [centers2D, List.map_nil, List.nil_append, List.map_map, List.mem_map, Function.comp_def]
    exact ⟨r, hr, rfl⟩
  · show (((256 : Nat)) : ℝ) ≤ r.x + 0
    push_cast
    linarith

example : mass 1 1 (fun _ _ => 1) ≠ 0 := by simp [mass]

end Blob
end Py
end Colloids
