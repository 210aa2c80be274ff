import Verif.Py.SqRectProps
import Verif.Py.PairRdfProps

/-! # C223: windows of python/colloids/particles.py:404-413, 612-647 -/

namespace Colloids
namespace Py
namespace Sq

open Pairs (list_sum_range fold_add modifyR_bins bin_iff bin_lt not_bin)

/-- The Hann window on a segment of length `L`: zero at both ends, one in the middle. -/
noncomputable def hann (L x : ℝ) : ℝ := 1 / 2 * (1 - Real.cos (2 * Real.pi * x / L))

theorem sf_eq {Ls : Fin 3 → ℝ} {perm : Fin 3 → Fin 3} (h : Sides Ls perm) {pos : List (Fin 3 → ℝ)} {field : List ℝ} (hf : field.length = pos.length)
    (N maxNvec : Nat) (hm : maxNvec % 3 = 0) (hpos : 0 < maxNvec) : structureFactor perm pos N Ls maxNvec field =
      .ok ((List.range N).map fun nk => (if nk = 0 then 0 else meanSq (Ls ∘ perm) ((pos.map (· ∘ perm)).zip
        (List.zipWith (· * ·) field (pos.map (sfWindow Ls)))) (generateKvecRect nk (fun a => (Ls ∘ perm) a ^ 2) maxNvec)) /
          ((pos.map fun x => sfWindow Ls x ^ 2).sum / pos.length)) := by
  rw [structureFactor, if_neg (by simpa using hf), rect_eq h (by simp [hf]) N maxNvec hm hpos, ok_bind, List.map_map]
  rfl

/-- C223: the structure factor of a non periodic box is nowhere negative, and is 1 in all the bins but the first one for a particle alone whose weight
is not zero. -/
theorem C223_factor_partial {Ls : Fin 3 → ℝ} {perm : Fin 3 → Fin 3} (h : Sides Ls perm) (N maxNvec : Nat) (hm : maxNvec % 3 = 0) (hpos : 0 < maxNvec) :
    (∀ (pos : List (Fin 3 → ℝ)) (field : List ℝ), field.length = pos.length →
      ∃ S, structureFactor perm pos N Ls maxNvec field = .ok S ∧ S.length = N ∧ ∀ s ∈ S, 0 ≤ s) ∧
    ∀ x, sfWindow Ls x ≠ 0 → structureFactor perm [x] (N + 1) Ls maxNvec [1] = .ok (0 :: List.replicate N 1) := by
  constructor
  · intro pos field hf
    refine ⟨_, sf_eq h hf N maxNvec hm hpos, by simp, fun s hs => ?_⟩
    obtain ⟨nk, -, rfl⟩ := List.mem_map.1 hs
    refine div_nonneg ?_ (div_nonneg (List.sum_nonneg fun y hy => ?_) (by positivity))
    · split_ifs
      · exact le_refl _
      · exact meanSq_nonneg _ _ _
    · obtain ⟨x, -, rfl⟩ := List.mem_map.1 hy
      positivity
  · intro x hx
    rw [sf_eq h rfl (N + 1) maxNvec hm hpos]
    congr 1
    rw [List.range_succ_eq_map, List.map_cons, if_pos rfl, List.map_map, zero_div]
    congr 1
    refine List.eq_replicate_iff.2 ⟨by simp, fun b hb => ?_⟩
    obtain ⟨nk, -, rfl⟩ := List.mem_map.1 hb
    simp only [Function.comp_apply, Nat.succ_ne_zero, if_false, List.map_cons, List.map_nil, List.zipWith_cons_cons, List.zipWith_nil_left,
      List.zip_cons_cons, List.zip_nil_right]
    rw [meanSq_one _ _ _ (by exact (h.all maxNvec hpos _ (Nat.succ_pos nk)).1)]
    simp [hx]

/-- C223: the window is not the one of Hann but that one displaced by a quarter of the box: a particle at the middle of the box, or at any of its corners, has
the weight 1/8, the largest weight is at the first quarter, and the weight is zero at the third quarter of any axis, inside the box. -/
theorem C223_hann_counterexample {Ls : Fin 3 → ℝ} (hL : ∀ a, 0 < Ls a) (x : Fin 3 → ℝ) :
    sfWindow Ls x = ∏ a, hann (Ls a) (x a + Ls a / 4) ∧ ((∀ a, x a = 0 ∨ x a = Ls a / 2 ∨ x a = Ls a) → sfWindow Ls x = 1 / 8) ∧
      ((∀ a, x a = Ls a / 4) → sfWindow Ls x = 1) ∧ ((∃ a, x a = 3 / 4 * Ls a) → sfWindow Ls x = 0) := by
  refine ⟨?_, ?_, ?_, ?_⟩
  · unfold sfWindow hann
    refine Finset.prod_congr rfl fun a _ => ?_
    have h := (hL a).ne'
    have : 2 * Real.pi * (x a + Ls a / 4) / Ls a = 2 * Real.pi * x a / Ls a + Real.pi / 2 := by field_simp; ring
    rw [this, Real.cos_add_pi_div_two, sub_neg_eq_add]
  · intro hx
    have : ∀ a, Real.sin (2 * Real.pi * x a / Ls a) = 0 := by
      intro a
      have h := (hL a).ne'
      rcases hx a with e | e | e
      · rw [e]; simp
      · have : 2 * Real.pi * x a / Ls a = Real.pi := by rw [e]; field_simp
        rw [this, Real.sin_pi]
      · have : 2 * Real.pi * x a / Ls a = 2 * Real.pi := by rw [e]; field_simp
        rw [this, Real.sin_two_pi]
    unfold sfWindow
    simp only [this, Fin.prod_univ_three]
    norm_num
  · intro hx
    have : ∀ a, Real.sin (2 * Real.pi * x a / Ls a) = 1 := by
      intro a
      have h := (hL a).ne'
      have : 2 * Real.pi * x a / Ls a = Real.pi / 2 := by rw [hx a]; field_simp; ring
      rw [this, Real.sin_pi_div_two]
    unfold sfWindow
    simp only [this, Fin.prod_univ_three]
    norm_num
  · rintro ⟨a, ha⟩
    unfold sfWindow
    refine Finset.prod_eq_zero (Finset.mem_univ a) ?_
    have h := (hL a).ne'
    have : 2 * Real.pi * x a / Ls a = Real.pi / 2 + Real.pi := by rw [ha]; field_simp; ring
    rw [this, Real.sin_add_pi, Real.sin_pi_div_two]
    norm_num

/-- C223: so a particle at the third quarter of an axis is not seen at all: with one other, the structure factor is 1 in all bins. -/
theorem C223_unseen_counterexample {Ls : Fin 3 → ℝ} {perm : Fin 3 → Fin 3} (h : Sides Ls perm) (hL : ∀ a, 0 < Ls a) (N maxNvec : Nat)
    (hm : maxNvec % 3 = 0) (hpos : 0 < maxNvec) (x y : Fin 3 → ℝ) (hx : ∃ a, x a = 3 / 4 * Ls a) (hy : sfWindow Ls y ≠ 0) :
    structureFactor perm [x, y] (N + 1) Ls maxNvec [1, 1] = .ok (0 :: List.replicate N 1) := by
  have hx0 := (C223_hann_counterexample hL x).2.2.2 hx
  rw [sf_eq h rfl (N + 1) maxNvec hm hpos]
  congr 1
  rw [List.range_succ_eq_map, List.map_cons, if_pos rfl, List.map_map, zero_div]
  congr 1
  refine List.eq_replicate_iff.2 ⟨by simp, fun b hb => ?_⟩
  obtain ⟨nk, -, rfl⟩ := List.mem_map.1 hb
  have hv := (h.all maxNvec hpos _ (Nat.succ_pos nk)).1
  have hl : (0 : ℝ) < (generateKvecRect (nk + 1) (fun a => (Ls ∘ perm) a ^ 2) maxNvec).length := by exact_mod_cast List.length_pos_iff.2 hv
  simp only [Function.comp_apply, Nat.succ_ne_zero, if_false, List.map_cons, List.map_nil, List.zipWith_cons_cons, List.zipWith_nil_left,
    List.zip_cons_cons, List.zip_nil_right, hx0]
  unfold meanSq
  have : ∀ (vs : List (Nat × Nat × Nat)), (vs.map fun k => Complex.normSq ([((x ∘ perm), (1 : ℝ) * 0), ((y ∘ perm), 1 * sfWindow Ls y)].map
      fun z : (Fin 3 → ℝ) × ℝ => (z.2 : ℂ) * wave (Ls ∘ perm) k z.1).sum) = vs.map fun _ => sfWindow Ls y ^ 2 := by
    intro vs
    refine List.map_congr_left fun k _ => ?_
    simp [norm_wave, Complex.normSq_ofReal, sq]
  rw [this]
  simp only [List.map_const', List.sum_replicate, nsmul_eq_mul, List.length_cons, List.length_nil, List.sum_cons, List.sum_nil]
  simp only [Function.comp_apply] at hl ⊢
  field_simp
  norm_num

example : structureFactor id [fun _ => 3 / 4 * 203, fun _ => 203 / 4] 3 (fun _ => 203) 30 [1, 1] = .ok [0, 1, 1] :=
  C223_unseen_counterexample (Ls := fun _ => 203) (perm := id) ⟨le_refl _, le_refl _, by norm_num, by norm_num⟩ (by norm_num) 2 30 rfl (by norm_num) _ _
    ⟨0, rfl⟩ (by rw [(C223_hann_counterexample (Ls := fun _ => 203) (by norm_num) _).2.2.1 (by simp)]; norm_num)

/-! ## Radial distribution function with a window -/

/-- For two points of the box, the squared distance to the nearest periodic image. -/
theorem C223_distance {lo hi x y : Fin 3 → ℝ} (hx : ∀ a, lo a ≤ x a ∧ x a < hi a) (hy : ∀ a, lo a ≤ y a ∧ y a < hi a) :
    wrapSq lo hi x y = ∑ a, (min |y a - x a| ((hi a - lo a) - |y a - x a|)) ^ 2 := by
  unfold wrapSq
  refine Finset.sum_congr rfl fun a _ => ?_
  obtain ⟨x1, x2⟩ := hx a
  obtain ⟨y1, y2⟩ := hy a
  set L := hi a - lo a with hLdef
  set D := y a - x a with hD
  have hL : 0 < L := by linarith
  have hD1 : -L < D := by linarith
  have hD2 : D < L := by linarith
  have h0 : 0 ≤ (D + 3 / 2 * L) / L := by
    have : 0 ≤ D + 3 / 2 * L := by linarith
    positivity
  have hfl : ∀ n : Int, (n : ℝ) * L ≤ D + 3 / 2 * L → D + 3 / 2 * L < ((n : ℝ) + 1) * L → fmodR (D + 3 / 2 * L) L = D + 3 / 2 * L - L * n := by
    intro n h1 h2
    unfold fmodR truncZ
    rw [if_pos h0]
    have : ⌊(D + 3 / 2 * L) / L⌋ = n := by
      rw [Int.floor_eq_iff, le_div_iff₀ hL, div_lt_iff₀ hL]
      exact ⟨h1, h2⟩
    rw [this]
  rcases lt_or_ge D (-(1 / 2) * L) with c1 | c1
  · rw [hfl 0 (by push_cast; linarith) (by push_cast; linarith), abs_of_neg (by linarith), min_eq_right (by linarith)]
    push_cast; ring
  · rcases lt_or_ge D (1 / 2 * L) with c2 | c2
    · rw [hfl 1 (by push_cast; linarith) (by push_cast; linarith)]
      have : |D| ≤ L - |D| := by
        have : |D| ≤ 1 / 2 * L := abs_le.2 ⟨by linarith, c2.le⟩
        linarith
      rw [min_eq_left this, sq_abs]
      push_cast; ring
    · rw [hfl 2 (by push_cast; linarith) (by push_cast; linarith), abs_of_nonneg (by linarith), min_eq_right (by linarith)]
      push_cast; ring

/-- A pair at squared distance `d2` is in bin `b`. -/
def InB (N : Nat) (m d2 : ℝ) (b : Nat) : Prop := (b : ℝ) * (m / N) ≤ Real.sqrt d2 ∧ Real.sqrt d2 < ((b : ℝ) + 1) * (m / N)

open Classical in
theorem windowPair_eq {N : Nat} {m : ℝ} (hN : 0 < N) (hm : 0 < m) (lo hi x y : Fin 3 → ℝ) (f : Nat → ℝ) :
    windowPair N m lo hi x ((List.range N).map f) y =
      .ok ((List.range N).map fun b => f b + if InB N m (wrapSq lo hi x y) b then rdfWeight lo hi x else 0) := by
  unfold windowPair
  split_ifs with h
  · congr 1
    refine List.map_congr_left fun b hb => ?_
    rw [if_neg fun h' => not_bin hN hm h (List.mem_range.1 hb) h'.2, add_zero]
  · rw [modifyR_bins (bin_lt hN (not_le.1 h))]
    congr 1
    refine List.map_congr_left fun b _ => ?_
    congr 1
    exact if_congr (bin_iff hN hm b) rfl rfl

open Classical in
/-- C223: each bin of `get_rdf_window` is the sum, over the pairs whose distance is in the bin, of the weight of the particle that comes first. -/
theorem C223_pairs_partial (pos : List (Fin 3 → ℝ)) (lo hi : Fin 3 → ℝ) {N : Nat} {maxdist : ℝ} (hN : 0 < N) (hm : 0 < maxdist) :
    getRdfWindow pos lo hi N maxdist = .ok ((List.range N).map fun (b : Nat) => ∑ i ∈ Finset.range pos.length, ∑ j ∈ Finset.range pos.length,
      if i < j ∧ ∃ x y, pos[i]? = some x ∧ pos[j]? = some y ∧ (b : ℝ) * (maxdist / N) ≤ Real.sqrt (wrapSq lo hi x y) ∧
        Real.sqrt (wrapSq lo hi x y) < ((b : ℝ) + 1) * (maxdist / N) then rdfWeight lo hi (pos.getD i 0) else 0) := by
  have key : ∀ (pos : List (Fin 3 → ℝ)) (f : Nat → ℝ), windowLoop N maxdist lo hi pos ((List.range N).map f) =
      .ok ((List.range N).map fun b => f b + ∑ i ∈ Finset.range pos.length, ∑ j ∈ Finset.range pos.length,
      if i < j ∧ ∃ x y, pos[i]? = some x ∧ pos[j]? = some y ∧ InB N maxdist (wrapSq lo hi x y) b then rdfWeight lo hi (pos.getD i 0) else 0) := by
    intro pos
    induction pos with
    | nil => intro f; simp [windowLoop]
    | cons x xs ih =>
      intro f
      rw [windowLoop, fold_add N (windowPair N maxdist lo hi x) (fun y b => if InB N maxdist (wrapSq lo hi x y) b then rdfWeight lo hi x else 0) xs
        (fun y _ f => windowPair_eq hN hm lo hi x y f) f, ok_bind, ih]
      congr 1
      refine List.map_congr_left fun b _ => ?_
      rw [add_assoc]
      congr 1
      rw [List.length_cons, Finset.sum_range_succ', add_comm]
      congr 1
      · refine Finset.sum_congr rfl fun i _ => ?_
        rw [Finset.sum_range_succ']
        simp
      · rw [Finset.sum_range_succ']
        have : (xs.map fun y => if InB N maxdist (wrapSq lo hi x y) b then rdfWeight lo hi x else 0) =
            (List.range xs.length).map fun j => if InB N maxdist (wrapSq lo hi x (xs.getD j 0)) b then rdfWeight lo hi x else 0 := by
          refine List.ext_getElem (by simp) fun k h1 h2 => ?_
          have hk : k < xs.length := by simpa using h1
          simp [hk]
        rw [this, list_sum_range]
        simp only [lt_irrefl, false_and, if_false, add_zero]
        refine Finset.sum_congr rfl fun j hj => ?_
        have hj := Finset.mem_range.1 hj
        simp [hj]
  have h0 : List.replicate N (0 : ℝ) = (List.range N).map fun _ => 0 := by simp
  rw [getRdfWindow, h0, key]
  simp only [zero_add]
  rfl

/-- C223: the result depends on the order of the particles: the weight of the second one of a pair does not matter. -/
theorem C223_order_counterexample : ∃ x y : Fin 3 → ℝ, getRdfWindow [x, y] 0 1 1 1 = .ok [0] ∧ getRdfWindow [y, x] 0 1 1 1 = .ok [1 / 8] := by
  classical
  have hw0 : rdfWeight 0 1 (fun _ => 1 / 4) = 0 := by
    unfold rdfWeight
    have : 2 * Real.pi * ((1 : ℝ) / 4 - 0) / (1 - 0) = Real.pi / 2 := by ring
    simp only [Pi.zero_apply, Pi.one_apply]
    rw [this, Real.sin_pi_div_two]; simp
  have hw1 : rdfWeight 0 1 (fun _ => 1 / 2) = 1 / 8 := by
    unfold rdfWeight
    have : 2 * Real.pi * ((1 : ℝ) / 2 - 0) / (1 - 0) = Real.pi := by ring
    simp only [Pi.zero_apply, Pi.one_apply]
    rw [this, Real.sin_pi, Fin.prod_univ_three]; norm_num
  have hd1 : wrapSq 0 1 (fun _ => 1 / 4) (fun _ => 1 / 2) = 3 / 16 := by
    rw [C223_distance (by intro a; simp; norm_num) (by intro a; simp; norm_num), Fin.sum_univ_three]
    norm_num [abs_of_pos]
  have hd2 : wrapSq 0 1 (fun _ => 1 / 2) (fun _ => 1 / 4) = 3 / 16 := by
    rw [C223_distance (by intro a; simp; norm_num) (by intro a; simp; norm_num), Fin.sum_univ_three]
    norm_num [abs_of_pos]
  have hb : InB 1 1 (3 / 16) 0 := by
    refine ⟨by rw [Nat.cast_zero, zero_mul]; exact Real.sqrt_nonneg _, ?_⟩
    rw [Real.sqrt_lt' (by norm_num)]; norm_num
  refine ⟨fun _ => 1 / 4, fun _ => 1 / 2, ?_, ?_⟩
  · have := windowPair_eq (N := 1) (m := 1) one_pos one_pos 0 1 (fun _ => 1 / 4) (fun _ => 1 / 2) (fun _ => 0)
    rw [hd1, hw0] at this
    simp at this
    simp [getRdfWindow, windowLoop, this, pure_eq_ok, ok_bind]
  · have := windowPair_eq (N := 1) (m := 1) one_pos one_pos 0 1 (fun _ => 1 / 2) (fun _ => 1 / 4) (fun _ => 0)
    rw [hd2, hw1] at this
    simp [hb] at this
    simp [getRdfWindow, windowLoop, this, pure_eq_ok, ok_bind]

end Sq
end Py
end Colloids
