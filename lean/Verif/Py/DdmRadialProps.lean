import Mathlib.Data.ZMod.ValMinAbs
import Verif.Py.DdmProps

/-!
# Radial average of `python/colloids/ddm.py`
-/

namespace Colloids
namespace Py
namespace Ddm

open Colloids.Py.PhaseCor

variable {m n : Nat} [NeZero m] [NeZero n]

/-- frequencies are the signed coordinates on the torus, divided by the size -/
theorem fftfreq_sq (N : Nat) [NeZero N] (x : ZMod N) : fftfreq N x.val ^ 2 = ((x.valMinAbs : ℝ) / N) ^ 2 := by
  have hN : 0 < N := Nat.pos_of_ne_zero (NeZero.ne N)
  have hlt := ZMod.val_lt x
  unfold fftfreq
  rw [ZMod.valMinAbs_def_pos]
  by_cases h1 : x.val < (N - 1) / 2 + 1
  · rw [if_pos h1, if_pos (by omega)]
    push_cast
    rfl
  · rw [if_neg h1]
    by_cases h2 : x.val ≤ N / 2
    · rw [if_pos h2]
      have : N = 2 * x.val := by omega
      have h3 : (N : ℝ) = 2 * x.val := by exact_mod_cast this
      push_cast
      rw [h3]
      ring
    · rw [if_neg h2]
      push_cast
      rfl

theorem bins_length (m n : Nat) : (bins m n).length = max m n / 2 := by simp [bins]

theorem bins_getD (m n k : Nat) (hk : k < max m n / 2) : (bins m n).getD k 0 = (k : ℝ) / (max m n : Nat) := by
  unfold bins
  rw [List.getD_eq_getElem?_getD, List.getElem?_map, List.getElem?_range hk]
  simp only [Option.map_some, Option.getD_some]
  unfold fftfreq
  rw [if_pos (by omega)]

/-- squared distance of a pixel of the spectrum, in units of the finest frequency -/
noncomputable def sqFreq (x : ZMod m) (y : ZMod n) : ℝ :=
  ((max m n : Nat) : ℝ) ^ 2 * (((x.valMinAbs : ℝ) / m) ^ 2 + ((y.valMinAbs : ℝ) / n) ^ 2)

/-- ring `k` of the spectrum: distances from `k` to `k + 1`; both ends for the last one -/
def Ring (k : Nat) (x : ZMod m) (y : ZMod n) : Prop :=
  (k : ℝ) ^ 2 ≤ sqFreq x y ∧ (sqFreq x y < ((k : ℝ) + 1) ^ 2 ∨ (k + 2 = max m n / 2 ∧ sqFreq x y = ((k : ℝ) + 1) ^ 2))

theorem inBin_iff (k : Nat) (hk : k + 1 < max m n / 2) (x : ZMod m) (y : ZMod n) :
    inBin (bins m n) k (dists x y) = true ↔ Ring k x y := by
  have hM : (0 : ℝ) < (max m n : Nat) := by
    have : 0 < max m n := by omega
    exact_mod_cast this
  unfold inBin Ring
  rw [bins_length, bins_getD m n k (by omega), bins_getD m n (k + 1) hk]
  unfold dists sqFreq
  rw [fftfreq_sq, fftfreq_sq]
  generalize hq : ((x.valMinAbs : ℝ) / m) ^ 2 + ((y.valMinAbs : ℝ) / n) ^ 2 = q
  have hq0 : 0 ≤ q := hq ▸ by positivity
  generalize ((max m n : Nat) : ℝ) = M at hM
  have e1 : (k : ℝ) / M ≤ √q ↔ (k : ℝ) ^ 2 ≤ M ^ 2 * q := by
    rw [Real.le_sqrt (show (0 : ℝ) ≤ (k : ℝ) / M by positivity), div_pow, div_le_iff₀ (by positivity), mul_comm q]
    exact hq0
  have e2 : √q < ((k + 1 : Nat) : ℝ) / M ↔ M ^ 2 * q < ((k : ℝ) + 1) ^ 2 := by
    rw [Real.sqrt_lt' (by positivity), div_pow, lt_div_iff₀ (by positivity), mul_comm q]
    push_cast
    rfl
  have e3 : √q ≤ ((k + 1 : Nat) : ℝ) / M ↔ M ^ 2 * q ≤ ((k : ℝ) + 1) ^ 2 := by
    rw [Real.sqrt_le_left (by positivity), div_pow, le_div_iff₀ (by positivity), mul_comm q]
    push_cast
    rfl
  rw [Bool.and_eq_true, decide_eq_true_iff, e1]
  refine and_congr_right fun _ => ?_
  by_cases hl : k + 2 = max m n / 2
  · rw [if_pos hl, decide_eq_true_iff, e3, le_iff_lt_or_eq]
    simp [hl]
  · rw [if_neg hl, decide_eq_true_iff, e2]
    simp [hl]

theorem ring_nonempty (k : Nat) (hk : k + 1 < max m n / 2) : ∃ (x : ZMod m) (y : ZMod n), Ring k x y := by
  have hm : (m : ℝ) ≠ 0 := by exact_mod_cast NeZero.ne m
  have hn : (n : ℝ) ≠ 0 := by exact_mod_cast NeZero.ne n
  have key : ∀ q : ℝ, q = (k : ℝ) ^ 2 → (k : ℝ) ^ 2 ≤ q ∧ (q < ((k : ℝ) + 1) ^ 2 ∨ (k + 2 = max m n / 2 ∧ q = ((k : ℝ) + 1) ^ 2)) := by
    rintro q rfl
    exact ⟨le_rfl, Or.inl (by have : (0 : ℝ) ≤ k := k.cast_nonneg; nlinarith)⟩
  rcases le_total n m with h | h
  · rw [max_eq_left h] at hk
    refine ⟨(k : ZMod m), 0, key _ ?_⟩
    unfold sqFreq
    rw [ZMod.valMinAbs_natCast_of_le_half (by omega), max_eq_left h, ZMod.valMinAbs_zero]
    push_cast
    field_simp
    ring
  · rw [max_eq_right h] at hk
    refine ⟨0, (k : ZMod n), key _ ?_⟩
    unfold sqFreq
    rw [ZMod.valMinAbs_natCast_of_le_half (by omega), max_eq_right h, ZMod.valMinAbs_zero]
    push_cast
    field_simp
    ring

open Classical in
/-- **C201** The radial average has a value for each ring of width the finest frequency of the spectrum; no ring is empty and the value is the mean over
the pixels of the ring. -/
theorem C201_mean (im : Img m n) :
    (radial im).length = max m n / 2 - 1 ∧ ∀ k, k + 1 < max m n / 2 →
      ∃ S : Finset (ZMod m × ZMod n), (∀ p, p ∈ S ↔ Ring k p.1 p.2) ∧ S.Nonempty ∧
        (radial im)[k]? = some (some ((∑ p ∈ S, im p.1 p.2) / S.card)) := by
  constructor
  · simp [radial, histogram, bins_length]
  · intro k hk
    refine ⟨Finset.univ.filter fun p => Ring k p.1 p.2, by simp, ?_, ?_⟩
    · obtain ⟨x, y, h⟩ := ring_nonempty (m := m) (n := n) k hk
      exact ⟨(x, y), by simpa using h⟩
    · have hist : ∀ f : Img m n, (histogram (bins m n) f)[k]? =
          some (∑ p ∈ Finset.univ.filter (fun p : ZMod m × ZMod n => Ring k p.1 p.2), f p.1 p.2) := by
        intro f
        unfold histogram
        rw [List.getElem?_map, List.getElem?_range (by rw [bins_length]; omega), Option.map_some]
        congr 1
        rw [Finset.sum_filter, Fintype.sum_prod_type]
        refine Finset.sum_congr rfl fun x _ => Finset.sum_congr rfl fun y _ => ?_
        have := inBin_iff k hk x y
        by_cases h : Ring k x y
        · rw [if_pos h, if_pos (this.2 h)]
        · rw [if_neg h, if_neg (fun h' => h (this.1 h'))]
      have hcard : (∑ p ∈ Finset.univ.filter (fun p : ZMod m × ZMod n => Ring k p.1 p.2), (1 : ℝ)) =
          (Finset.univ.filter (fun p : ZMod m × ZMod n => Ring k p.1 p.2)).card := by
        simp
      obtain ⟨x, y, h⟩ := ring_nonempty (m := m) (n := n) k hk
      have hpos : (0 : ℝ) < (Finset.univ.filter (fun p : ZMod m × ZMod n => Ring k p.1 p.2)).card := by
        have : 0 < (Finset.univ.filter (fun p : ZMod m × ZMod n => Ring k p.1 p.2)).card :=
          Finset.card_pos.2 ⟨(x, y), by simpa using h⟩
        exact_mod_cast this
      unfold radial
      dsimp only
      have hz : ((histogram (bins m n) im).zip (histogram (m := m) (n := n) (bins m n) fun _ _ => 1))[k]? =
          some (∑ p ∈ Finset.univ.filter (fun p : ZMod m × ZMod n => Ring k p.1 p.2), im p.1 p.2,
            ∑ p ∈ Finset.univ.filter (fun p : ZMod m × ZMod n => Ring k p.1 p.2), (1 : ℝ)) :=
        List.getElem?_zip_eq_some.2 ⟨hist im, hist fun _ _ => 1⟩
      rw [List.getElem?_map, hz]
      simp only [Option.map_some]
      rw [hcard, if_neg hpos.ne']

/-- **C201** The average of a spectrum that is a function of the ring is that function. -/
theorem C201_isotropic (im : Img m n) (f : Nat → ℝ) (h : ∀ k x y, Ring k x y → im x y = f k) :
    radial im = (List.range (max m n / 2 - 1)).map fun k => some (f k) := by
  obtain ⟨h1, h2⟩ := C201_mean im
  refine List.ext_getElem? fun k => ?_
  by_cases hk : k + 1 < max m n / 2
  · obtain ⟨S, s1, s2, s3⟩ := h2 k hk
    rw [s3, List.getElem?_map, List.getElem?_range (by omega)]
    have : ∑ p ∈ S, im p.1 p.2 = S.card * f k := by
      have e : ∀ p ∈ S, im p.1 p.2 = f k := fun p hp => h k p.1 p.2 ((s1 p).1 hp)
      rw [Finset.sum_congr rfl e, Finset.sum_const, nsmul_eq_mul]
    have hc : (S.card : ℝ) ≠ 0 := by exact_mod_cast (Finset.card_pos.2 s2).ne'
    rw [this, mul_div_cancel_left₀ _ hc]
    rfl
  · rw [List.getElem?_eq_none (by omega), List.getElem?_eq_none (by simp; omega)]

/-- **C201** Higher frequencies are lost: two spectra that only differ farther than the last ring have the same average. -/
theorem C201_lost (im im' : Img m n)
    (h : ∀ x y, sqFreq x y ≤ ((max m n / 2 - 1 : Nat) : ℝ) ^ 2 → im x y = im' x y) : radial im = radial im' := by
  obtain ⟨h1, h2⟩ := C201_mean im
  obtain ⟨h1', h2'⟩ := C201_mean im'
  refine List.ext_getElem? fun k => ?_
  by_cases hk : k + 1 < max m n / 2
  · obtain ⟨S, s1, -, s3⟩ := h2 k hk
    obtain ⟨S', s1', -, s3'⟩ := h2' k hk
    have e : S = S' := Finset.ext fun p => (s1 p).trans (s1' p).symm
    subst e
    rw [s3, s3']
    congr 3
    refine Finset.sum_congr rfl fun p hp => h _ _ ?_
    have hr := ((s1 p).1 hp).2
    have hle : sqFreq p.1 p.2 ≤ ((k : ℝ) + 1) ^ 2 := by
      rcases hr with hr | hr
      · exact hr.le
      · exact hr.2.le
    refine hle.trans (pow_le_pow_left₀ (by positivity) ?_ 2)
    have : k + 1 ≤ max m n / 2 - 1 := by omega
    exact_mod_cast this
  · rw [List.getElem?_eq_none (by omega), List.getElem?_eq_none (by omega)]

/-- **C201** `ddm` of two images or more: for each interval, the radial average of the time average; all the values are numbers. -/
theorem C201_ddm {uniq : List Int → List Int} (hu : Micro.Uniques uniq) (images : List (Img m n)) (navmax num : Nat)
    (hL : 2 ≤ images.length) (hn : 0 < navmax) (hnum : 0 < num) :
    ∃ (dts : List Int) (D : List (List (Option ℝ))), ddm uniq images navmax num = .ok (dts, D) ∧ logSpaced uniq images.length num = .ok dts ∧ D.length = dts.length ∧
      ∀ (i : Nat) (d : Int), dts[i]? = some d → ∃ im, timeAveraged images d.toNat navmax = .ok (some im) ∧ D[i]? = some (radial im) ∧
        ∀ v ∈ radial im, v ≠ none := by
  obtain ⟨dts, h1, -, -, h4, -⟩ := C200_intervals hu images.length num hL hnum
  unfold ddm
  rw [h1, ok_bind]
  have hall : ∀ d ∈ dts, ∃ im, timeAveraged images d.toNat navmax = .ok (some im) := by
    intro d hd
    obtain ⟨h5, h6⟩ := h4 d hd
    obtain ⟨im, h7, -⟩ := C200_average images d.toNat navmax hn (by omega)
    exact ⟨im, h7⟩
  choose! f hf using hall
  have hm : (dts.mapM fun (dt : Int) => do
      let a ← timeAveraged images dt.toNat navmax
      (.ok (radialOpt a) : Colloids.R (List (Option ℝ)))) =
      .ok (dts.map fun d => radial (f d)) := by
    refine TreeIndex.mapM_ok_of _ _ _ fun d hd => ?_
    rw [hf d hd, ok_bind]
    rfl
  rw [hm, ok_bind]
  refine ⟨_, _, rfl, rfl, by simp, ?_⟩
  intro i d hd
  have hd' := List.mem_of_getElem? hd
  refine ⟨f d, hf d hd', by rw [List.getElem?_map, hd]; rfl, ?_⟩
  intro v hv
  obtain ⟨k, hk⟩ := List.mem_iff_getElem?.1 hv
  obtain ⟨q1, q2⟩ := C201_mean (f d)
  have hk' : k < (radial (f d)).length := (List.getElem?_eq_some_iff.1 hk).1
  obtain ⟨S, -, -, s3⟩ := q2 k (by omega)
  rw [hk, Option.some.injEq] at s3
  rw [s3]
  exact Option.some_ne_none _

/-- **C201** If nothing moves, all the values are zero. -/
theorem C201_static {uniq : List Int → List Int} (hu : Micro.Uniques uniq) (im : Img m n) (L navmax num : Nat)
    (hL : 2 ≤ L) (hn : 0 < navmax) (hnum : 0 < num) :
    ∃ dts D, ddm uniq (List.replicate L im) navmax num = .ok (dts, D) ∧ ∀ line ∈ D, ∀ v ∈ line, v = some 0 := by
  obtain ⟨dts, D, h1, h2, h3, h4⟩ := C201_ddm hu (List.replicate L im) navmax num (by simpa using hL) hn hnum
  refine ⟨dts, D, h1, ?_⟩
  intro ln hl v hv
  obtain ⟨i, hi⟩ := List.mem_iff_getElem?.1 hl
  have hi' : i < dts.length := by rw [← h3]; exact (List.getElem?_eq_some_iff.1 hi).1
  obtain ⟨a, h5, h6, -⟩ := h4 i dts[i] (List.getElem?_eq_getElem hi')
  obtain ⟨dts', g1, -, -, g4, -⟩ := C200_intervals hu L num hL hnum
  rw [List.length_replicate] at h2
  rw [g1, Except.ok.injEq] at h2
  subst h2
  have g5 := g4 _ (List.getElem_mem hi')
  obtain ⟨a', h7, h8⟩ := C200_average (List.replicate L im) (dts'[i]).toNat navmax hn (by simp; omega)
  rw [h7, Except.ok.injEq, Option.some.injEq] at h5
  subst h5
  have hz : a' = fun _ _ => 0 := by
    funext k l
    rw [h8]
    have : ((couples ((List.replicate L im).length - (dts'[i]).toNat) navmax).map fun t =>
        spectreDiff ((List.replicate L im).getD t fun _ _ => 0) ((List.replicate L im).getD (t + (dts'[i]).toNat) fun _ _ => 0) k l) =
        (couples ((List.replicate L im).length - (dts'[i]).toNat) navmax).map fun _ => 0 := by
      refine List.map_congr_left fun t ht => ?_
      have ht' := ((couples_mem _ _ _).1 ht).1
      rw [List.length_replicate] at ht'
      have r1 : (List.replicate L im).getD t (fun _ _ => 0) = im := by
        rw [List.getD_eq_getElem?_getD, List.getElem?_replicate, if_pos (by omega)]
        rfl
      have r2 : (List.replicate L im).getD (t + (dts'[i]).toNat) (fun _ _ => 0) = im := by
        rw [List.getD_eq_getElem?_getD, List.getElem?_replicate, if_pos (by omega)]
        rfl
      rw [r1, r2]
      exact (C200_spectre im im).2.1.2 rfl k l
    rw [this]
    simp
  rw [hi, Option.some.injEq] at h6
  subst h6
  rw [hz, C201_isotropic (fun _ _ => 0) (fun _ => 0) (fun _ _ _ _ => rfl)] at hv
  obtain ⟨k, -, rfl⟩ := List.mem_map.1 hv
  rfl

/-- three images of 8 by 6 pixels have rings and intervals -/
example : (1 : Nat) + 1 < max 8 6 / 2 ∧ Ring (m := 8) (n := 6) 1 1 0 := by
  have h1 : (1 : ZMod 8).valMinAbs = 1 := by decide
  refine ⟨by decide, ?_, Or.inl ?_⟩ <;> · unfold sqFreq; rw [h1, ZMod.valMinAbs_zero]; norm_num

end Ddm
end Py
end Colloids
