import Verif.DynField.Lemmas
import Verif.Traj.Props
import Mathlib.Tactic.NormNum
import Mathlib.Algebra.Order.Ring.Rat
import Mathlib.Algebra.Field.Rat

/-! # Properties of `DynamicField` : C30 -/

namespace Colloids
namespace DynField

variable {V : Type} [Add V] [Zero V]

/-- Specification vocabulary: the non null values of trajectory `tr` in the frames
`t - half, ..., t + half` that were recorded, in chronological order. -/
def windowValues (ops : FieldOps V) (ti : TrajIndex) (frames : List (List V)) (half tr t : Nat) :
    List V :=
  ((List.range frames.length).filter (fun u => decide (t - half ≤ u ∧ u ≤ t + half))).filterMap
    (fun u => match ti.convert u tr with
      | .ok q => ((frames.getD u [])[q]?).filter (fun x => !ops.isNull x)
      | .error _ => none)

omit [Add V] [Zero V] in
theorem binned_eq (ops : FieldOps V) (ti : TrajIndex) (frames : List (List V)) (half t tr : Nat) :
    binned ops ti frames half frames.length t tr = windowValues ops ti frames half tr t := by
  unfold binned windowValues
  rw [List.filterMap_filter]
  apply List.filterMap_congr
  intro u hu
  rw [List.mem_range] at hu
  by_cases h : t ≤ u + half ∧ u ≤ t + half
  · rw [if_pos h, if_pos (by simp; omega)]
    unfold sample
    cases ti.convert u tr <;> simp [hu]
  · rw [if_neg h, if_neg (by simp; omega)]

omit [Add V] [Zero V] in
/-- A run of the linker gives a trajectory index fit for averaging. -/
theorem sound_of_run {D : Type} [LinearOrder D] {n : Nat} {hist : List (Followers D × Nat)}
    {tm : TrajMap} (h : TrajMap.run n hist = .ok tm) (hlen : hist.length + 1 ≤ szMod)
    {ti : TrajIndex} (hti : TrajIndex.ofMap tm = .ok ti) {frames : List (List V)}
    (hfr : frames.map List.length = n :: hist.map Prod.snd) :
    Sound ti frames ∧ ∀ t p tr, Linked tm t p tr →
      t < ti.inverse.length ∧ p < npos ti t ∧ trOf ti t p = tr := by
  obtain ⟨ti', h1, h2, hA, h3, h4, h5, h6⟩ := index_facts h hlen
  obtain ⟨ti'', g1, -, g3, -, -⟩ := C03_index_inverse n hist tm h hlen
  rw [hti] at h1 g1
  injection h1 with h1; subst h1
  injection g1 with g1; subst g1
  have hfs := (C01_one_to_one n hist tm h).1
  have hsz : ti.inverse.map List.length = frames.map List.length := by rw [h3, hfs, hfr]
  have hl : frames.length = ti.inverse.length := by
    have := congrArg List.length hsz; simpa using this.symm
  have hn : ∀ (t : Nat) (ht : t < frames.length), frames[t].length = npos ti t := by
    intro t ht
    have := congrArg (fun l => l[t]?) hsz
    simp only [List.getElem?_map] at this
    rw [List.getElem?_eq_getElem ht, List.getElem?_eq_getElem (by omega)] at this
    unfold npos
    rw [List.getElem?_eq_getElem (by omega)]
    simpa using this.symm
  have hlk : ∀ t p tr, Linked tm t p tr →
      t < ti.inverse.length ∧ p < npos ti t ∧ trOf ti t p = tr := by
    intro t p tr hL
    have := (h4 t p tr).2 hL
    cases hrow : ti.inverse[t]? with
    | none => rw [hrow] at this; cases this
    | some row =>
      rw [hrow, Option.bind_some] at this
      obtain ⟨ht, -⟩ := List.getElem?_eq_some_iff.1 hrow
      obtain ⟨hp, -⟩ := List.getElem?_eq_some_iff.1 this
      refine ⟨ht, ?_, ?_⟩
      · unfold npos; rw [hrow]; exact hp
      · unfold trOf; rw [hrow]; simp [this]
  refine ⟨⟨hl, hn, ?_, ?_, ?_⟩, hlk⟩
  · intro tr T hT
    obtain ⟨k1, k2, -⟩ := agree_traj hA h6 hT
    exact ⟨k1, le_trans k2 h5⟩
  · intro t p ht hp
    have hL : Linked tm t p (trOf ti t p) := by
      rw [← h4]
      unfold npos at hp
      unfold trOf
      rw [List.getElem?_eq_getElem ht] at hp ⊢
      simp only [Option.getD_some] at hp ⊢
      simp [hp]
    rw [h2]
    exact ((C01_one_to_one n hist tm h).2.2.2.2 _).2 ⟨t, p, hL⟩
  · intro tr u q _ hc
    exact (hlk u q tr ((g3 u q tr).1 hc)).2.1

/-- **C30** (long enough series). Push the frames of a linked experiment in a field averaged over
`averaging` frames, the half window being shorter than the series. Then nothing faults and the
value of every position of every frame is the sum, in chronological order, of the non null values
of its trajectory over the window clipped to the recorded frames, divided once by their number
(by one if there is none). Nothing is assumed of the addition and of the division.
Missing: series not longer than the half window, see `C30_short_series_never_divided`. -/
theorem C30_window_mean_partial {D : Type} [LinearOrder D] {n : Nat}
    {hist : List (Followers D × Nat)} {tm : TrajMap} (h : TrajMap.run n hist = .ok tm)
    (hlen : hist.length + 1 ≤ szMod) {ti : TrajIndex} (hti : TrajIndex.ofMap tm = .ok ti)
    (ops : FieldOps V) (averaging : Nat) (frames : List (List V))
    (hfr : frames.map List.length = n :: hist.map Prod.snd)
    (hpos : 0 < averaging / 2) (hlong : averaging / 2 < frames.length) :
    ∃ f, pushAll ops ti averaging frames = .ok f ∧
      (∀ (t : Nat) (ht : t < frames.length), ∃ row, f.view t = .ok row ∧
        row.length = frames[t].length) ∧
      ∀ (t p tr : Nat), Linked tm t p tr → ∃ row, f.view t = .ok row ∧
        row[p]? = some (ops.div ((windowValues ops ti frames (averaging / 2) tr t).foldl (· + ·) 0)
          (max 1 (windowValues ops ti frames (averaging / 2) tr t).length)) := by
  obtain ⟨hs, hlk⟩ := sound_of_run h hlen hti hfr
  obtain ⟨f, h1, h2⟩ := inv_all (ops := ops) hs (averaging := averaging) (by omega) frames.length
    (le_refl _)
  rw [List.take_length] at h1
  refine ⟨f, h1, ?_, ?_⟩
  · intro t ht
    unfold view
    rw [h2.vals, rows, getR_tab (by rw [← hs.frameCount]; exact ht)]
    exact ⟨_, rfl, by rw [tab_length, hs.sizes t ht]⟩
  · intro t p tr hL
    obtain ⟨a, b, c⟩ := hlk t p tr hL
    unfold view
    rw [h2.vals, rows, getR_tab a]
    refine ⟨_, rfl, ?_⟩
    unfold tab
    rw [List.getElem?_map, List.getElem?_range b, Option.map_some]
    rw [if_pos (Or.inr ⟨hs.frameCount, hlong⟩), c, binned_eq]
    rfl

/-- **C30** (no averaging). With a window of zero or one frame, the field is the frames as given. -/
theorem C30_no_averaging {D : Type} [LinearOrder D] {n : Nat}
    {hist : List (Followers D × Nat)} {tm : TrajMap} (h : TrajMap.run n hist = .ok tm)
    (hlen : hist.length + 1 ≤ szMod) {ti : TrajIndex} (hti : TrajIndex.ofMap tm = .ok ti)
    (ops : FieldOps V) (averaging : Nat) (frames : List (List V))
    (hfr : frames.map List.length = n :: hist.map Prod.snd) (hnone : averaging / 2 = 0) :
    ∃ f, pushAll ops ti averaging frames = .ok f ∧
      ∀ (t : Nat) (ht : t < frames.length), f.view t = .ok frames[t] := by
  obtain ⟨hs, hlk⟩ := sound_of_run h hlen hti hfr
  obtain ⟨f, h1, -, -, h4, h5, -⟩ := copy_all (ops := ops) hs (averaging := averaging) hnone
    frames.length (le_refl _)
  rw [List.take_length] at h1
  refine ⟨f, h1, ?_⟩
  intro t ht
  unfold view
  rw [getR_ok, h5 t ht]
  simp [ht]

/-- **C30** (disagreement). When the series has no more frames than the half window, the division
never takes place: every value is the plain sum over the whole series. -/
theorem C30_short_series_never_divided {D : Type} [LinearOrder D] {n : Nat}
    {hist : List (Followers D × Nat)} {tm : TrajMap} (h : TrajMap.run n hist = .ok tm)
    (hlen : hist.length + 1 ≤ szMod) {ti : TrajIndex} (hti : TrajIndex.ofMap tm = .ok ti)
    (ops : FieldOps V) (averaging : Nat) (frames : List (List V))
    (hfr : frames.map List.length = n :: hist.map Prod.snd)
    (hshort : frames.length ≤ averaging / 2) :
    ∃ f, pushAll ops ti averaging frames = .ok f ∧
      ∀ (t p tr : Nat), Linked tm t p tr → ∃ row, f.view t = .ok row ∧
        row[p]? = some ((windowValues ops ti frames (averaging / 2) tr t).foldl (· + ·) 0) := by
  obtain ⟨hs, hlk⟩ := sound_of_run h hlen hti hfr
  have hf0 : 0 < frames.length := by
    have := congrArg List.length hfr; simp at this; omega
  obtain ⟨f, h1, h2⟩ := inv_all (ops := ops) hs (averaging := averaging) (by omega) frames.length
    (le_refl _)
  rw [List.take_length] at h1
  refine ⟨f, h1, ?_⟩
  intro t p tr hL
  obtain ⟨a, b, c⟩ := hlk t p tr hL
  unfold view
  rw [h2.vals, rows, getR_tab a]
  refine ⟨_, rfl, ?_⟩
  unfold tab
  rw [List.getElem?_map, List.getElem?_range b, Option.map_some]
  rw [if_neg (by omega), c, binned_eq]
  rfl

/-- The operations of the scalar field (`1 + v*v == 1`), in exact arithmetic. -/
def ratOps : FieldOps ℚ where
  isNull v := decide (1 + v * v = 1)
  div v n := v / n

/-- The hypotheses of the three theorems are met by a history with a conflict and a lost particle. -/
example : ∃ tm ti, TrajMap.run 2 demoHist = .ok tm ∧ TrajIndex.ofMap tm = .ok ti ∧
    demoHist.length + 1 ≤ szMod ∧
    ([[1, 5], [2, 0], [3]] : List (List ℚ)).map List.length = 2 :: demoHist.map Prod.snd ∧
    (∃ tr, Linked tm 0 1 tr) ∧
    ∃ f, pushAll ratOps ti 2 [[1, 5], [2, 0], [3]] = .ok f := by
  obtain ⟨tm, h⟩ := C01_total 2 demoHist (by
    refine ⟨by simp, ?_, by simp, ?_, trivial⟩
    · rintro p d q ⟨row, h1, h2⟩
      match p, h1 with
      | 0, h1 => simp at h1; subst h1; simp at h2; omega
      | 1, h1 => simp at h1; subst h1; simp at h2; omega
    · rintro p d q ⟨row, h1, h2⟩
      match p, h1 with
      | 0, h1 => simp at h1; subst h1; simp at h2; omega
      | 1, h1 => simp at h1; subst h1; simp at h2; omega)
  have hlen : demoHist.length + 1 ≤ szMod := by simp [demoHist, szMod]
  obtain ⟨ti, h1, -⟩ := index_facts h hlen
  have hfr : ([[1, 5], [2, 0], [3]] : List (List ℚ)).map List.length =
      2 :: demoHist.map Prod.snd := rfl
  obtain ⟨f, hf, -⟩ := C30_window_mean_partial h hlen h1 ratOps 2 _ hfr (by decide) (by decide)
  refine ⟨tm, ti, h, h1, hlen, hfr, ?_, f, hf⟩
  obtain ⟨c1, c2, -⟩ := C01_one_to_one 2 demoHist tm h
  exact (c2 0 2 rfl 1 (by omega)).exists

/-- `1 + v*v == 1` only holds for zero in exact arithmetic. -/
example (v : ℚ) : ratOps.isNull v = true ↔ v = 0 := by simp [ratOps]

end DynField
end Colloids
