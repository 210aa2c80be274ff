import Mathlib.Algebra.Order.Field.Rat
import Verif.CommonLemmas
import Verif.Py.EnvTotalModel

/-! # C267: envelope of the mean correlation -/

namespace Colloids
namespace Py
namespace EnvTotal

variable {F : Type} [Field F] [LinearOrder F]

omit [Field F] in
theorem exists_max (n : Nat) (g : Nat → F) : ∃ i < n + 1, ∀ j < n + 1, g j ≤ g i := by
  induction n with
  | zero => exact ⟨0, by omega, fun j hj => by rw [show j = 0 by omega]⟩
  | succ n ih =>
    obtain ⟨i, hi, h⟩ := ih
    rcases le_total (g i) (g (n + 1)) with hle | hle
    · refine ⟨n + 1, by omega, fun j hj => ?_⟩
      rcases Nat.lt_or_ge j (n + 1) with h1 | h1
      · exact (h j h1).trans hle
      · rw [show j = n + 1 by omega]
    · refine ⟨i, by omega, fun j hj => ?_⟩
      rcases Nat.lt_or_ge j (n + 1) with h1 | h1
      · exact h j h1
      · rw [show j = n + 1 by omega]
        exact hle

omit [Field F] in
theorem argmax_spec (n : Nat) (hn : 0 < n) (g : Nat → F) : ∃ k < n, argmax n g = .ok k ∧ ∀ j < n, g j ≤ g k := by
  rcases hf : (List.range n).find? (fun i => (List.range n).all fun j => decide (g j ≤ g i)) with _ | k
  · obtain ⟨m, rfl⟩ : ∃ m, n = m + 1 := ⟨n - 1, by omega⟩
    obtain ⟨i, hi, h⟩ := exists_max m g
    refine absurd (List.all_eq_true.2 fun j hj => ?_) (List.find?_eq_none.1 hf i (List.mem_range.2 hi))
    exact decide_eq_true (h j (List.mem_range.1 hj))
  · refine ⟨k, List.mem_range.1 (List.mem_of_find?_eq_some hf), by rw [argmax, hf], fun j hj => ?_⟩
    have := List.find?_some hf
    exact of_decide_eq_true (List.all_eq_true.1 this j (List.mem_range.2 hj))

/-- Places in order, cut at one of them. -/
theorem split_sorted (l : List Nat) (hl : l.Pairwise (· < ·)) (k : Nat) : l = (l.filter fun m => decide (m < k)) ++ l.filter fun m => decide (k ≤ m) := by
  induction l with
  | nil => rfl
  | cons a l ih =>
    rw [List.pairwise_cons] at hl
    rcases Nat.lt_or_ge a k with h | h
    · rw [List.filter_cons_of_pos (by simpa using h), List.filter_cons_of_neg (by simpa using h), List.cons_append, ← ih hl.2]
    · have h1 : (l.filter fun m => decide (m < k)) = [] := by
        rw [List.filter_eq_nil_iff]
        intro m hm
        have := hl.1 m hm
        simp only [decide_eq_true_eq]
        omega
      have h2 : (l.filter fun m => decide (k ≤ m)) = l := by
        rw [List.filter_eq_self]
        intro m hm
        have := hl.1 m hm
        simp only [decide_eq_true_eq]
        omega
      rw [List.filter_cons_of_neg (by simpa using h), List.filter_cons_of_pos (by simpa using h), h1, h2, List.nil_append]

theorem maxima_sorted (n : Nat) (tol : F) (s : Nat → F) : (maxima n tol s).Pairwise (· < ·) := List.pairwise_lt_range.filter _

theorem below_length (n : Nat) (tol : F) (s : Nat → F) (k : Nat) : ((maxima n tol s).filter fun m => decide (m < k)).length ≤ k := by
  have h : ((maxima n tol s).filter fun m => decide (m < k)).Nodup := ((maxima_sorted n tol s).imp fun h => Nat.ne_of_lt h).filter _
  have := (List.subperm_of_subset h (l₂ := List.range k) fun m hm => by
    rw [List.mem_filter] at hm
    exact List.mem_range.2 (of_decide_eq_true hm.2)).length_le
  simpa using this

/-- C267. With k the place of the largest value, what is kept is, among the maxima from k on, those that are positive but without the first ones: as many as there are places before k that are not
maxima. -/
theorem C267_kept (n : Nat) (hn : 0 < n) (tol : F) (s g : Nat → F) : ∃ k < n, (∀ j < n, g j ≤ g k) ∧
    envelope n tol s g = .ok ((((maxima n tol s).filter fun m => decide (k ≤ m)).drop (k - ((maxima n tol s).filter fun m => decide (m < k)).length)).filter fun m => decide (0 < g m)) := by
  obtain ⟨k, hk, h1, h2⟩ := argmax_spec n hn g
  refine ⟨k, hk, h2, ?_⟩
  have h3 : (maxima n tol s).drop k = ((maxima n tol s).filter fun m => decide (k ≤ m)).drop (k - ((maxima n tol s).filter fun m => decide (m < k)).length) := by
    conv_lhs => rw [split_sorted (maxima n tol s) (maxima_sorted n tol s) k]
    rw [List.drop_append, List.drop_eq_nil_of_le (below_length n tol s k), List.nil_append]
  rw [envelope, h1, ok_bind, h3]
  rfl

/-- C267. All places kept are positive maxima, not before the largest value. -/
theorem C267_sound (n : Nat) (hn : 0 < n) (tol : F) (s g : Nat → F) : ∃ k out, argmax n g = .ok k ∧ envelope n tol s g = .ok out ∧
    ∀ m ∈ out, m < n ∧ k ≤ m ∧ 0 < g m ∧ dilation n s m - s m < tol := by
  obtain ⟨k, hk, h1, h2⟩ := argmax_spec n hn g
  refine ⟨k, ((maxima n tol s).drop k).filter fun m => decide (0 < g m), h1, by rw [envelope, h1, ok_bind]; rfl, fun m hm => ?_⟩
  rw [List.mem_filter] at hm
  have h3 : (maxima n tol s).drop k = ((maxima n tol s).filter fun m => decide (k ≤ m)).drop (k - ((maxima n tol s).filter fun m => decide (m < k)).length) := by
    conv_lhs => rw [split_sorted (maxima n tol s) (maxima_sorted n tol s) k]
    rw [List.drop_append, List.drop_eq_nil_of_le (below_length n tol s k), List.nil_append]
  have h4 := hm.1
  rw [h3] at h4
  have h5 := List.mem_filter.1 (List.mem_of_mem_drop h4)
  have h6 := List.mem_filter.1 h5.1
  exact ⟨List.mem_range.1 h6.1, of_decide_eq_true h5.2, of_decide_eq_true hm.2, of_decide_eq_true h6.2⟩

/-- C267. If all places before the largest value are maxima, as where the smoothed function is flat, or if it is the first place, all the positive maxima from there on are kept. -/
theorem C267_complete_partial (n : Nat) (tol : F) (s g : Nat → F) (k : Nat) (hk : argmax n g = .ok k) (hkn : k < n) (hf : ∀ i < k, dilation n s i - s i < tol) :
    envelope n tol s g = .ok ((maxima n tol s).filter fun m => decide (k ≤ m) && decide (0 < g m)) := by
  have h0 : ((maxima n tol s).filter fun m => decide (m < k)).length = k := by
    refine Nat.le_antisymm (below_length n tol s k) ?_
    have := (List.subperm_of_subset (l₁ := List.range k) List.nodup_range (l₂ := (maxima n tol s).filter fun m => decide (m < k)) fun m hm => by
      have hm' := List.mem_range.1 hm
      exact List.mem_filter.2 ⟨List.mem_filter.2 ⟨List.mem_range.2 (by omega), decide_eq_true (hf m hm')⟩, decide_eq_true hm'⟩).length_le
    simpa using this
  have h3 : (maxima n tol s).drop k = (maxima n tol s).filter fun m => decide (k ≤ m) := by
    conv_lhs => rw [split_sorted (maxima n tol s) (maxima_sorted n tol s) k]
    rw [List.drop_append, List.drop_eq_nil_of_le h0.le, List.nil_append, h0, Nat.sub_self, List.drop_zero]
  rw [envelope, hk, ok_bind, h3, List.filter_filter]
  show Except.ok _ = _
  congr 2
  funext m
  exact Bool.and_comm _ _

/-- C267, the part that is false. If there are not more maxima than places before the largest value, nothing is kept, not even this value. -/
theorem C267_empty_counterexample (n : Nat) (tol : F) (s g : Nat → F) (k : Nat) (hk : argmax n g = .ok k) (h : (maxima n tol s).length ≤ k) : envelope n tol s g = .ok [] := by
  rw [envelope, hk, ok_bind, List.drop_eq_nil_of_le h]
  rfl

/-- C267. The maxima are the places where no neighbour among the n places is larger by the tolerance. -/
theorem C267_maxima [IsStrictOrderedRing F] (n : Nat) (tol : F) (htol : 0 < tol) (s : Nat → F) (m : Nat) :
    m ∈ maxima n tol s ↔ m < n ∧ ∀ j < n, j ≤ m + 1 → m ≤ j + 1 → s j - s m < tol := by
  have hself : s m - s m < tol := by rwa [sub_self]
  rw [maxima, List.mem_filter, List.mem_range, decide_eq_true_eq, dilation, sub_lt_iff_lt_add, max_lt_iff, max_lt_iff, ← sub_lt_iff_lt_add, ← sub_lt_iff_lt_add, ← sub_lt_iff_lt_add]
  constructor
  · rintro ⟨hm, ⟨h1, -⟩, h3⟩
    refine ⟨hm, fun j hj ha hb => ?_⟩
    rcases (show j = m - 1 ∨ j = m ∨ j = min (m + 1) (n - 1) by omega) with h | h | h
    · rwa [h]
    · rwa [h]
    · rwa [h]
  · rintro ⟨hm, h⟩
    exact ⟨hm, ⟨h _ (by omega) (by omega) (by omega), hself⟩, h _ (by omega) (by omega) (by omega)⟩

/-- Peaks at 3, 5 and 7, the largest is the first one: nothing is kept. If the largest is at the first place, all are. -/
example : argmax 9 (fun i => ([0, 1, 2, 9, 3, 7, 3, 6, 0] : List ℚ).getD i 0) = .ok 3 ∧
    maxima 9 (1 / 10000 : ℚ) (fun i => ([0, 1, 2, 9, 3, 7, 3, 6, 0] : List ℚ).getD i 0) = [3, 5, 7] ∧
    envelope 9 (1 / 10000 : ℚ) (fun i => ([0, 1, 2, 9, 3, 7, 3, 6, 0] : List ℚ).getD i 0) (fun i => ([0, 1, 2, 9, 3, 7, 3, 6, 0] : List ℚ).getD i 0) = .ok [] ∧
    envelope 6 (1 / 10000 : ℚ) (fun i => ([9, 3, 7, 3, 6, 0] : List ℚ).getD i 0) (fun i => ([9, 3, 7, 3, 6, 0] : List ℚ).getD i 0) = .ok [0, 2, 4] := by
  decide +kernel

end EnvTotal
end Py
end Colloids
