import Mathlib.Tactic.Linarith
import Mathlib.Tactic.NormNum
import Mathlib.Algebra.Order.Field.Rat
import Mathlib.Algebra.Order.Ring.Rat
import Verif.CommonLemmas
import Verif.Py.EnvelopeModel

/-! # C259: peaks of a correlation function -/

namespace Colloids
namespace Py
namespace Envelope

variable {F : Type} [Field F] [LinearOrder F] [IsStrictOrderedRing F]

/-- A maximum of the values `v 0`, ..., `v (n - 1)` that is not at the ends. -/
def LocalMax (v : Nat → F) (n j : Nat) : Prop :=
  0 < j ∧ j + 1 < n ∧ v (j - 1) ≤ v j ∧ v (j + 1) ≤ v j ∧ (v (j - 1) < v j ∨ v (j + 1) < v j)

theorem getD_map {A : Type} (f : Nat → A) (n i : Nat) (d : A) (h : i < n) : ((List.range n).map f).getD i d = f i := by
  rw [List.getD_eq_getElem?_getD, List.getElem?_map, List.getElem?_range h]
  rfl

/-- The sign of the gradient. -/
theorem grad_sign (v : Nat → F) (n i : Nat) (h2 : 2 ≤ n) (hi : i < n) :
    gradAt ((List.range n).map v) i = if i = 0 then v 1 - v 0 else if i = n - 1 then v i - v (i - 1) else (v (i + 1) - v (i - 1)) / 2 := by
  rw [gradAt, List.length_map, List.length_range]
  by_cases h0 : i = 0
  · rw [if_pos h0, if_pos h0, getD_map _ _ _ _ (by omega), getD_map _ _ _ _ (by omega)]
  · rw [if_neg h0, if_neg h0]
    by_cases h1 : i = n - 1
    · rw [if_pos h1, if_pos h1, getD_map _ _ _ _ (by omega), getD_map _ _ _ _ (by omega)]
    · rw [if_neg h1, if_neg h1, getD_map _ _ _ _ (by omega), getD_map _ _ _ _ (by omega)]

theorem envelope_eq (smooth : List F → List F) (g6 : List (F × F)) (v : Nat → F) (n : Nat) (h2 : 2 ≤ n) (hv : smooth (g6.map Prod.snd) = (List.range n).map v) :
    ∃ out, envelope smooth g6 = .ok out ∧ ∀ i, i ∈ out ↔ (i + 1 < n ∧ 0 < gradAt ((List.range n).map v) i ∧ gradAt ((List.range n).map v) (i + 1) < 0) ∧
      3 / 2 < (g6.getD i (0, 0)).1 ∧ 0 < (g6.getD i (0, 0)).2 := by
  refine ⟨((signChange ((List.range n).map (gradAt ((List.range n).map v)))).filter fun i => decide (3 / 2 < (g6.getD i (0, 0)).1)).filter
      fun i => decide (0 < (g6.getD i (0, 0)).2), ?_, ?_⟩
  · rw [envelope, hv, gradient, if_neg (by rw [List.length_map, List.length_range]; omega), ok_bind, List.length_map, List.length_range]
    rfl
  · intro i
    rw [List.mem_filter, List.mem_filter, signChange, List.mem_filter, List.mem_range, List.length_map, List.length_range]
    constructor
    · rintro ⟨⟨⟨h3, h4⟩, h5⟩, h6⟩
      rw [Bool.and_eq_true, decide_eq_true_eq, decide_eq_true_eq, getD_map _ _ _ _ (by omega), getD_map _ _ _ _ (by omega)] at h4
      exact ⟨⟨by omega, h4⟩, of_decide_eq_true h5, of_decide_eq_true h6⟩
    · rintro ⟨⟨h3, h4⟩, h5, h6⟩
      refine ⟨⟨⟨by omega, ?_⟩, decide_eq_true h5⟩, decide_eq_true h6⟩
      rw [Bool.and_eq_true, decide_eq_true_eq, decide_eq_true_eq, getD_map _ _ _ _ (by omega), getD_map _ _ _ _ (by omega)]
      exact h4

/-- C259. Each index that is given is a maximum of the smoothed values or the one before; the distance is more than 1.5 and the value is positive. -/
theorem C259_peaks (smooth : List F → List F) (g6 : List (F × F)) (v : Nat → F) (n : Nat) (h2 : 2 ≤ n) (hv : smooth (g6.map Prod.snd) = (List.range n).map v) :
    ∃ out, envelope smooth g6 = .ok out ∧ ∀ i ∈ out, (LocalMax v n i ∨ LocalMax v n (i + 1)) ∧ 3 / 2 < (g6.getD i (0, 0)).1 ∧ 0 < (g6.getD i (0, 0)).2 := by
  obtain ⟨out, h1, hout⟩ := envelope_eq smooth g6 v n h2 hv
  refine ⟨out, h1, fun i hi => ?_⟩
  obtain ⟨⟨h3, h4, h5⟩, h6⟩ := (hout i).1 hi
  refine ⟨?_, h6⟩
  rw [grad_sign v n i h2 (by omega)] at h4
  rw [grad_sign v n (i + 1) h2 h3, if_neg (by omega), Nat.add_sub_cancel] at h5
  by_cases h0 : i = 0
  · subst h0
    rw [if_pos rfl] at h4
    by_cases hn : 0 + 1 = n - 1
    · rw [if_pos hn] at h5
      simp only [Nat.zero_add] at h5
      exact absurd h4 (by linarith)
    · rw [if_neg hn] at h5
      simp only [Nat.zero_add] at h5
      have h7 : v (1 + 1) < v 0 := by linarith
      right
      refine ⟨by omega, by omega, ?_, ?_, ?_⟩ <;> simp only [Nat.zero_add, Nat.sub_self]
      · linarith
      · linarith
      · left
        linarith
  · rw [if_neg h0, if_neg (by omega)] at h4
    have h7 : v (i - 1) < v (i + 1) := by linarith
    by_cases hn : i + 1 = n - 1
    · rw [if_pos hn] at h5
      left
      exact ⟨by omega, by omega, by linarith, by linarith, Or.inr (by linarith)⟩
    · rw [if_neg hn] at h5
      have h8 : v (i + 1 + 1) < v i := by linarith
      rcases le_or_gt (v i) (v (i + 1)) with h9 | h9
      · right
        refine ⟨by omega, by omega, ?_, ?_, ?_⟩
        · rw [Nat.add_sub_cancel]
          exact h9
        · linarith
        · right
          linarith
      · left
        exact ⟨by omega, by omega, by linarith, by linarith, Or.inr h9⟩

/-- C259. A value greater than the two values on each side, at distances above 1.5 and among positive values, is found if and only if the two values beside it are
different: its index is given, or the one before. -/
theorem C259_found_partial (smooth : List F → List F) (g6 : List (F × F)) (v : Nat → F) (n : Nat) (hv : smooth (g6.map Prod.snd) = (List.range n).map v) (j : Nat)
    (hj : 2 ≤ j) (hjn : j + 2 < n) (hl : v (j - 2) < v j ∧ v (j - 1) < v j) (hr : v (j + 2) < v j ∧ v (j + 1) < v j)
    (hd : ∀ i, i = j ∨ i + 1 = j → 3 / 2 < (g6.getD i (0, 0)).1 ∧ 0 < (g6.getD i (0, 0)).2) :
    ∃ out, envelope smooth g6 = .ok out ∧ ((j ∈ out ∨ j - 1 ∈ out) ↔ v (j - 1) ≠ v (j + 1)) := by
  obtain ⟨out, h1, hout⟩ := envelope_eq smooth g6 v n (by omega) hv
  refine ⟨out, h1, ?_⟩
  have g0 : gradAt ((List.range n).map v) (j - 1) = (v j - v (j - 2)) / 2 := by
    rw [grad_sign v n _ (by omega) (by omega), if_neg (by omega), if_neg (by omega), show j - 1 + 1 = j by omega, show j - 1 - 1 = j - 2 by omega]
  have g1 : gradAt ((List.range n).map v) j = (v (j + 1) - v (j - 1)) / 2 := by
    rw [grad_sign v n _ (by omega) (by omega), if_neg (by omega), if_neg (by omega)]
  have g2 : gradAt ((List.range n).map v) (j + 1) = (v (j + 2) - v j) / 2 := by
    rw [grad_sign v n _ (by omega) (by omega), if_neg (by omega), if_neg (by omega), Nat.add_sub_cancel]
  have e1 : j ∈ out ↔ v (j - 1) < v (j + 1) := by
    rw [hout, g1, g2]
    constructor
    · rintro ⟨⟨_, h3, _⟩, _⟩
      linarith
    · intro h3
      exact ⟨⟨by omega, by linarith, by linarith [hr.1]⟩, hd j (Or.inl rfl)⟩
  have e2 : j - 1 ∈ out ↔ v (j + 1) < v (j - 1) := by
    rw [hout, show j - 1 + 1 = j by omega, g0, g1]
    constructor
    · rintro ⟨⟨_, _, h3⟩, _⟩
      linarith
    · intro h3
      exact ⟨⟨by omega, by linarith [hl.1], by linarith⟩, hd (j - 1) (Or.inr (by omega))⟩
  rw [e1, e2]
  constructor
  · rintro (h | h) he
    · exact absurd h (by rw [he]; exact lt_irrefl _)
    · exact absurd h (by rw [he]; exact lt_irrefl _)
  · intro h
    exact lt_or_gt_of_ne h

/-- C259, the part that is false. A peak whose two neighbours are equal is missed: neither its index, nor the one before, nor the one after is given. -/
theorem C259_symmetric_counterexample (smooth : List F → List F) (g6 : List (F × F)) (v : Nat → F) (n : Nat)
    (hv : smooth (g6.map Prod.snd) = (List.range n).map v) (j : Nat) (hj : 0 < j) (hjn : j + 2 < n) (hs : v (j - 1) = v (j + 1)) (hr : v (j + 2) < v j) :
    ∃ out, envelope smooth g6 = .ok out ∧ j - 1 ∉ out ∧ j ∉ out ∧ j + 1 ∉ out := by
  obtain ⟨out, h1, hout⟩ := envelope_eq smooth g6 v n (by omega) hv
  have g1 : gradAt ((List.range n).map v) j = 0 := by
    rw [grad_sign v n _ (by omega) (by omega), if_neg (by omega), if_neg (by omega), hs, sub_self, zero_div]
  have g2 : gradAt ((List.range n).map v) (j + 1) = (v (j + 2) - v j) / 2 := by
    rw [grad_sign v n _ (by omega) (by omega), if_neg (by omega), if_neg (by omega), Nat.add_sub_cancel]
  refine ⟨out, h1, fun h => ?_, fun h => ?_, fun h => ?_⟩
  · obtain ⟨⟨_, _, h3⟩, _⟩ := (hout _).1 h
    rw [show j - 1 + 1 = j by omega, g1] at h3
    exact lt_irrefl _ h3
  · obtain ⟨⟨_, h3, _⟩, _⟩ := (hout _).1 h
    rw [g1] at h3
    exact lt_irrefl _ h3
  · obtain ⟨⟨_, h3, _⟩, _⟩ := (hout _).1 h
    rw [g2] at h3
    linarith

/-- A peak that is found and the same made symmetric. -/
example : let g6 : List (ℚ × ℚ) := [(2, 1), (3, 2), (4, 5), (5, 3), (6, 1)]
    let g6' : List (ℚ × ℚ) := [(2, 1), (3, 3), (4, 5), (5, 3), (6, 1)]
    g6.map Prod.snd = (List.range 5).map ([1, 2, 5, 3, 1].getD · 0) ∧ envelope id g6 = .ok [2] ∧
    g6'.map Prod.snd = (List.range 5).map ([1, 3, 5, 3, 1].getD · 0) ∧ envelope id g6' = .ok [] := by
  decide +kernel

end Envelope
end Py
end Colloids
