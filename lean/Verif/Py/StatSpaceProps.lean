import Mathlib.Algebra.Order.Field.Basic
import Mathlib.Algebra.Order.Ring.Rat
import Mathlib.Algebra.Order.BigOperators.Group.List
import Mathlib.Tactic.Linarith
import Mathlib.Tactic.NormNum
import Mathlib.Tactic.Ring
import Mathlib.Tactic.FieldSimp
import Verif.CommonLemmas
import Verif.Py.StatHistModel
import Verif.Py.StatHistProps

/-!
# Space correlation, correlation of qlm, structure factors
-/

namespace Colloids
namespace Py
namespace StatHist

/-! ### space_correlation -/

section Space

variable {F : Type} [Field F] [LinearOrder F] [IsStrictOrderedRing F]

omit [LinearOrder F] [IsStrictOrderedRing F] in
theorem map_add_sum (values : List F) (c : F) : (values.map (· + c)).sum = values.sum + (values.length : F) * c := by
  induction values with
  | nil => simp
  | cons a l ih =>
    rw [List.map_cons, List.sum_cons, ih, List.sum_cons, List.length_cons]
    push_cast
    ring

theorem centered_shift (values : List F) (c : F) : centered (values.map (· + c)) = centered values := by
  unfold centered
  cases values with
  | nil => rfl
  | cons a l =>
    have hn : (((a :: l).length : Nat) : F) ≠ 0 := by
      have : (0 : F) < (((a :: l).length : Nat) : F) := by exact_mod_cast (List.length_pos_of_ne_nil (List.cons_ne_nil a l))
      exact this.ne'
    rw [map_add_sum, List.length_map, List.map_map]
    apply List.map_congr_left
    intro x _
    simp only [Function.comp_apply]
    rw [add_div, mul_div_cancel_left₀ _ hn]
    ring

/-- **C212** `space_correlation` does not change when a constant is added to the values. -/
theorem C212_shift {α : Type} (dist : α → α → F) (pos : List α) (values b : List F) (c : F) :
    spaceCorrelation dist pos (values.map (· + c)) b = spaceCorrelation dist pos values b := by
  unfold spaceCorrelation
  rw [centered_shift, List.length_map]

omit [LinearOrder F] [IsStrictOrderedRing F] in
theorem replicate_sum (n : Nat) (a : F) : (List.replicate n a).sum = (n : F) * a := by
  rw [List.sum_replicate, nsmul_eq_mul]

/-- **C212** Counterexample: the correlation of values that are all the same is not a number at any distance. -/
theorem C212_constant_counterexample {α : Type} (dist : α → α → F) (pos : List α) (a : F) (b : List F) (hb : b ≠ []) (he : edgesOk b = true) :
    ∃ out rdf, spaceCorrelation dist pos (List.replicate pos.length a) b = .ok (out, rdf) ∧ out.length = b.length - 1 ∧ ∀ x ∈ out, x = none := by
  have hc : ∀ x ∈ centered (List.replicate pos.length a), x = 0 := by
    intro x hx
    obtain ⟨y, hy, rfl⟩ := List.mem_map.1 hx
    obtain ⟨hn, rfl⟩ := List.mem_replicate.1 hy
    rw [replicate_sum, List.length_replicate]
    have : (pos.length : F) ≠ 0 := by
      have : (0 : F) < pos.length := by exact_mod_cast Nat.pos_of_ne_zero hn
      exact this.ne'
    rw [mul_div_cancel_left₀ _ this, sub_self]
  have hs : ((centered (List.replicate pos.length a)).map fun x => x * x).sum = 0 := by
    apply List.sum_eq_zero
    intro x hx
    obtain ⟨y, hy, rfl⟩ := List.mem_map.1 hx
    rw [hc y hy, mul_zero]
  unfold spaceCorrelation
  dsimp only
  rw [if_neg (by simpa using hb), if_neg (by rw [he]; simp), hs]
  refine ⟨_, _, rfl, by simp, ?_⟩
  intro x hx
  obtain ⟨y, _, rfl⟩ := List.mem_map.1 hx
  rw [if_pos rfl]

omit [Field F] [LinearOrder F] [IsStrictOrderedRing F] in
theorem filter_range_eq (n i : Nat) (hi : i < n) (p : Nat → Bool) (hp : ∀ j < n, p j = true ↔ j = i) : (List.range n).filter p = [i] := by
  have : (List.range n).filter p = (List.range n).filter fun j => decide (j = i) := by
    apply List.filter_congr
    intro j hj
    rw [Bool.eq_iff_iff, hp j (List.mem_range.1 hj), decide_eq_true_eq]
  rw [this]
  clear this hp p
  induction n with
  | zero => omega
  | succ n ih =>
    rw [List.range_succ, List.filter_append]
    rcases Nat.lt_or_ge i n with h | h
    · rw [ih h, List.filter_singleton, decide_eq_false (by omega)]
      simp
    · have : i = n := by omega
      subst this
      rw [List.filter_eq_nil_iff.2 (by
        intro j hj
        have := List.mem_range.1 hj
        simp
        omega), List.filter_singleton]
      simp

theorem sq_sum_pos (l : List F) (h : ∃ x ∈ l, x ≠ 0) : 0 < (l.map fun x => x * x).sum := by
  induction l with
  | nil => obtain ⟨x, hx, _⟩ := h; simp at hx
  | cons a l ih =>
    rw [List.map_cons, List.sum_cons]
    have hn : 0 ≤ (l.map fun x => x * x).sum := by
      apply List.sum_nonneg
      intro y hy
      obtain ⟨x, _, rfl⟩ := List.mem_map.1 hy
      exact mul_self_nonneg x
    by_cases ha : a = 0
    · obtain ⟨x, hx, hx0⟩ := h
      rcases List.mem_cons.1 hx with rfl | hx
      · exact absurd ha hx0
      · have := ih ⟨x, hx, hx0⟩
        have := mul_self_nonneg a
        linarith
    · have := mul_self_pos.2 ha
      linarith

/-- **C212** When the first bin has no pair of different particles, it has the particles themselves: the correlation there is 1, whatever the values are, provided that
they are not all the same; the second result is the number of particles over the square of the edge. -/
theorem C212_self {α : Type} (dist : α → α → F) (n : Nat) (P : Nat → α) (V : Nat → F) (b : List F) (he : edgesOk b = true) (h3 : 3 ≤ b.length)
    (h0 : b.getD 0 0 ≤ 0) (h1 : 0 < b.getD 1 0) (hself : ∀ i < n, dist (P i) (P i) = 0)
    (hfar : ∀ i < n, ∀ j < n, i ≠ j → b.getD 1 0 ≤ dist (P j) (P i)) (hv : ∃ x ∈ centered ((List.range n).map V), x ≠ 0) :
    ∃ out rdf, spaceCorrelation dist ((List.range n).map P) ((List.range n).map V) b = .ok (out, rdf) ∧ out[0]? = some (some 1) ∧
      rdf[0]? = some (some ((n : F) / b.getD 1 0 ^ 2)) := by
  obtain ⟨x0, hx0, hx0n⟩ := hv
  have hcv : centered ((List.range n).map V) = (List.range n).map fun i => V i - ((List.range n).map V).sum / (((List.range n).map V).length : F) := by
    unfold centered
    rw [List.map_map]
    rfl
  generalize hW : (fun i => V i - ((List.range n).map V).sum / (((List.range n).map V).length : F)) = W at hcv
  rw [hcv] at hx0
  have hspos : 0 < (((List.range n).map W).map fun x => x * x).sum := by
    exact sq_sum_pos _ ⟨x0, hx0, hx0n⟩
  unfold spaceCorrelation
  dsimp only
  rw [hcv, if_neg (by omega), if_neg (by rw [he]; simp)]
  simp only [if_neg hspos.ne']
  have hin : ∀ i < n, ∀ j < n, inBin b 0 (dist (P j) (P i)) = true ↔ j = i := by
    intro i hi j hj
    unfold inBin
    rw [decide_eq_false (by omega : ¬ 0 + 2 = b.length)]
    simp only [Bool.false_and, Bool.or_false, Bool.and_eq_true, decide_eq_true_eq]
    constructor
    · rintro ⟨_, h⟩
      by_contra hne
      exact absurd (hfar i hi j hj fun e => hne e.symm) (not_le.2 h)
    · rintro rfl
      rw [hself j hj]
      exact ⟨h0, h1⟩
  have hone : ∀ i < n, (spaceOne dist ((List.range n).map P) ((List.range n).map W) b (P i, W i)).getD 0 (0, 0) = (W i * W i, 1) := by
    intro i hi
    have hN : (histogramN b (((List.range n).map P).map fun q => dist q (P i)))[0]? = some 1 := by
      unfold histogramN
      rw [List.getElem?_map, List.getElem?_range (by omega), Option.map_some, List.map_map, List.filter_map, List.length_map]
      rw [filter_range_eq n i hi _ (by
        intro j hj
        exact hin i hi j hj)]
      rfl
    have hH : (histogramW b (List.zipWith (fun q w => (dist q (P i), w * W i)) ((List.range n).map P) ((List.range n).map W)))[0]? = some (W i * W i) := by
      unfold histogramW
      rw [List.getElem?_map, List.getElem?_range (by omega), Option.map_some, List.zipWith_map, List.zipWith_self, List.filter_map, List.map_map]
      rw [filter_range_eq n i hi _ (by
        intro j hj
        exact hin i hi j hj)]
      simp
    unfold spaceOne
    dsimp only
    rw [List.getD_eq_getElem?_getD, List.getElem?_zipWith, hH, hN]
    simp
  have hparts : (((List.range n).map P).zip ((List.range n).map W)).map (spaceOne dist ((List.range n).map P) ((List.range n).map W) b) =
      (List.range n).map fun i => spaceOne dist ((List.range n).map P) ((List.range n).map W) b (P i, W i) := by
    rw [List.zip_map', List.map_map]
    rfl
  rw [hparts]
  refine ⟨_, _, rfl, ?_, ?_⟩
  · rw [List.getElem?_map, List.getElem?_map, List.getElem?_range (by omega), Option.map_some, Option.map_some, List.map_map]
    have : (List.range n).map ((fun l : List (F × Nat) => (l.getD 0 (0, 0)).1) ∘ fun i => spaceOne dist ((List.range n).map P) ((List.range n).map W) b (P i, W i)) =
        ((List.range n).map W).map fun x => x * x := by
      rw [List.map_map]
      apply List.map_congr_left
      intro i hi
      simp only [Function.comp_apply]
      rw [hone i (List.mem_range.1 hi)]
    rw [this, div_self hspos.ne']
  · rw [List.getElem?_map, List.getElem?_zipIdx, List.getElem?_map, List.getElem?_range (by omega), Option.map_some, Option.map_some, Option.map_some, List.map_map]
    have : (List.range n).map ((fun l : List (F × Nat) => (l.getD 0 (0, 0)).2) ∘ fun i => spaceOne dist ((List.range n).map P) ((List.range n).map W) b (P i, W i)) =
        (List.range n).map fun _ => 1 := by
      apply List.map_congr_left
      intro i hi
      simp only [Function.comp_apply]
      rw [hone i (List.mem_range.1 hi)]
    rw [this]
    have e : (0 : Nat) + 0 + 1 = 1 := rfl
    dsimp only
    rw [e, if_neg h1.ne', List.map_const', List.sum_replicate]
    simp

/-- two particles at squared distance 4, of values 0 and 1 -/
example : let dist : ℚ → ℚ → ℚ := fun x y => (x - y) ^ 2
    let P : Nat → ℚ := fun i => 2 * i
    edgesOk [(0 : ℚ), 1, 9] = true ∧ (∀ i < 2, dist (P i) (P i) = 0) ∧ (∀ i < 2, ∀ j < 2, i ≠ j → [(0 : ℚ), 1, 9].getD 1 0 ≤ dist (P j) (P i)) ∧
    ∃ x ∈ centered ((List.range 2).map fun i => (i : ℚ)), x ≠ 0 := by
  decide +kernel

end Space

/-! ### correlate_qlm -/

section Qlm

variable {F : Type} [Field F] [LinearOrder F]

/-- **C212** Counterexample: `correlate_qlm` never gives a number.  With two coefficients or more it is always an error, with one or none each value is not a number. -/
theorem C212_qlm_counterexample (n : Nat) (prod : List (List (List F))) :
    (2 ≤ n → correlateQlm n prod = .error .outOfRange) ∧ ∀ out, correlateQlm n prod = .ok out → ∀ row ∈ out, ∀ x ∈ row, x = none := by
  have hbig : 2 ≤ n → correlateQlm n prod = .error .outOfRange := by
    intro h
    unfold correlateQlm
    by_cases hp : prod = []
    · rw [if_pos hp]
    · have hany : ((qlmIndices n).any fun i => decide (n ≤ i)) = true := by
        rw [List.any_eq_true]
        refine ⟨0 + 2 * (n - 2 + 1), List.mem_map.2 ⟨n - 2, List.mem_range.2 (by omega), rfl⟩, ?_⟩
        simp
        omega
      rw [if_neg hp, if_pos hany]
  refine ⟨hbig, ?_⟩
  intro out ho row hrow x hx
  rcases Nat.lt_or_ge n 2 with hn | hn
  · have hq : qlmIndices n = [] := by
      unfold qlmIndices
      rw [show n - 1 = 0 by omega]
      rfl
    unfold correlateQlm at ho
    rw [hq] at ho
    split_ifs at ho with h1 h2
    · obtain ⟨c0, hc0, ho⟩ := bind_ok.1 ho
      cases ho
      obtain ⟨r, _, rfl⟩ := List.mem_map.1 hrow
      have hz : ∀ y ∈ c0, y = 0 := by
        unfold idx at hc0
        cases prod with
        | nil => exact absurd rfl h1
        | cons t prod =>
          simp at hc0
          subst hc0
          intro y hy
          exact (List.mem_replicate.1 hy).2
      rw [List.mem_iff_getElem?] at hx
      obtain ⟨i, hi⟩ := hx
      rw [List.getElem?_zipWith] at hi
      cases hr : r[i]? with
      | none => rw [hr] at hi; cases hi
      | some a =>
        cases hc : c0[i]? with
        | none => rw [hr, hc] at hi; cases hi
        | some y =>
          rw [hr, hc] at hi
          have := hz y (List.mem_of_getElem? hc)
          simp [this] at hi
          exact hi.symm
  · rw [hbig hn] at ho
    cases ho

end Qlm

end StatHist
end Py
end Colloids
