import Mathlib.Tactic.Linarith
import Mathlib.Tactic.NormNum
import Mathlib.Algebra.Order.Field.Rat
import Mathlib.Algebra.Order.Ring.Rat
import Verif.CommonLemmas
import Verif.Index.Lemmas
import Verif.Py.CloudSetsModel

/-! # C261: subsets of particles by bond orientational order -/

namespace Colloids
namespace Py
namespace CloudSets

theorem splitT_none (s : List Char) (h : ¬ ['_', 't'] <:+: s) : splitT s = [s] := by
  induction s with
  | nil => rw [splitT]
  | cons c s ih =>
    rw [splitT, if_neg, ih fun hi => h (hi.trans (List.suffix_cons c s).isInfix)]
    rintro ⟨rfl, ht⟩
    apply h
    cases s with
    | nil => exact absurd ht (by simp)
    | cons d s =>
      rw [List.head?_cons, Option.some.injEq] at ht
      rw [ht]
      exact ⟨[], s, rfl⟩

theorem splitT_append (a d : List Char) (h : ¬ ['_', 't'] <:+: a) : splitT (a ++ '_' :: 't' :: d) = a :: splitT d := by
  induction a with
  | nil =>
    rw [List.nil_append, splitT, if_pos ⟨rfl, rfl⟩, List.tail_cons]
  | cons c a ih =>
    rw [List.cons_append, splitT, if_neg, ih fun hi => h (hi.trans (List.suffix_cons c a).isInfix)]
    rintro ⟨rfl, ht⟩
    apply h
    cases a with
    | nil => exact absurd ht (by simp)
    | cons e a =>
      rw [List.cons_append, List.head?_cons, Option.some.injEq] at ht
      rw [ht]
      exact ⟨[], a, rfl⟩

theorem splitT_length_pos (s : List Char) : splitT s ≠ [] := by
  cases s with
  | nil => rw [splitT]; simp
  | cons c s =>
    rw [splitT]
    split
    · simp
    · split <;> simp

/-- C261. The names of the files of order parameters, for a name with the token once. -/
theorem C261_names_partial (a d mid ext : List Char) (ha : ¬ ['_', 't'] <:+: a) (hd : ¬ ['_', 't'] <:+: d) :
    cloudName (a ++ '_' :: 't' :: d) mid ext = .ok (a ++ mid ++ d ++ ext) := by
  rw [cloudName, splitT_append a d ha, splitT_none d hd]

/-- C261, the part that is false. A name with `_t` before the token too, as in `my_test_t000`, is an error. -/
theorem C261_token_counterexample (a b d mid ext : List Char) (ha : ¬ ['_', 't'] <:+: a) (hb : ¬ ['_', 't'] <:+: b) :
    cloudName (a ++ '_' :: 't' :: (b ++ '_' :: 't' :: d)) mid ext = .error .invalidArgument := by
  rw [cloudName, splitT_append a _ ha, splitT_append b _ hb]
  obtain ⟨x, l, e⟩ := List.exists_cons_of_ne_nil (splitT_length_pos d)
  rw [e]

variable {F : Type} [Field F] [LinearOrder F] [IsStrictOrderedRing F]

omit [Field F] [LinearOrder F] [IsStrictOrderedRing F] in
theorem mem_where (p : Row F → Bool) (rows : List (Row F)) (i : Nat) : i ∈ whereRows p rows ↔ ∃ r, rows[i]? = some r ∧ p r = true := by
  rw [whereRows, List.mem_filter, List.mem_range]
  constructor
  · rintro ⟨h1, h2⟩
    rw [List.getElem?_eq_getElem h1, Option.any_some] at h2
    exact ⟨_, List.getElem?_eq_getElem h1, h2⟩
  · rintro ⟨r, h1, h2⟩
    refine ⟨?_, by rw [h1, Option.any_some, h2]⟩
    by_contra hge
    rw [List.getElem?_eq_none (by omega)] at h1
    exact absurd h1 (by simp)

/-- C261. The particles that are kept are those with a positive order parameter, in order, and any other data of the same number of particles is kept for the same ones. -/
theorem C261_inside {A : Type} (space : List (Row F)) (data : List A) (hl : space.length ≤ data.length) :
    ∃ out, select data (inside space) = .ok out ∧ out.length = (inside space).length ∧ (inside space).Pairwise (· < ·) ∧
      (∀ i, i ∈ inside space ↔ ∃ r, space[i]? = some r ∧ 0 < r.q6) ∧ ∀ k : Nat, ∀ i : Nat, (inside space)[k]? = some i → out[k]? = data[i]? := by
  have hm : ∀ i, i ∈ inside space ↔ ∃ r, space[i]? = some r ∧ 0 < r.q6 := by
    intro i
    have := mem_where (fun r => decide (0 < r.q6)) space i
    simpa [whereRows, inside] using this
  have hlt : ∀ i ∈ inside space, i < data.length := by
    intro i hi
    have := List.mem_range.1 (List.mem_filter.1 hi).1
    omega
  have key : ∀ idx : List Nat, (∀ i ∈ idx, i < data.length) → ∃ out, select data idx = .ok out ∧ out.map some = idx.map (data[·]?) := by
    intro idx
    induction idx with
    | nil => exact fun _ => ⟨[], rfl, rfl⟩
    | cons i idx ih =>
      intro h
      obtain ⟨out, h1, h2⟩ := ih fun j hj => h j (List.mem_cons_of_mem _ hj)
      have hi := h i List.mem_cons_self
      refine ⟨data[i] :: out, ?_, ?_⟩
      · rw [select] at h1 ⊢
        rw [List.mapM_cons, List.getElem?_eq_getElem hi]
        simp only
        rw [ok_bind, h1, ok_bind]
        rfl
      · rw [List.map_cons, List.map_cons, h2, List.getElem?_eq_getElem hi]
  obtain ⟨out, h1, h2⟩ := key _ hlt
  have hlen : out.length = (inside space).length := by
    have := congrArg List.length h2
    simpa using this
  refine ⟨out, h1, hlen, List.pairwise_lt_range.filter _, hm, fun k i hk => ?_⟩
  have h3 := congrArg (·[k]?) h2
  simp only [List.getElem?_map, hk, Option.map_some] at h3
  cases h4 : out[k]? with
  | none =>
    rw [h4] at h3
    exact absurd h3 (by simp)
  | some x =>
    rw [h4, Option.map_some, Option.some.injEq] at h3
    exact h3

/-- C261. A particle whose order parameter is none of the two thresholds is in exactly one of the liquid, the crystal and the precursors, as its order parameter is below, above
or between; if its `w4` is not zero, it is in the crystal if it is in exactly one of the FCC and the HCP, and in none otherwise. -/
theorem C261_sets_partial (rows : List (Row F)) (i : Nat) (r : Row F) (hr : rows[i]? = some r) (h1 : r.q6 ≠ 1 / 4) (h2 : r.q6 ≠ 7 / 20) :
    i ∈ (subsets rows).all ∧ (∀ j ∈ (subsets rows).all, j < rows.length) ∧ (i ∈ (subsets rows).liquid ↔ ¬ i ∈ (subsets rows).mrco ∧ ¬ i ∈ (subsets rows).crystal) ∧
      (i ∈ (subsets rows).mrco ↔ ¬ i ∈ (subsets rows).liquid ∧ ¬ i ∈ (subsets rows).crystal) ∧
      (i ∈ (subsets rows).liquid ↔ r.q6 < 1 / 4) ∧ (i ∈ (subsets rows).crystal ↔ 7 / 20 < r.q6) ∧
      (r.w4 ≠ 0 → (i ∈ (subsets rows).fcc ↔ i ∈ (subsets rows).crystal ∧ ¬ i ∈ (subsets rows).hcp) ∧
        (i ∈ (subsets rows).hcp ↔ i ∈ (subsets rows).crystal ∧ 0 < r.w4)) := by
  have hw : ∀ p : Row F → Bool, i ∈ whereRows p rows ↔ p r = true := by
    intro p
    rw [mem_where]
    constructor
    · rintro ⟨r', h3, h4⟩
      rw [hr, Option.some.injEq] at h3
      rw [h3]
      exact h4
    · exact fun h => ⟨r, hr, h⟩
  have hlt : i < rows.length := by
    by_contra hge
    rw [List.getElem?_eq_none (by omega)] at hr
    exact absurd hr (by simp)
  have hth : (1 : F) / 4 < 7 / 20 := by norm_num
  simp only [subsets, hw, Bool.and_eq_true, decide_eq_true_eq, gt_iff_lt, List.mem_range, iff_self, true_and]
  generalize (1 : F) / 4 = lo at *
  generalize (7 : F) / 20 = hi at *
  rcases lt_or_gt_of_ne h1 with h | h
  · have h' : ¬ hi < r.q6 := by linarith
    have h'' : ¬ lo < r.q6 := by linarith
    refine ⟨hlt, fun _ hj => hj, ?_, ?_, fun _ => ?_⟩ <;> simp [h, h', h'']
  · have h' : ¬ r.q6 < lo := by linarith
    rcases lt_or_gt_of_ne h2 with h3 | h3
    · have h4 : ¬ hi < r.q6 := by linarith
      refine ⟨hlt, fun _ hj => hj, ?_, ?_, fun _ => ?_⟩ <;> simp [h, h', h3, h4]
    · have h4 : ¬ r.q6 < hi := by linarith
      refine ⟨hlt, fun _ hj => hj, ?_, ?_, fun h5 => ?_⟩
      · simp [h, h', h3, h4]
      · simp [h, h', h3, h4]
      · refine ⟨?_, by simp [h3]⟩
        rcases lt_or_gt_of_ne h5 with h6 | h6
        · have : ¬ 0 < r.w4 := by linarith
          simp [h3, h6, this]
        · have : ¬ r.w4 < 0 := by linarith
          simp [h3, h6, this]

/-- C261, the part that is false. A particle whose order parameter is a threshold is in no subset but the one of all. -/
theorem C261_threshold_counterexample (rows : List (Row F)) (i : Nat) (r : Row F) (hr : rows[i]? = some r) (h : r.q6 = 1 / 4 ∨ r.q6 = 7 / 20) :
    i ∉ (subsets rows).liquid ∧ i ∉ (subsets rows).crystal ∧ i ∉ (subsets rows).mrco ∧ i ∉ (subsets rows).fcc ∧ i ∉ (subsets rows).hcp := by
  have hw : ∀ p : Row F → Bool, i ∈ whereRows p rows → p r = true := by
    intro p hp
    obtain ⟨r', h3, h4⟩ := (mem_where p rows i).1 hp
    rw [hr, Option.some.injEq] at h3
    rw [h3]
    exact h4
  have hth : (1 : F) / 4 < 7 / 20 := by norm_num
  refine ⟨fun h3 => ?_, fun h3 => ?_, fun h3 => ?_, fun h3 => ?_, fun h3 => ?_⟩ <;> have h4 := hw _ h3 <;>
    simp only [Bool.and_eq_true, decide_eq_true_eq, gt_iff_lt] at h4 <;> rcases h with h | h <;> rw [h] at h4
  · exact lt_irrefl _ h4
  · linarith
  · linarith
  · exact lt_irrefl _ h4
  · exact lt_irrefl _ h4.2
  · exact lt_irrefl _ h4.1
  · linarith [h4.1]
  · exact lt_irrefl _ h4.1
  · linarith [h4.1]
  · exact lt_irrefl _ h4.1

/-- C261, the part that is false. A particle of the crystal whose `w4` is zero is neither FCC nor HCP. -/
theorem C261_w4_counterexample (rows : List (Row F)) (i : Nat) (r : Row F) (hr : rows[i]? = some r) (h : 7 / 20 < r.q6) (h0 : r.w4 = 0) :
    i ∈ (subsets rows).crystal ∧ i ∉ (subsets rows).fcc ∧ i ∉ (subsets rows).hcp := by
  have hw : ∀ p : Row F → Bool, i ∈ whereRows p rows → p r = true := by
    intro p hp
    obtain ⟨r', h3, h4⟩ := (mem_where p rows i).1 hp
    rw [hr, Option.some.injEq] at h3
    rw [h3]
    exact h4
  refine ⟨(mem_where _ _ _).2 ⟨r, hr, decide_eq_true h⟩, fun h3 => ?_, fun h3 => ?_⟩ <;> have h4 := hw _ h3 <;>
    simp only [Bool.and_eq_true, decide_eq_true_eq, gt_iff_lt, h0] at h4 <;> exact lt_irrefl _ h4.2

/-- `data/sample_t012`. -/
example : (∀ s ∈ ["data/sample".toList, "012".toList, "my".toList, "est".toList], ¬ ['_', 't'] <:+: s) ∧
    ([⟨1 / 5, 0⟩, ⟨1 / 2, -1⟩] : List (Row ℚ))[1]? = some ⟨1 / 2, -1⟩ ∧ (1 / 2 : ℚ) ≠ 1 / 4 ∧ (1 / 2 : ℚ) ≠ 7 / 20 ∧ (-1 : ℚ) ≠ 0 ∧ (7 / 20 : ℚ) < 1 / 2 := by
  refine ⟨by decide, rfl, by norm_num, by norm_num, by norm_num, by norm_num⟩

end CloudSets
end Py
end Colloids
