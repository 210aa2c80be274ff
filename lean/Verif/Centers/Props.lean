import Verif.Centers.Lemmas
import Mathlib.Tactic.NormNum
import Mathlib.Algebra.Order.Ring.Rat
import Mathlib.Algebra.Field.Rat
import Mathlib.Algebra.BigOperators.Fin

/-! # Properties of the removal of the overlaps : C31 -/

namespace Colloids
namespace Center
variable {d : Nat} {G : Type} [Field G] [LinearOrder G] [IsStrictOrderedRing G]

/-- What `std::sort` with `compare_intensities` guarantees. -/
structure SortsByIntensity (sort : List (Center d G) → List (Center d G)) : Prop where
  perm : ∀ l, (sort l).Perm l
  sorted : ∀ l, (sort l).Pairwise (fun a b => a.intensity ≤ b.intensity)

/-- `kept` is what one gets from `input` by keeping, best first, the centers that conflict with no
center kept before: it is ordered by intensity, its centers come from the input (each at most as many times), do not
conflict with each other, and every center of the input is kept or conflicts with a kept
one that is at least as good. -/
structure KeepsBest (Conflict : Center d G → Center d G → Prop) (input kept : List (Center d G)) :
    Prop where
  sorted : kept.Pairwise (fun a b => a.intensity ≤ b.intensity)
  sub : kept.Subperm input
  apart : kept.Pairwise (fun a b => ¬ Conflict a b)
  maximal : ∀ c ∈ input, c ∈ kept ∨ ∃ x ∈ kept, x.intensity ≤ c.intensity ∧ Conflict c x

omit [IsStrictOrderedRing G] [Field G] in
theorem keepsBest_of {near : Center d G → Center d G → Bool} {Conflict : Center d G → Center d G → Prop}
    {sort : List (Center d G) → List (Center d G)} (hs : SortsByIntensity sort)
    (input : List (Center d G)) (hsym : ∀ a b, Conflict a b → Conflict b a)
    (h : ∀ a ∈ input, ∀ b ∈ input, near a b = true ↔ Conflict a b) :
    KeepsBest Conflict input (greedyFrom near [] (sort input)) := by
  obtain ⟨added, h1, h2, h3, h4⟩ := greedyFrom_spec near (sort input) []
  rw [List.nil_append] at h1
  rw [h1]
  have hmem : ∀ x ∈ added, x ∈ input := fun x hx => (hs.perm input).mem_iff.1 (h2.subset hx)
  refine ⟨(hs.sorted input).sublist h2, h2.subperm.trans (hs.perm input).subperm, ?_, ?_⟩
  · have := h3 List.Pairwise.nil
    rw [List.nil_append] at this
    refine List.Pairwise.imp_of_mem ?_ this
    intro a b ha hb hn hc
    rw [(h b (hmem b hb) a (hmem a ha)).2 (hsym _ _ hc)] at hn
    cases hn
  · intro c hc
    obtain ⟨l1, l2, hl⟩ := List.append_of_mem ((hs.perm input).mem_iff.2 hc)
    rcases h4 l1 c l2 hl with h | ⟨x, hx, hxm, hn⟩
    · exact Or.inl h
    · refine Or.inr ⟨x, by simpa using hxm, ?_, (h c hc x (hmem x (by simpa using hxm))).1 hn⟩
      rcases hx with hx | hx
      · cases hx
      · have := hs.sorted input
        rw [hl, List.pairwise_append] at this
        exact this.2.2 x hx c (by simp)

/-- Two centers conflict for `removeOverlapping` with tolerance `tol`: on each axis they are closer
than `tol` times the contact distance, and `tol` times their distance is less than the contact
distance. -/
def TolConflict (tol : G) (a b : Center d G) : Prop :=
  (∀ i, |a.coords i - b.coords i| < (a.r + b.r) * tol) ∧ tol ^ 2 * sqDiff a b < (a.r + b.r) ^ 2

/-- The distance between two centers is less than `k` times the contact distance. -/
def CloserThan (k : G) (a b : Center d G) : Prop := sqDiff a b < (k * (a.r + b.r)) ^ 2

theorem TolConflict.symm {tol : G} {a b : Center d G} (h : TolConflict tol a b) : TolConflict tol b a := by
  refine ⟨fun i => ?_, ?_⟩
  · rw [abs_sub_comm, add_comm]; exact h.1 i
  · rw [sqDiff_comm, add_comm]; exact h.2

theorem CloserThan.symm {k : G} {a b : Center d G} (h : CloserThan k a b) :
    CloserThan k b a := by
  unfold CloserThan at *
  rw [sqDiff_comm, add_comm]; exact h

theorem near_tol_iff (tol : G) (a b : Center d G) :
    near tol (tolTest tol) a b = true ↔ TolConflict tol a b := by
  unfold near TolConflict
  rw [Bool.and_eq_true, box_iff]
  simp [tolTest, pow_two]

/-- **C31**, tree version, any tolerance. `removeOverlapping` never faults, keeps the best centers that
do not conflict, and the tree it returns holds exactly one box per kept center, with its rank. -/
theorem C31_tree {P : RParams G} {H : Heur d G} (hP : P.Valid) (hH : H.Valid P)
    {sort : List (Center d G) → List (Center d G)} (hs : SortsByIntensity sort)
    (centers : List (Center d G)) (tol : G) :
    ∃ kept tree, removeOverlapping P H sort centers tol = .ok (kept, tree) ∧
      KeepsBest (TolConflict tol) centers kept ∧ RTree.Reachable P H false tree ∧
      tree.content.Perm (kept.zipIdx.map (fun ci => ⟨ci.1.getBB tol, ci.2⟩)) := by
  obtain ⟨t, h1, h2, h3⟩ := sieve_ok hP hH (test := tolTest tol) (sort centers) [] RTree.empty
    RTree.Reachable.empty (tol := tol) (by simp [RTree.empty, RTree.content, leavesOf])
  refine ⟨_, t, h1, ?_, h2, h3⟩
  exact keepsBest_of hs centers (fun a b => TolConflict.symm) (fun a _ b _ => near_tol_iff tol a b)

/-- **C31**, brute force version: conflicting centers are those whose distance is less than the
contact distance. -/
theorem C31_brute_force {sort : List (Center d G) → List (Center d G)} (hs : SortsByIntensity sort)
    (centers : List (Center d G)) :
    KeepsBest (CloserThan 1) centers (removeOverlappingBruteForce sort centers) := by
  refine keepsBest_of (near := bruteTest) hs centers (fun a b h => h.symm) (fun a _ b _ => ?_)
  unfold bruteTest CloserThan
  rw [one_mul, decide_eq_true_iff]

theorem tolConflict_one {a b : Center d G} (ha : 0 ≤ a.r) (hb : 0 ≤ b.r) :
    TolConflict 1 a b ↔ CloserThan 1 a b := by
  unfold TolConflict CloserThan
  constructor
  · intro h; have := h.2; rw [one_pow, one_mul] at this; rwa [one_mul]
  · intro h
    rw [one_mul] at h
    refine ⟨fun i => ?_, by rw [one_pow, one_mul]; exact h⟩
    rw [mul_one]
    exact abs_lt_of_sq_lt_sq (lt_of_le_of_lt (sq_le_sqDiff a b i) h) (by linarith)

/-- **C31**, agreement of the two versions at a tolerance of 1, for non negative radii (the same sort
being used). -/
theorem C31_tree_eq_brute_force {P : RParams G} {H : Heur d G} (hP : P.Valid) (hH : H.Valid P)
    {sort : List (Center d G) → List (Center d G)} (hs : SortsByIntensity sort)
    (centers : List (Center d G)) (hr : ∀ c ∈ centers, 0 ≤ c.r) :
    ∃ tree, removeOverlapping P H sort centers 1 =
      .ok (removeOverlappingBruteForce sort centers, tree) := by
  obtain ⟨t, h1, -, -⟩ := sieve_ok hP hH (test := tolTest 1) (sort centers) [] RTree.empty
    RTree.Reachable.empty (tol := 1) (by simp [RTree.empty, RTree.content, leavesOf])
  refine ⟨t, ?_⟩
  unfold removeOverlapping
  rw [h1]
  congr 2
  show _ = greedyFrom bruteTest [] (sort centers)
  apply greedyFrom_congr
  intro c hc x hx
  have hc' := (hs.perm centers).mem_iff.1 hc
  have hx' := (hs.perm centers).mem_iff.1 (by simpa using hx)
  rw [Bool.eq_iff_iff, near_tol_iff, tolConflict_one (hr c hc') (hr x hx')]
  unfold bruteTest CloserThan
  rw [one_mul, decide_eq_true_iff]

/-- **C31**, small tolerances (the default is 1/2). Two centers conflict as soon as they are closer than
`tol` times the contact distance along each axis: the Euclidean test is always passed. So kept
centers are never closer than `tol` times the contact distance. -/
theorem C31_small_tolerance {a b : Center d G} (ha : 0 ≤ a.r) (hb : 0 ≤ b.r) (hd : 0 < d) {tol : G}
    (h0 : 0 ≤ tol) (h1 : d * tol ^ 4 ≤ 1) :
    (TolConflict tol a b ↔ ∀ i, |a.coords i - b.coords i| < (a.r + b.r) * tol) ∧
    (CloserThan tol a b → TolConflict tol a b) := by
  have key : (∀ i, |a.coords i - b.coords i| < (a.r + b.r) * tol) → TolConflict tol a b := by
    intro h
    refine ⟨h, ?_⟩
    have i0 : Fin d := ⟨0, hd⟩
    have hpos : 0 < (a.r + b.r) * tol := lt_of_le_of_lt (abs_nonneg _) (h i0)
    have htol : 0 < tol := lt_of_le_of_ne h0 (by rintro rfl; simp at hpos)
    have hS : 0 < a.r + b.r := by
      rcases lt_or_eq_of_le (show 0 ≤ a.r + b.r by linarith) with h | h
      · exact h
      · rw [← h] at hpos; simp at hpos
    have hlt : sqDiff a b < d * ((a.r + b.r) * tol) ^ 2 := by
      unfold sqDiff
      have : ∀ i ∈ Finset.univ, (a.coords i - b.coords i) ^ 2 < ((a.r + b.r) * tol) ^ 2 := fun i _ =>
        sq_lt_sq' (by have := abs_lt.1 (h i); linarith) (abs_lt.1 (h i)).2
      calc _ < ∑ _i : Fin d, ((a.r + b.r) * tol) ^ 2 :=
            Finset.sum_lt_sum_of_nonempty ⟨i0, Finset.mem_univ _⟩ this
        _ = d * ((a.r + b.r) * tol) ^ 2 := by simp
    have ht2 : 0 < tol ^ 2 := by positivity
    have hS2 : 0 < (a.r + b.r) ^ 2 := by positivity
    calc tol ^ 2 * sqDiff a b < tol ^ 2 * (d * ((a.r + b.r) * tol) ^ 2) :=
          mul_lt_mul_of_pos_left hlt ht2
      _ = (d * tol ^ 4) * (a.r + b.r) ^ 2 := by ring
      _ ≤ 1 * (a.r + b.r) ^ 2 := mul_le_mul_of_nonneg_right h1 hS2.le
      _ = (a.r + b.r) ^ 2 := one_mul _
  refine ⟨⟨fun h => h.1, key⟩, ?_⟩
  intro h
  apply key
  intro i
  unfold CloserThan at h
  rw [mul_comm (a.r + b.r)]
  exact abs_lt_of_sq_lt_sq (lt_of_le_of_lt (sq_le_sqDiff a b i) h) (mul_nonneg h0 (by linarith))

/-- **C31**, tolerances above 1. Two centers conflict when their distance is less than the contact
distance *divided* by the tolerance: a larger tolerance removes fewer centers. -/
theorem C31_large_tolerance {a b : Center d G} (ha : 0 ≤ a.r) (hb : 0 ≤ b.r) {tol : G} (h1 : 1 ≤ tol) :
    TolConflict tol a b ↔ CloserThan (1 / tol) a b := by
  have ht : 0 < tol := lt_of_lt_of_le one_pos h1
  have hS : 0 ≤ a.r + b.r := by linarith
  have e : sqDiff a b < (1 / tol * (a.r + b.r)) ^ 2 ↔ tol ^ 2 * sqDiff a b < (a.r + b.r) ^ 2 := by
    rw [mul_pow, one_div, inv_pow, inv_mul_eq_div, lt_div_iff₀ (by positivity), mul_comm]
  unfold TolConflict CloserThan
  rw [e]
  refine ⟨fun h => h.2, fun h => ⟨fun i => ?_, h⟩⟩
  have h2 : 1 ≤ tol ^ 2 := one_le_pow₀ h1
  have h3 : sqDiff a b ≤ tol ^ 2 * sqDiff a b := le_mul_of_one_le_left (sqDiff_nonneg a b) h2
  have h4 := abs_lt_of_sq_lt_sq (lt_of_le_of_lt (sq_le_sqDiff a b i) (lt_of_le_of_lt h3 h)) hS
  exact lt_of_lt_of_le h4 (le_mul_of_one_le_right hS h1)

/-- **C31**, disagreement at the default tolerance of 1/2: two centers farther apart than half of the
contact distance still conflict. -/
theorem C31_tolerance_counterexample :
    ∃ a b : Center 2 ℚ, a.r = 1 ∧ b.r = 1 ∧ ¬ CloserThan (1 / 2) a b ∧ TolConflict (1 / 2) a b := by
  refine ⟨⟨fun _ => 0, 1, 0⟩, ⟨fun _ => 9 / 10, 1, 0⟩, rfl, rfl, ?_, ?_, ?_⟩
  · simp [CloserThan, sqDiff]; norm_num
  · intro i; norm_num [abs_of_neg]
  · simp [sqDiff]; norm_num

/-- Two centers conflict for `removeHalfOverlapping` when one contains the center of the other. -/
def HalfConflict (a b : Center d G) : Prop := sqDiff a b < max a.r b.r ^ 2

/-- **C31**, `removeHalfOverlapping`, for non negative radii. -/
theorem C31_half {P : RParams G} {H : Heur d G} (hP : P.Valid) (hH : H.Valid P)
    {sort : List (Center d G) → List (Center d G)} (hs : SortsByIntensity sort)
    (centers : List (Center d G)) (hr : ∀ c ∈ centers, 0 ≤ c.r) :
    ∃ kept tree, removeHalfOverlapping P H sort centers = .ok (kept, tree) ∧
      KeepsBest HalfConflict centers kept := by
  obtain ⟨t, h1, h2, h3⟩ := sieve_ok hP hH (test := halfTest) (sort centers) [] RTree.empty
    RTree.Reachable.empty (tol := 1) (by simp [RTree.empty, RTree.content, leavesOf])
  refine ⟨_, t, h1, ?_⟩
  refine keepsBest_of hs centers (fun a b h => ?_) (fun a ha b hb => ?_)
  · unfold HalfConflict at *; rw [sqDiff_comm, max_comm]; exact h
  · unfold near HalfConflict
    rw [Bool.and_eq_true, box_iff]
    simp only [halfTest, decide_eq_true_iff]
    refine ⟨fun h => h.2, fun h => ⟨fun i => ?_, h⟩⟩
    have ha := hr a ha
    have hb := hr b hb
    have h4 := abs_lt_of_sq_lt_sq (lt_of_le_of_lt (sq_le_sqDiff a b i) h) (le_max_of_le_left ha)
    refine lt_of_lt_of_le h4 ?_
    rw [mul_one]
    exact max_le (by linarith) (by linarith)

/-- A sort by intensity exists, and the hypotheses on tree parameters and heuristics are met by
the code (`C12_code`). -/
example : SortsByIntensity (fun l : List (Center 2 ℚ) =>
    l.mergeSort (fun a b => decide (a.intensity ≤ b.intensity))) := by
  refine ⟨fun l => List.mergeSort_perm l _, fun l => ?_⟩
  have := List.pairwise_mergeSort (le := fun a b : Center 2 ℚ => decide (a.intensity ≤ b.intensity))
    (fun a b c h1 h2 => by simp at *; exact le_trans h1 h2)
    (fun a b => by simp; exact le_total _ _) l
  exact this.imp (by simp)

/-- In two and three dimensions the default tolerance is small in the sense of `C31_small_tolerance`. -/
example : ((2 : Nat) : ℚ) * (1 / 2) ^ 4 ≤ 1 ∧ ((3 : Nat) : ℚ) * (1 / 2) ^ 4 ≤ 1 := by norm_num

end Center
end Colloids
