import Verif.Index.STModel
import Verif.Index.Props
import Mathlib.Tactic.IntervalCases

/-! # Spatio-temporal queries -/

namespace Colloids

section
variable {G : Type} [Field G] [LinearOrder G] [IsStrictOrderedRing G]

/-- What an implementation of the index promises for objects that have a time interval and a box: the query gives, in
order, those that span the interval and are in the box; the overall box and interval contain all the objects. -/
structure STExact (S : STQueries G) (objs : List ((Nat × Nat) × Box 3 G)) : Prop where
  sorted : ∀ i b, (S.query i b).Pairwise (· < ·)
  mem : ∀ i b j, j ∈ S.query i b ↔ ∃ o, objs[j]? = some o ∧ o.1.1 ≤ i.1 ∧ i.2 ≤ o.1.2 ∧ b.Contains o.2
  box : ∀ o ∈ objs, S.overallBox.Contains o.2
  interval : ∀ o ∈ objs, S.overallInterval.1 ≤ o.1.1 ∧ o.1.2 ≤ S.overallInterval.2

omit [IsStrictOrderedRing G] [Field G] in
/-- C127. `selectSpanning` with an index: exactly the objects that exist during all the interval. -/
theorem C127_spanning {S : STQueries G} {objs : List ((Nat × Nat) × Box 3 G)} (h : STExact S objs) (i : Nat × Nat) :
    (S.spanning i).Pairwise (· < ·) ∧
      ∀ j, j ∈ S.spanning i ↔ ∃ o, objs[j]? = some o ∧ o.1.1 ≤ i.1 ∧ i.2 ≤ o.1.2 := by
  refine ⟨h.sorted _ _, fun j => ?_⟩
  unfold STQueries.spanning
  rw [h.mem]
  constructor
  · rintro ⟨o, h1, h2, h3, -⟩; exact ⟨o, h1, h2, h3⟩
  · rintro ⟨o, h1, h2, h3⟩; exact ⟨o, h1, h2, h3, h.box o (List.mem_of_getElem? h1)⟩

omit [IsStrictOrderedRing G] in
/-- C127. `selectSpanningInside`: those that, moreover, stay at least `margin` away from the sides of the overall box
along the axes that are longer than two margins. -/
theorem C127_inside {S : STQueries G} {objs : List ((Nat × Nat) × Box 3 G)} (h : STExact S objs) (i : Nat × Nat)
    (margin : G) :
    (S.spanningInside i margin).Pairwise (· < ·) ∧
      ∀ j, j ∈ S.spanningInside i margin ↔ ∃ o, objs[j]? = some o ∧ o.1.1 ≤ i.1 ∧ i.2 ≤ o.1.2 ∧
        InsideMargin S.overallBox margin false o.2 := by
  refine ⟨h.sorted _ _, fun j => ?_⟩
  unfold STQueries.spanningInside
  rw [h.mem]
  constructor
  · rintro ⟨o, h1, h2, h3, h4⟩
    exact ⟨o, h1, h2, h3, (insideBox_contains (h.box o (List.mem_of_getElem? h1))).1 h4⟩
  · rintro ⟨o, h1, h2, h3, h4⟩
    exact ⟨o, h1, h2, h3, (insideBox_contains (h.box o (List.mem_of_getElem? h1))).2 h4⟩

omit [IsStrictOrderedRing G] [Field G] in
/-- C127. `selectEnclosed`: only the enclosed objects that last from the first time to the last time of the index.
Missing: the others, see `C127_enclosed_counterexample`. -/
theorem C127_enclosed_partial {S : STQueries G} {objs : List ((Nat × Nat) × Box 3 G)} (h : STExact S objs) (b : Box 3 G)
    (j : Nat) : j ∈ S.enclosed b ↔ ∃ o, objs[j]? = some o ∧ o.1 = S.overallInterval ∧ b.Contains o.2 := by
  unfold STQueries.enclosed
  rw [h.mem]
  constructor
  · rintro ⟨o, h1, h2, h3, h4⟩
    have := h.interval o (List.mem_of_getElem? h1)
    exact ⟨o, h1, Prod.ext (le_antisymm h2 this.1) (le_antisymm this.2 h3), h4⟩
  · rintro ⟨o, h1, h2, h3⟩
    exact ⟨o, h1, h2 ▸ le_rfl, h2 ▸ le_rfl, h3⟩

omit [IsStrictOrderedRing G] [Field G] in
/-- C127. `selectEnclosed` forgets any enclosed object that does not last all the time. -/
theorem C127_enclosed_counterexample {S : STQueries G} {objs : List ((Nat × Nat) × Box 3 G)} (h : STExact S objs)
    {b : Box 3 G} {j : Nat} {o : (Nat × Nat) × Box 3 G} (hj : objs[j]? = some o) (_hb : b.Contains o.2)
    (hi : o.1 ≠ S.overallInterval) : j ∉ S.enclosed b := by
  rw [C127_enclosed_partial h]
  rintro ⟨o', h1, h2, -⟩
  rw [hj] at h1
  cases h1
  exact hi h2

/-- The index is that of the trajectories of a film: object `j` exists from its first to its last position, and its box
is the smallest one that contains all its positions `x j t`. -/
structure OfFilm (objs : List ((Nat × Nat) × Box 3 G)) (x : Nat → Nat → Fin 3 → G) : Prop where
  lower : ∀ j o, objs[j]? = some o → ∀ t, o.1.1 ≤ t → t ≤ o.1.2 → ∀ a, o.2.lo a ≤ x j t a ∧ x j t a ≤ o.2.hi a
  least : ∀ j o, objs[j]? = some o → ∀ a, (∃ t, o.1.1 ≤ t ∧ t ≤ o.1.2 ∧ x j t a = o.2.lo a) ∧
    ∃ t, o.1.1 ≤ t ∧ t ≤ o.1.2 ∧ x j t a = o.2.hi a

omit [IsStrictOrderedRing G] [Field G] in
/-- Enclosing the box is enclosing all the positions. -/
theorem contains_iff {objs : List ((Nat × Nat) × Box 3 G)} {x : Nat → Nat → Fin 3 → G} (hf : OfFilm objs x) {j : Nat}
    {o : (Nat × Nat) × Box 3 G} (hj : objs[j]? = some o) (b : Box 3 G) :
    b.Contains o.2 ↔ ∀ t, o.1.1 ≤ t → t ≤ o.1.2 → ∀ a, b.lo a ≤ x j t a ∧ x j t a ≤ b.hi a := by
  unfold Box.Contains
  constructor
  · intro h t h1 h2 a
    have := hf.lower j o hj t h1 h2 a
    exact ⟨le_trans (h a).1 this.1, le_trans this.2 (h a).2⟩
  · intro h a
    obtain ⟨⟨t, h1, h2, h3⟩, ⟨s, h4, h5, h6⟩⟩ := hf.least j o hj a
    exact ⟨h3 ▸ (h t h1 h2 a).1, h6 ▸ (h s h4 h5 a).2⟩

omit [IsStrictOrderedRing G] [Field G] in
/-- C127. A slice at a time used as a spatial index: it gives the positions of the trajectories that exist at this time
and stay in the box during all their life. Missing: positions in the box of trajectories that leave it
(`C127_slice_counterexample`), and the order (`C127_order_counterexample`). -/
theorem C127_slice_partial {S : STQueries G} {objs : List ((Nat × Nat) × Box 3 G)} (h : STExact S objs)
    {x : Nat → Nat → Fin 3 → G} (hf : OfFilm objs x) {time : Nat} {conv : Nat → R Nat} {p : Nat → Nat}
    (hc : ∀ j o, objs[j]? = some o → o.1.1 ≤ time → time ≤ o.1.2 → conv j = .ok (p j)) (b : Box 3 G) :
    ∃ l, S.slice time conv b = .ok l ∧ ∀ q, q ∈ l ↔ ∃ j o, objs[j]? = some o ∧ o.1.1 ≤ time ∧ time ≤ o.1.2 ∧ p j = q ∧
      ∀ t, o.1.1 ≤ t → t ≤ o.1.2 → ∀ a, b.lo a ≤ x j t a ∧ x j t a ≤ b.hi a := by
  refine ⟨(S.query (time, time) b).map p, ?_, ?_⟩
  · unfold STQueries.slice
    have : ∀ l : List Nat, (∀ j ∈ l, conv j = .ok (p j)) → l.mapM conv = .ok (l.map p) := by
      intro l hl
      induction l with
      | nil => rfl
      | cons j l ih =>
        rw [List.mapM_cons, hl j (by simp), ih fun k hk => hl k (by simp [hk])]
        rfl
    apply this
    intro j hj
    obtain ⟨o, h1, h2, h3, -⟩ := (h.mem _ _ _).1 hj
    exact hc j o h1 h2 h3
  · intro q
    rw [List.mem_map]
    constructor
    · rintro ⟨j, hj, rfl⟩
      obtain ⟨o, h1, h2, h3, h4⟩ := (h.mem _ _ _).1 hj
      exact ⟨j, o, h1, h2, h3, rfl, (contains_iff hf h1 b).1 h4⟩
    · rintro ⟨j, o, h1, h2, h3, rfl, h4⟩
      exact ⟨j, (h.mem _ _ _).2 ⟨o, h1, h2, h3, (contains_iff hf h1 b).2 h4⟩, rfl⟩

omit [IsStrictOrderedRing G] [Field G] in
/-- C127. A particle that is in the box at the time of the slice is not given if its trajectory leaves the box at any
other time. -/
theorem C127_slice_counterexample {S : STQueries G} {objs : List ((Nat × Nat) × Box 3 G)} (h : STExact S objs)
    {x : Nat → Nat → Fin 3 → G} (hf : OfFilm objs x) {time : Nat} {conv : Nat → R Nat} {p : Nat → Nat}
    (hc : ∀ j o, objs[j]? = some o → o.1.1 ≤ time → time ≤ o.1.2 → conv j = .ok (p j))
    (hinj : ∀ j k o o', objs[j]? = some o → objs[k]? = some o' → o.1.1 ≤ time → time ≤ o.1.2 → o'.1.1 ≤ time →
      time ≤ o'.1.2 → p j = p k → j = k)
    {b : Box 3 G} {j : Nat} {o : (Nat × Nat) × Box 3 G} (hj : objs[j]? = some o) (h1 : o.1.1 ≤ time) (h2 : time ≤ o.1.2)
    {t : Nat} (ht1 : o.1.1 ≤ t) (ht2 : t ≤ o.1.2) {a : Fin 3} (hout : x j t a < b.lo a ∨ b.hi a < x j t a) :
    ∃ l, S.slice time conv b = .ok l ∧ p j ∉ l := by
  obtain ⟨l, hl, hm⟩ := C127_slice_partial h hf hc b
  refine ⟨l, hl, ?_⟩
  rw [hm]
  rintro ⟨k, o', h3, h4, h5, h6, h7⟩
  have := hinj k j o' o h3 hj h4 h5 h1 h2 h6
  subst this
  rw [hj] at h3
  cases h3
  have := h7 t ht1 ht2 a
  rcases hout with h | h
  · exact absurd this.1 (not_le.2 h)
  · exact absurd this.2 (not_le.2 h)

omit [IsStrictOrderedRing G] [Field G] in
/-- The direct implementation keeps the promise. -/
theorem bruteST_exact {objs : List ((Nat × Nat) × Box 3 G)} {B : Box 3 G} {I : Nat × Nat} (hB : ∀ o ∈ objs, B.Contains o.2)
    (hI : ∀ o ∈ objs, I.1 ≤ o.1.1 ∧ o.1.2 ≤ I.2) : STExact (bruteST objs B I) objs := by
  refine ⟨fun i b => List.Pairwise.filter _ List.pairwise_lt_range, fun i b j => ?_, hB, hI⟩
  simp only [bruteST, List.mem_filter, List.mem_range]
  constructor
  · rintro ⟨h1, h2⟩
    rw [List.getElem?_eq_getElem h1] at h2
    simp only [Bool.and_eq_true, decide_eq_true_eq, Box.encloses_iff] at h2
    exact ⟨_, List.getElem?_eq_getElem h1, h2.1.1, h2.1.2, h2.2⟩
  · rintro ⟨o, h1, h2, h3, h4⟩
    refine ⟨(List.getElem?_eq_some_iff.1 h1).1, ?_⟩
    rw [h1]
    simp only [Bool.and_eq_true, decide_eq_true_eq, Box.encloses_iff]
    exact ⟨⟨h2, h3⟩, h4⟩

end

/-- A particle that moves from 0 to 2 on each axis, and a fixed one that is only seen at time 0. -/
def exST : List ((Nat × Nat) × Box 3 ℚ) :=
  [((0, 1), ⟨fun _ => 0, fun _ => 2⟩), ((0, 0), ⟨fun _ => 1, fun _ => 1⟩)]

theorem exST_exact : STExact (bruteST exST ⟨fun _ => 0, fun _ => 2⟩ (0, 1)) exST := by
  apply bruteST_exact
  · intro o ho a
    simp only [exST, List.mem_cons, List.not_mem_nil, or_false] at ho
    rcases ho with rfl | rfl <;> norm_num
  · intro o ho
    simp only [exST, List.mem_cons, List.not_mem_nil, or_false] at ho
    rcases ho with rfl | rfl <;> simp

theorem exST_film : OfFilm exST (fun j t _ => if j = 0 then 2 * t else 1) := by
  constructor
  · intro j o hj t h1 h2 a
    match j with
    | 0 =>
      simp only [exST, List.getElem?_cons_zero, Option.some.injEq] at hj
      subst hj
      have : t ≤ 1 := h2
      interval_cases t <;> simp
    | 1 =>
      simp only [exST, List.getElem?_cons_succ, List.getElem?_cons_zero, Option.some.injEq] at hj
      subst hj
      simp
    | j + 2 => simp [exST] at hj
  · intro j o hj a
    match j with
    | 0 =>
      simp only [exST, List.getElem?_cons_zero, Option.some.injEq] at hj
      subst hj
      exact ⟨⟨0, by simp⟩, ⟨1, by simp⟩⟩
    | 1 =>
      simp only [exST, List.getElem?_cons_succ, List.getElem?_cons_zero, Option.some.injEq] at hj
      subst hj
      exact ⟨⟨0, by simp⟩, ⟨0, by simp⟩⟩
    | j + 2 => simp [exST] at hj

/-- C127. The positions that a slice gives are in the order of the trajectories: not sorted, which the neighbour lists
and their intersections need. Here trajectory 0 is position 1 and trajectory 1 is position 0. -/
theorem C127_order_counterexample :
    (bruteST exST ⟨fun _ => 0, fun _ => 2⟩ (0, 1)).slice 0 (fun j => .ok (1 - j)) ⟨fun _ => 0, fun _ => 2⟩ = .ok [1, 0] := by
  decide +kernel

/-- The hypotheses of `C127_enclosed_counterexample`: the particle seen at time 0 only. -/
example : 1 ∉ (bruteST exST ⟨fun _ => 0, fun _ => 2⟩ (0, 1)).enclosed ⟨fun _ => 0, fun _ => 2⟩ :=
  C127_enclosed_counterexample exST_exact (o := ((0, 0), ⟨fun _ => 1, fun _ => 1⟩)) rfl
    (fun a => by norm_num) (by simp [bruteST])

/-- The hypotheses of `C127_slice_counterexample`: at time 0 the first particle is in the box from 0 to 1. -/
example : ∃ l, (bruteST exST ⟨fun _ => 0, fun _ => 2⟩ (0, 1)).slice 0 (fun j => .ok (1 - j)) ⟨fun _ => 0, fun _ => 1⟩ = .ok l ∧
    1 ∉ l :=
  C127_slice_counterexample exST_exact exST_film (p := fun j => 1 - j) (fun _ _ _ _ _ => rfl)
    (by
      intro j k o o' h1 h2 _ _ _ _ h3
      have a := (List.getElem?_eq_some_iff.1 h1).1
      have b := (List.getElem?_eq_some_iff.1 h2).1
      simp only [exST, List.length_cons, List.length_nil] at a b
      omega)
    (j := 0) (o := ((0, 1), ⟨fun _ => 0, fun _ => 2⟩)) rfl (by simp) (by simp) (t := 1) (by simp) (by simp) (a := 0)
    (Or.inr (by norm_num))

end Colloids
