import Verif.Index.Lemmas
import Verif.RStar.Props

/-! # Properties C18 and C29, and C13, C16, C17 at the level of the index classes -/

namespace Colloids

section
variable {G : Type} [Field G] [LinearOrder G] [IsStrictOrderedRing G]

/-! ## C13 for the index classes -/

/-- C13. The query of the R* index returns each number at most once, in increasing order, and only
numbers of boxes enclosed by the query box. -/
theorem C13_index_sound {P : RParams G} {H : Heur 3 G} (hP : P.Valid) (hH : H.Valid P) {tr : Bool}
    {t : RStarIndex G} (ht : RTree.Reachable P H tr t) (q : Box 3 G) :
    (RStarIndex.select t q).Pairwise (· < ·) ∧
    ∀ j ∈ RStarIndex.select t q, ∃ l ∈ t.content, l.val = j ∧ q.Contains l.bound := by
  refine ⟨sortUnique_sorted _, ?_⟩
  intro j hj
  rw [RStarIndex.select, mem_sortUnique, List.mem_map] at hj
  obtain ⟨l, hl, rfl⟩ := hj
  have := (C13_enclosing_sound hP hH ht q).subset hl
  rw [List.mem_filter, Box.encloses_iff] at this
  exact ⟨l, this.1, rfl, this.2⟩

/-- C13. The query of the R* index returns the number of every enclosed box that has a positive extent
or is in the interior of the query box. Missing: boxes without extent on the boundary of the query. -/
theorem C13_index_complete_partial {P : RParams G} {H : Heur 3 G} (hP : P.Valid) (hH : H.Valid P)
    {tr : Bool} {t : RStarIndex G} (ht : RTree.Reachable P H tr t) (q : Box 3 G) (l : Leaf 3 G Nat)
    (hl : l ∈ t.content) (hq : q.Contains l.bound)
    (hpos : (∀ a, l.bound.lo a < l.bound.hi a) ∨ ∀ a, q.lo a < l.bound.lo a ∧ l.bound.hi a < q.hi a)
    (hle : ∀ a, l.bound.lo a ≤ l.bound.hi a) :
    l.val ∈ RStarIndex.select t q := by
  have hov : q.overlaps l.bound = true := by
    rw [Box.overlaps_iff]
    intro a
    have h1 := hq a
    have h2 := hle a
    rcases hpos with h | h
    · have h3 := h a
      exact ⟨lt_of_le_of_lt h1.1 h3, lt_of_lt_of_le h3 h1.2⟩
    · have h3 := h a
      exact ⟨lt_of_lt_of_le h3.1 h2, lt_of_le_of_lt h2 h3.2⟩
  rw [RStarIndex.select, mem_sortUnique, List.mem_map]
  refine ⟨l, ?_, rfl⟩
  have h1 := C13_enclosing_interior hP hH ht q
  have h2 : l ∈ t.content.filter (fun l => q.encloses l.bound && q.overlaps l.bound) := by
    rw [List.mem_filter]
    refine ⟨hl, ?_⟩
    rw [Bool.and_eq_true, Box.encloses_iff]
    exact ⟨hq, hov⟩
  rw [← h1] at h2
  exact (List.mem_filter.1 h2).1

/-- C13. An index built from boxes of positive extent returns exactly the positions of the boxes
enclosed by the query box, in increasing order. -/
theorem C13_index_of_boxes {P : RParams G} {H : Heur 3 G} (hP : P.Valid) (hH : H.Valid P)
    (boxes : List (Box 3 G)) (hpos : ∀ b ∈ boxes, ∀ a, b.lo a < b.hi a) :
    ∃ t, RStarIndex.ofBoxes P H boxes = .ok t ∧ ∀ q : Box 3 G,
      (RStarIndex.select t q).Pairwise (· < ·) ∧
      ∀ j, j ∈ RStarIndex.select t q ↔ ∃ b, boxes[j]? = some b ∧ q.Contains b := by
  obtain ⟨t, h1, h2, -⟩ := C12_insertions hP hH (boxes.zipIdx.map fun b => (⟨b.1, b.2⟩ : Leaf 3 G Nat))
  have hr : RTree.Reachable P H false t := RTree.Reachable.insertAll _ .empty h1
  have hmem : ∀ l, l ∈ t.content ↔ boxes[l.val]? = some l.bound := by
    intro l
    rw [h2.mem_iff, List.mem_map]
    constructor
    · rintro ⟨⟨b, i⟩, hb, rfl⟩
      exact List.mem_zipIdx_iff_getElem?.1 hb
    · intro h
      exact ⟨(l.bound, l.val), List.mem_zipIdx_iff_getElem?.2 h, rfl⟩
  refine ⟨t, h1, ?_⟩
  intro q
  obtain ⟨k1, k2⟩ := C13_index_sound hP hH hr q
  refine ⟨k1, ?_⟩
  intro j
  constructor
  · intro hj
    obtain ⟨l, hl, rfl, hq⟩ := k2 j hj
    exact ⟨l.bound, (hmem l).1 hl, hq⟩
  · rintro ⟨b, hb, hq⟩
    have hbp := hpos b (List.mem_of_getElem? hb)
    exact C13_index_complete_partial hP hH hr q ⟨b, j⟩ ((hmem _).2 hb) hq (.inl hbp)
      (fun a => le_of_lt (hbp a))

omit [Field G] [IsStrictOrderedRing G] in
/-- The brute force index reads its `overallBox` pointer, never initialised, at the first insertion. -/
theorem C13_brute_uninitialised (i : Nat) (b : Box 3 G) :
    (BruteIndex.fresh : BruteIndex G).insert i b = .error .ub := rfl

omit [Field G] [IsStrictOrderedRing G] in
theorem BruteIndex.mem_mmInsertBox {i : Nat} {b : Box 3 G} {l : List (Nat × Box 3 G)} {x : Nat × Box 3 G} :
    x ∈ mmInsertBox i b l ↔ x = (i, b) ∨ x ∈ l := by
  induction l with
  | nil => simp [mmInsertBox]
  | cons y l ih =>
    rw [mmInsertBox]
    split
    · simp
    · simp only [List.mem_cons, ih]; tauto

omit [Field G] [IsStrictOrderedRing G] in
/-- C13. If the pointer of the brute force index happens to be null, then after any insertions its query
returns exactly the numbers of the enclosed boxes, once each, and its overall box is the tight box.
Missing: the constructor does not make the pointer null (`C13_brute_uninitialised`). -/
theorem C13_brute_partial (items : List (Nat × Box 3 G)) (hne : items ≠ []) :
    ∃ s B, items.foldlM (fun s x => s.insert x.1 x.2) (⟨.null, []⟩ : BruteIndex G) = .ok s ∧
      (∀ q, (s.select q).Pairwise (· < ·) ∧
        ∀ j, j ∈ s.select q ↔ ∃ b, (j, b) ∈ items ∧ q.Contains b) ∧
      s.getOverallBox = .ok B ∧ (∀ x ∈ items, B.Contains x.2) ∧
      ∀ X : Box 3 G, (∀ x ∈ items, X.Contains x.2) → X.Contains B := by
  have key : ∀ (items : List (Nat × Box 3 G)) (s : BruteIndex G) (B : Box 3 G), s.overallBox = .obj B →
      ∃ s' B', items.foldlM (fun s x => s.insert x.1 x.2) s = .ok s' ∧ s'.overallBox = .obj B' ∧
        (∀ x, x ∈ s'.items ↔ x ∈ s.items ∨ x ∈ items) ∧
        B'.Contains B ∧ (∀ x ∈ items, B'.Contains x.2) ∧
        ∀ X : Box 3 G, X.Contains B → (∀ x ∈ items, X.Contains x.2) → X.Contains B' := by
    intro items
    induction items with
    | nil => intro s B hB; exact ⟨s, B, rfl, hB, by simp, Box.Contains.refl _, by simp, fun X h _ => h⟩
    | cons x items ih =>
      intro s B hB
      obtain ⟨s', B', h1, h2, h3, h4, h5, h6⟩ :=
        ih ⟨.obj (B.stretch x.2), BruteIndex.mmInsertBox x.1 x.2 s.items⟩ _ rfl
      refine ⟨s', B', ?_, h2, ?_, ?_, ?_, ?_⟩
      · have hins : s.insert x.1 x.2 = .ok ⟨.obj (B.stretch x.2), BruteIndex.mmInsertBox x.1 x.2 s.items⟩ := by
          simp [BruteIndex.insert, hB]
        rw [List.foldlM_cons, hins]
        exact h1
      · intro y
        rw [h3]
        dsimp only
        rw [BruteIndex.mem_mmInsertBox, List.mem_cons]
        tauto
      · exact h4.trans (Box.stretch_left _ _)
      · intro y hy
        rcases List.mem_cons.1 hy with rfl | hy
        · exact h4.trans (Box.stretch_right _ _)
        · exact h5 y hy
      · intro X hB hX
        exact h6 X (Box.stretch_le hB (hX x (by simp))) (fun y hy => hX y (by simp [hy]))
  match items, hne with
  | x :: items, _ =>
    obtain ⟨s', B', h1, h2, h3, h4, h5, h6⟩ := key items ⟨.obj x.2, [(x.1, x.2)]⟩ x.2 rfl
    refine ⟨s', B', ?_, ?_, by simp [BruteIndex.getOverallBox, h2], ?_, ?_⟩
    · rw [List.foldlM_cons]
      exact h1
    · intro q
      refine ⟨sortUnique_sorted _, ?_⟩
      intro j
      rw [BruteIndex.select, mem_sortUnique, List.mem_map]
      constructor
      · rintro ⟨y, hy, rfl⟩
        rw [List.mem_filter, h3, Box.encloses_iff] at hy
        refine ⟨y.2, ?_, hy.2⟩
        have := hy.1
        simpa using this
      · rintro ⟨b, hb, hq⟩
        refine ⟨(j, b), ?_, rfl⟩
        rw [List.mem_filter, h3, Box.encloses_iff]
        refine ⟨?_, hq⟩
        simpa using hb
    · intro y hy
      rcases List.mem_cons.1 hy with rfl | hy
      · exact h4
      · exact h5 y hy
    · intro X hX
      exact h6 X (hX x (by simp)) (fun y hy => hX y (by simp [hy]))

/-! ## C16 for the index classes -/

/-- C16. The R* index translated by `v` answers the translated query with the same numbers. -/
theorem C16_index {P : RParams G} {H : Heur 3 G} (hP : P.Valid) (hH : H.Valid P) {tr : Bool}
    {t : RStarIndex G} (ht : RTree.Reachable P H tr t) (v : Fin 3 → G) (q : Box 3 G) :
    RStarIndex.select (t.translate v) (q.translate v) = RStarIndex.select t q := by
  unfold RStarIndex.select
  rw [(C16_queries hP hH ht v q).2, List.map_map]
  rfl

/-- C16. Likewise for the brute force index, but its overall box stays where it was (whereas
`getInside` starts from it): see `C16_brute_box_counterexample`. -/
theorem C16_brute_partial (s : BruteIndex G) (v : Fin 3 → G) (q : Box 3 G) :
    (s.translate v).select (q.translate v) = s.select q := by
  unfold BruteIndex.select BruteIndex.translate
  dsimp only
  rw [List.filter_map, List.map_map]
  congr 1
  have : ((fun x : Nat × Box 3 G => (q.translate v).encloses x.2) ∘ fun x : Nat × Box 3 G => (x.1, x.2.translate v)) =
      fun x : Nat × Box 3 G => q.encloses x.2 := by
    funext x
    exact Box.translate_encloses
  rw [this]
  rfl

/-- The brute force index does not translate its overall box. -/
theorem C16_brute_box_counterexample (s : BruteIndex G) (B : Box 3 G) (hB : s.getOverallBox = .ok B)
    (v : Fin 3 → G) (a : Fin 3) (hv : v a ≠ 0) :
    (s.translate v).getOverallBox = .ok B ∧ B ≠ B.translate v := by
  refine ⟨hB, ?_⟩
  intro h
  have := congrFun (congrArg Box.lo h) a
  simp only [Box.translate] at this
  exact hv (left_eq_add.1 this)

/-! ## C18 -/

/-- `b` is at least `margin` away from the sides of `B`, on the axes where `B` is wider than `2*margin`,
the third axis being left alone if `noZ`. -/
def InsideMargin (B : Box 3 G) (margin : G) (noZ : Bool) (b : Box 3 G) : Prop :=
  ∀ a : Fin 3, (noZ = true → a ≠ 2) → B.hi a - B.lo a > 2 * margin →
    B.lo a + margin ≤ b.lo a ∧ b.hi a ≤ B.hi a - margin

omit [IsStrictOrderedRing G] in
theorem insideBox_contains {B b : Box 3 G} {margin : G} {noZ : Bool} (hB : B.Contains b) :
    (insideBox B margin noZ).Contains b ↔ InsideMargin B margin noZ b := by
  have hax : ∀ a : Fin 3, a.val < 3 - noZ.toNat ↔ (noZ = true → a ≠ 2) := by
    intro a
    cases noZ <;> simp
    · constructor
      · intro h h'; subst h'; simp at h
      · intro h; have := Fin.val_ne_of_ne h; simp at this; omega
  unfold InsideMargin Box.Contains insideBox
  dsimp only
  constructor
  · intro h a h1 h2
    have := h a
    rwa [if_pos ⟨(hax a).2 h1, h2⟩, if_pos ⟨(hax a).2 h1, h2⟩] at this
  · intro h a
    by_cases hc : a.val < 3 - noZ.toNat ∧ B.hi a - B.lo a > 2 * margin
    · rw [if_pos hc, if_pos hc]
      exact h a ((hax a).1 hc.1) hc.2
    · rw [if_neg hc, if_neg hc]
      exact hB a

theorem overall_contains {P : RParams G} {H : Heur 3 G} (hP : P.Valid) (hH : H.Valid P) {tr : Bool}
    {t : RStarIndex G} (ht : RTree.Reachable P H tr t) {B : Box 3 G} (hB : t.getOverallBox = .ok B) :
    ∀ l ∈ t.content, B.Contains l.bound := by
  have hi := RTree.reachable_inv hP hH ht
  unfold RTree.getOverallBox at hB
  unfold RTree.content
  cases hr : t.root with
  | none => rw [hr] at hB; cases hB
  | some r =>
    rw [hr] at hB
    cases hB
    obtain ⟨h, hw⟩ := hi.1 r hr
    exact hw.contains

/-- C18. On an index that is not empty `getInside` returns, in increasing order and once each, numbers
of boxes inside the margin. -/
theorem C18_sound {P : RParams G} {H : Heur 3 G} (hP : P.Valid) (hH : H.Valid P) {tr : Bool}
    {t : RStarIndex G} (ht : RTree.Reachable P H tr t) (B : Box 3 G) (hB : t.getOverallBox = .ok B)
    (margin : G) (noZ : Bool) :
    ∃ L, RStarIndex.getInside t margin noZ = .ok L ∧ L.Pairwise (· < ·) ∧
      ∀ j ∈ L, ∃ l ∈ t.content, l.val = j ∧ InsideMargin B margin noZ l.bound := by
  refine ⟨RStarIndex.select t (insideBox B margin noZ), ?_, sortUnique_sorted _, ?_⟩
  · unfold RStarIndex.getInside
    rw [hB]
    rfl
  · intro j hj
    obtain ⟨l, hl, h1, h2⟩ := (C13_index_sound hP hH ht _).2 j hj
    exact ⟨l, hl, h1, (insideBox_contains (overall_contains hP hH ht hB l hl)).1 h2⟩

/-- C18. If all the boxes have a positive extent along each axis, `getInside` returns exactly the numbers
of the boxes inside the margin. Missing: boxes without extent (the boxes of particles), see
`C18_points_partial` and `C18_flat_counterexample`. -/
theorem C18_exact_partial {P : RParams G} {H : Heur 3 G} (hP : P.Valid) (hH : H.Valid P) {tr : Bool}
    {t : RStarIndex G} (ht : RTree.Reachable P H tr t) (B : Box 3 G) (hB : t.getOverallBox = .ok B)
    (hpos : ∀ l ∈ t.content, ∀ a, l.bound.lo a < l.bound.hi a) (margin : G) (noZ : Bool) :
    ∃ L, RStarIndex.getInside t margin noZ = .ok L ∧
      ∀ j, j ∈ L ↔ ∃ l ∈ t.content, l.val = j ∧ InsideMargin B margin noZ l.bound := by
  obtain ⟨L, h1, -, h3⟩ := C18_sound hP hH ht B hB margin noZ
  refine ⟨L, h1, fun j => ⟨h3 j, ?_⟩⟩
  rintro ⟨l, hl, rfl, hin⟩
  unfold RStarIndex.getInside at h1
  rw [hB, ok_bind] at h1
  cases h1
  exact C13_index_complete_partial hP hH ht _ l hl
    ((insideBox_contains (overall_contains hP hH ht hB l hl)).2 hin) (.inl (hpos l hl))
    (fun a => le_of_lt (hpos l hl a))

/-- C18 for points: a point strictly inside the margin, and strictly inside the overall box along the
axes where there is no margin, is returned. -/
theorem C18_points_partial {P : RParams G} {H : Heur 3 G} (hP : P.Valid) (hH : H.Valid P) {tr : Bool}
    {t : RStarIndex G} (ht : RTree.Reachable P H tr t) (B : Box 3 G) (hB : t.getOverallBox = .ok B)
    (margin : G) (noZ : Bool) (x : Fin 3 → G) (i : Nat) (hl : (⟨⟨x, x⟩, i⟩ : Leaf 3 G Nat) ∈ t.content)
    (hin : ∀ a, B.lo a < x a ∧ x a < B.hi a)
    (hm : ∀ a : Fin 3, (noZ = true → a ≠ 2) → B.hi a - B.lo a > 2 * margin →
      B.lo a + margin < x a ∧ x a < B.hi a - margin) :
    ∃ L, RStarIndex.getInside t margin noZ = .ok L ∧ i ∈ L := by
  refine ⟨RStarIndex.select t (insideBox B margin noZ), ?_, ?_⟩
  · unfold RStarIndex.getInside
    rw [hB]
    rfl
  · have hcon : (insideBox B margin noZ).Contains (⟨x, x⟩ : Box 3 G) := by
      rw [insideBox_contains (fun a => ⟨le_of_lt (hin a).1, le_of_lt (hin a).2⟩)]
      exact fun a h1 h2 => ⟨le_of_lt (hm a h1 h2).1, le_of_lt (hm a h1 h2).2⟩
    have hstr : ∀ a, (insideBox B margin noZ).lo a < x a ∧ x a < (insideBox B margin noZ).hi a := by
      intro a
      unfold insideBox
      dsimp only
      by_cases hc : a.val < 3 - noZ.toNat ∧ B.hi a - B.lo a > 2 * margin
      · rw [if_pos hc, if_pos hc]
        refine hm a ?_ hc.2
        intro hz h2
        subst h2
        subst hz
        have := hc.1
        simp at this
      · rw [if_neg hc, if_neg hc]
        exact hin a
    exact C13_index_complete_partial hP hH ht _ ⟨⟨x, x⟩, i⟩ hl hcon (.inr hstr) (fun a => le_refl _)

/-- C18 fails for flat systems: if all the boxes are at the same coordinate along some axis, nothing is
ever returned, although with `margin ≥ 0` this axis is documented to be ignored. -/
theorem C18_flat_counterexample {t : RStarIndex G} (B : Box 3 G) (hB : t.getOverallBox = .ok B) (a : Fin 3)
    (hflat : B.lo a = B.hi a) (margin : G) (hm : 0 ≤ margin) (noZ : Bool) :
    RStarIndex.getInside t margin noZ = .ok [] := by
  unfold RStarIndex.getInside
  rw [hB, ok_bind]
  have hno : (insideBox B margin noZ).overlaps B = false := by
    rw [Bool.eq_false_iff, Ne, Box.overlaps_iff]
    intro h
    have h1 := (h a).1
    unfold insideBox at h1
    dsimp only at h1
    split at h1
    · rename_i hc
      have h2 := hc.2
      rw [hflat, sub_self] at h2
      have : 0 ≤ 2 * margin := mul_nonneg (by norm_num) hm
      exact absurd h2 (not_lt.2 this)
    · rw [hflat] at h1
      exact lt_irrefl _ h1
  have hq : t.queryEnclosing (insideBox B margin noZ) = [] := by
    unfold RTree.queryEnclosing RTree.query
    unfold RTree.getOverallBox at hB
    cases hr : t.root with
    | none => rfl
    | some r =>
      rw [hr] at hB
      cases hB
      cases r with
      | leaves b items => rw [RNode.bound] at hno; simp [RNode.query, RNode.bound, hno]
      | inner b items => rw [RNode.bound] at hno; simp [RNode.query, RNode.bound, hno]
  rw [RStarIndex.select, hq]
  simp [sortUnique, listUnique]

omit [IsStrictOrderedRing G] in
/-- C18. On an empty index `getInside` throws. -/
theorem C18_empty (margin : G) (noZ : Bool) :
    RStarIndex.getInside (RTree.empty : RStarIndex G) margin noZ = .error .outOfRange := rfl

end

/-! ## C29 -/

/-- The temporal index reads its `overallInterval` pointer, never initialised, at the first insertion. -/
theorem C29_uninitialised (i : Nat) (iv : Nat × Nat) :
    TreeIndex.fresh.insert i iv = .error .ub := rfl

/-- C29. If the pointer happens to be null, after any insertions of intervals: when some item starts at
or after the beginning of the query, the query returns, in increasing order and once each, exactly the
items that start before the query starts or at the same time and that last at least as long.
This is not the documented "spanning", see `C29_unsound`. -/
theorem C29_query_partial (items : List (Nat × Nat × Nat)) (iv : Nat × Nat)
    (hlate : ∃ x ∈ items, iv.1 ≤ x.2.1) :
    ∃ s L, (⟨.null, []⟩ : TreeIndex).insertAll items = .ok s ∧ s.select iv = .ok L ∧
      L.Pairwise (· < ·) ∧
      ∀ j, j ∈ L ↔ ∃ x ∈ items, x.1 = j ∧ x.2.1 ≤ iv.1 ∧ iv.2 - iv.1 ≤ x.2.2 - x.2.1 := by
  obtain ⟨s, h1, h2, h3⟩ := TreeIndex.insertAll_ok items ⟨.null, []⟩ (by intro h; cases h)
  obtain ⟨L, k1, k2, k3⟩ := TreeIndex.select_ok s iv ((h2 iv.1).2 (.inr hlate))
  refine ⟨s, L, h1, k1, k2, ?_⟩
  intro j
  rw [k3]
  have hno : ∀ j a len, ¬ TreeIndex.Has ⟨.null, []⟩ j a len := by
    rintro j a len ⟨row, set, h, -⟩
    simp at h
  constructor
  · rintro ⟨a, len, ha, hlen, h⟩
    rcases (h3 j a len).1 h with h | ⟨x, hx, rfl, rfl, rfl⟩
    · exact absurd h (hno _ _ _)
    · exact ⟨x, hx, rfl, ha, hlen⟩
  · rintro ⟨x, hx, rfl, ha, hlen⟩
    exact ⟨x.2.1, x.2.2 - x.2.1, ha, hlen, (h3 _ _ _).2 (.inr ⟨x, hx, rfl, rfl, rfl⟩)⟩

/-- C29. Every item spanning the queried interval is returned (same conditions). -/
theorem C29_complete_partial (items : List (Nat × Nat × Nat)) (iv : Nat × Nat) (hiv : iv.1 ≤ iv.2)
    (hlate : ∃ x ∈ items, iv.1 ≤ x.2.1) :
    ∃ s L, (⟨.null, []⟩ : TreeIndex).insertAll items = .ok s ∧ s.select iv = .ok L ∧
      ∀ x ∈ items, x.2.1 ≤ iv.1 → iv.2 ≤ x.2.2 → x.1 ∈ L := by
  obtain ⟨s, L, h1, h2, -, h4⟩ := C29_query_partial items iv hlate
  refine ⟨s, L, h1, h2, ?_⟩
  intro x hx ha hb
  exact (h4 _).2 ⟨x, hx, rfl, ha, by omega⟩

/-- C29. If all the items and the query start at the same time, exactly the spanning items are
returned. -/
theorem C29_same_start_partial (items : List (Nat × Nat × Nat)) (iv : Nat × Nat) (hne : items ≠ [])
    (hiv : iv.1 ≤ iv.2) (hs : ∀ x ∈ items, x.2.1 = iv.1 ∧ x.2.1 ≤ x.2.2) :
    ∃ s L, (⟨.null, []⟩ : TreeIndex).insertAll items = .ok s ∧ s.select iv = .ok L ∧
      ∀ j, j ∈ L ↔ ∃ x ∈ items, x.1 = j ∧ x.2.1 ≤ iv.1 ∧ iv.2 ≤ x.2.2 := by
  obtain ⟨x0, hx0⟩ := List.exists_mem_of_ne_nil items hne
  obtain ⟨s, L, h1, h2, -, h4⟩ := C29_query_partial items iv ⟨x0, hx0, le_of_eq (hs x0 hx0).1.symm⟩
  refine ⟨s, L, h1, h2, ?_⟩
  intro j
  rw [h4]
  constructor
  · rintro ⟨x, hx, rfl, ha, hb⟩
    have := hs x hx
    exact ⟨x, hx, rfl, ha, by omega⟩
  · rintro ⟨x, hx, rfl, ha, hb⟩
    exact ⟨x, hx, rfl, ha, by omega⟩

/-- C29 is false: an item that ends before the queried interval does is returned. Items 0 on [0,2] and
1 on [1,3], query [1,3]: both are returned though item 0 does not exist at time 3. -/
theorem C29_unsound : ∃ s L, (⟨.null, []⟩ : TreeIndex).insertAll [(0, 0, 2), (1, 1, 3)] = .ok s ∧
    s.select (1, 3) = .ok L ∧ 0 ∈ L := by
  obtain ⟨s, L, h1, h2, -, h4⟩ := C29_query_partial [(0, 0, 2), (1, 1, 3)] (1, 3) ⟨(1, 1, 3), by simp, by simp⟩
  exact ⟨s, L, h1, h2, (h4 0).2 ⟨(0, 0, 2), by simp, rfl, by simp, by simp⟩⟩

/-- C29. If all the items start before the query does, the query reads out of bounds, even though some
items may span the interval. -/
theorem C29_out_of_bounds (items : List (Nat × Nat × Nat)) (iv : Nat × Nat)
    (hearly : ∀ x ∈ items, x.2.1 < iv.1) :
    ∃ s, (⟨.null, []⟩ : TreeIndex).insertAll items = .ok s ∧ s.select iv = .error .ub := by
  obtain ⟨s, h1, h2, -⟩ := TreeIndex.insertAll_ok items ⟨.null, []⟩ (by intro h; cases h)
  refine ⟨s, h1, TreeIndex.select_ub s iv ?_⟩
  by_contra h
  push Not at h
  rcases (h2 iv.1).1 h with h | ⟨x, hx, h⟩
  · simp at h
  · have := hearly x hx; omega

/-! ## The hypotheses are met -/

example : ∃ x ∈ [(7, 0, 5), (8, 2, 9)], (2, 3).1 ≤ x.2.1 := ⟨(8, 2, 9), by simp, by simp⟩

example : ∀ x ∈ [(7, 0, 5), (8, 1, 9)], x.2.1 < (2, 4).1 := by simp

example : ∀ x ∈ [(7, 3, 5), (8, 3, 9)], x.2.1 = (3, 4).1 ∧ x.2.1 ≤ x.2.2 := by simp

/-- A flat index: one point. -/
example (P : RParams ℚ) (H : Heur 3 ℚ) : ∃ t B, RStarIndex.ofBoxes P H [⟨fun _ => 1, fun _ => 1⟩] = .ok t ∧
    t.getOverallBox = .ok B ∧ B.lo 2 = B.hi 2 := ⟨_, _, rfl, rfl, rfl⟩

/-- Boxes of positive extent. -/
example : ∀ b ∈ [(⟨fun _ => 0, fun _ => 1⟩ : Box 3 ℚ), ⟨fun _ => -3, fun _ => 5⟩], ∀ a, b.lo a < b.hi a := by
  intro b hb a
  simp only [List.mem_cons, List.not_mem_nil, or_false] at hb
  rcases hb with rfl | rfl <;> norm_num

/-- A point strictly inside. -/
example : ∃ (B : Box 3 ℚ) (x : Fin 3 → ℚ) (margin : ℚ), (∀ a, B.lo a < x a ∧ x a < B.hi a) ∧
    ∀ a : Fin 3, (false = true → a ≠ 2) → B.hi a - B.lo a > 2 * margin →
      B.lo a + margin < x a ∧ x a < B.hi a - margin :=
  ⟨⟨fun _ => 0, fun _ => 10⟩, fun _ => 5, 1, by intro a; norm_num, by intro a _ _; norm_num⟩

end Colloids
