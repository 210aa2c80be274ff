import Verif.RStar.Lemmas
import Mathlib.Algebra.Order.Field.Basic

/-!
# Model of the heuristics of `lib/RStarTree/RStarTree.h`

`ChooseSubtree` (347-392) and the search of `Split` (491-594), with the sorting algorithms of the
standard library as parameters: `std::sort` and `std::partial_sort` are only known to permute (the
order of equivalent items is not specified).
-/

namespace Colloids
variable {d : Nat} {G : Type}

/-- `std::sort(l, lt)` and `std::partial_sort(begin, begin + k, end, lt)`. -/
structure Sorter where
  sort : {β : Type} → (β → β → Bool) → List β → List β
  psort : {β : Type} → (β → β → Bool) → Nat → List β → List β

/-- Both permute their input. -/
structure Sorter.Valid (S : Sorter) : Prop where
  sort : ∀ (β : Type) (lt : β → β → Bool) (l : List β), (S.sort lt l).Perm l
  psort : ∀ (β : Type) (lt : β → β → Bool) (k : Nat) (l : List β), (S.psort lt k l).Perm l

/-- `std::min_element`: index of the first smallest element. -/
def minElementIdx {β : Type} (lt : β → β → Bool) (l : List β) : Nat :=
  ((l.zipIdx.foldl (fun best x =>
    match best with
    | none => some x
    | some y => if lt x.1 y.1 then some x else some y) (none : Option (β × Nat))).map Prod.snd).getD 0

theorem minElementIdx_lt {β : Type} (lt : β → β → Bool) (l : List β) (h : l ≠ []) :
    minElementIdx lt l < l.length := by
  have key : ∀ (xs : List (β × Nat)) (best : Option (β × Nat)) (n : Nat), (∀ x ∈ xs, x.2 < n) →
      (∀ x ∈ best, x.2 < n) → (xs ≠ [] ∨ best ≠ none) →
      ∃ y, xs.foldl (fun best x =>
        match best with
        | none => some x
        | some y => if lt x.1 y.1 then some x else some y) best = some y ∧ y.2 < n := by
    intro xs
    induction xs with
    | nil =>
      intro best n _ hb hne
      cases best with
      | none => simp at hne
      | some y => exact ⟨y, rfl, hb y rfl⟩
    | cons x xs ih =>
      intro best n hx hb _
      rw [List.foldl_cons]
      refine ih _ n (fun y hy => hx y (by simp [hy])) ?_ (.inr ?_)
      · cases best with
        | none => intro y hy; cases hy; exact hx _ (by simp)
        | some z =>
          intro y hy
          dsimp only at hy
          split at hy
          · cases hy; exact hx _ (by simp)
          · cases hy; exact hb _ rfl
      · cases best with
        | none => simp
        | some z => dsimp only; split <;> simp
  have hz : l.zipIdx ≠ [] := by
    cases l with
    | nil => exact absurd rfl h
    | cons a l => simp
  obtain ⟨y, h1, h2⟩ := key l.zipIdx none l.length
    (fun x hx => by have := List.snd_lt_of_mem_zipIdx hx; simpa using this) (by simp) (.inl hz)
  unfold minElementIdx
  rw [h1]
  exact h2

section
variable [Field G] [LinearOrder G]

/-- `ChooseSubtree` lib/RStarTree/RStarTree.h:347-392, index of the chosen child.
`SortBoundedItemsByOverlapEnlargement` (RStarBoundingBox.h:336-347) when the children have leaves,
`SortBoundedItemsByAreaEnlargement` (323-334) otherwise. The branch with `partial_sort` (line 353)
is only taken for nodes of more than 32 items, which do not exist with the parameters used (M = 32). -/
def chooseSubtree (b : Box d G) (hl : Bool) (bounds : List (Box d G)) : Nat :=
  if hl then minElementIdx (fun x y => decide (x.overlap b < y.overlap b)) bounds
  else minElementIdx (fun x y => decide (b.area - x.area < b.area - y.area)) bounds

/-- Per axis variables of `Split` lib/RStarTree/RStarTree.h:516-520. `dist` holds `dist_overlap` and
`dist_area`, `none` standing for their initial value, the greatest number. -/
structure DistAcc (G : Type) where
  margin : G
  dist : Option (G × G)
  edge : Nat
  index : Nat

/-- Condition lib/RStarTree/RStarTree.h:563. -/
def distBetter (dist : Option (G × G)) (overlap area : G) : Bool :=
  match dist with
  | none => true
  | some (o, a) => decide (overlap < o) || (decide (overlap = o) && decide (area < a))

/-- Body of the loop over `k` lib/RStarTree/RStarTree.h:541-571. The item `m+k` is in neither box, as
in the code. -/
def distStep (P : RParams G) {β : Type} (f : β → Box d G) (items : List β) (edge : Nat)
    (acc : DistAcc G) (k : Nat) : DistAcc G :=
  let r1 := Box.hull P.mx P.mn f (items.take (P.m + k))
  let r2 := Box.hull P.mx P.mn f (items.drop (P.m + k + 1))
  let margin := acc.margin + (r1.edgeDeltas + r2.edgeDeltas)
  let area := r1.area + r2.area
  let overlap := r1.overlap r2
  if distBetter acc.dist overlap area then ⟨margin, some (overlap, area), edge, P.m + k⟩ else { acc with margin := margin }

/-- Sort by the first or second edge, lib/RStarTree/RStarTree.h:533-536. -/
def sortEdge (S : Sorter) {β : Type} (f : β → Box d G) (axis : Fin d) (edge : Nat) (items : List β) :
    List β :=
  if edge = 0 then S.sort (fun x y => decide ((f x).lo axis < (f y).lo axis)) items
  else S.sort (fun x y => decide ((f x).hi axis < (f y).hi axis)) items

/-- Body of the loop over edges, lib/RStarTree/RStarTree.h:530-572. -/
def edgeStep (P : RParams G) (S : Sorter) {β : Type} (f : β → Box d G) (axis : Fin d)
    (st : List β × DistAcc G) (edge : Nat) : List β × DistAcc G :=
  let items := sortEdge S f axis edge st.1
  (items, (List.range (items.length + 1 - 2 * P.m)).foldl (distStep P f items edge) st.2)

/-- Best split so far: `split_axis`, `split_margin`, `split_edge`, `split_index`. -/
structure SplitChoice (d : Nat) (G : Type) where
  axis : Fin d
  margin : G
  edge : Nat
  index : Nat

/-- Body of the loop over axes, lib/RStarTree/RStarTree.h:513-582. -/
def axisStep (P : RParams G) (S : Sorter) {β : Type} (f : β → Box d G)
    (st : List β × Option (SplitChoice d G)) (axis : Fin d) : List β × Option (SplitChoice d G) :=
  let r := [0, 1].foldl (edgeStep P S f axis) (st.1, ⟨0, none, 0, 0⟩)
  let new : SplitChoice d G := ⟨axis, r.2.margin, r.2.edge, r.2.index⟩
  match st.2 with
  | none => (r.1, some new)
  | some c => (r.1, if c.margin > r.2.margin then some new else some c)

/-- `Split` lib/RStarTree/RStarTree.h:491-600: final order of the items and split index. -/
def splitSearch (P : RParams G) (S : Sorter) {β : Type} (f : β → Box d G) (items : List β) :
    List β × Nat :=
  let st := (List.finRange d).foldl (axisStep P S f) (items, none)
  match st.2 with
  | none => (st.1, 0)
  | some c =>
    (if c.edge = 0 then sortEdge S f c.axis 0 st.1
     else if c.axis.val + 1 ≠ d then sortEdge S f c.axis 1 st.1
     else st.1, c.index)

/-- `partial_sort(begin, end - p, end, SortBoundedItemsByDistanceFromCenter(bound))`
lib/RStarTree/RStarTree.h:627-628, RStarBoundingBox.h:310-321. -/
def reinsertOrder (S : Sorter) {β : Type} (f : β → Box d G) (b : Box d G) (l : List β) : List β :=
  S.psort (fun x y => decide ((f x).distanceFromCenter b < (f y).distanceFromCenter b))
    (l.length - RNode.reinsertCount l.length) l

/-- The heuristics of the code. -/
def realHeur (P : RParams G) (S : Sorter) : Heur d G where
  choose := chooseSubtree
  split := splitSearch P S
  order := reinsertOrder S

theorem sortEdge_perm {S : Sorter} (hS : S.Valid) {β : Type} (f : β → Box d G) (axis : Fin d)
    (edge : Nat) (l : List β) : (sortEdge S f axis edge l).Perm l := by
  unfold sortEdge; split
  · exact hS.sort _ _ _
  · exact hS.sort _ _ _

theorem distStep_fold (P : RParams G) {β : Type} (f : β → Box d G) (items : List β) (edge N : Nat) :
    ∀ (ks : List Nat) (acc : DistAcc G), (∀ k ∈ ks, P.m + k + P.m ≤ N) →
      (acc.dist ≠ none → P.m ≤ acc.index ∧ acc.index + P.m ≤ N) →
      ((ks.foldl (distStep P f items edge) acc).dist ≠ none →
        P.m ≤ (ks.foldl (distStep P f items edge) acc).index ∧
        (ks.foldl (distStep P f items edge) acc).index + P.m ≤ N) ∧
      ((ks ≠ [] ∨ acc.dist ≠ none) → (ks.foldl (distStep P f items edge) acc).dist ≠ none) := by
  intro ks
  induction ks with
  | nil =>
    intro acc _ h
    refine ⟨h, ?_⟩
    rintro (h' | h')
    · exact absurd rfl h'
    · exact h'
  | cons k ks ih =>
    intro acc hk hacc
    rw [List.foldl_cons]
    have hk0 := hk k (by simp)
    have hstep : (distStep P f items edge acc k).dist ≠ none ∧
        (P.m ≤ (distStep P f items edge acc k).index ∧
          (distStep P f items edge acc k).index + P.m ≤ N) := by
      unfold distStep
      dsimp only
      split
      · exact ⟨by simp, show P.m ≤ P.m + k ∧ P.m + k + P.m ≤ N from ⟨by omega, by omega⟩⟩
      · rename_i hb
        cases hd : acc.dist with
        | none => rw [hd] at hb; exact absurd rfl hb
        | some x => exact ⟨by simp, hacc (by rw [hd]; simp)⟩
    obtain ⟨h1, h2⟩ := ih (distStep P f items edge acc k) (fun k' hk' => hk k' (by simp [hk']))
      (fun _ => hstep.2)
    exact ⟨h1, fun _ => h2 (.inr hstep.1)⟩

theorem axisStep_spec {P : RParams G} {S : Sorter} (hS : S.Valid) {β : Type}
    (f : β → Box d G) (axis : Fin d) (st : List β × Option (SplitChoice d G)) (N : Nat)
    (hN : st.1.length = N) (h2m : 2 * P.m ≤ N)
    (hc : ∀ c ∈ st.2, P.m ≤ c.index ∧ c.index + P.m ≤ N) :
    (axisStep P S f st axis).1.Perm st.1 ∧ (axisStep P S f st axis).2 ≠ none ∧
    ∀ c ∈ (axisStep P S f st axis).2, P.m ≤ c.index ∧ c.index + P.m ≤ N := by
  have e1 := sortEdge_perm hS f axis 0 st.1
  have e2 := sortEdge_perm hS f axis 1 (sortEdge S f axis 0 st.1)
  have l1 : (sortEdge S f axis 0 st.1).length = N := by rw [e1.length_eq, hN]
  have l2 : (sortEdge S f axis 1 (sortEdge S f axis 0 st.1)).length = N := by rw [e2.length_eq, l1]
  have hk : ∀ k ∈ List.range (N + 1 - 2 * P.m), P.m + k + P.m ≤ N := by
    intro k hk; rw [List.mem_range] at hk; omega
  have hne : List.range (N + 1 - 2 * P.m) ≠ [] := by
    intro h
    have := congrArg List.length h
    simp at this
    omega
  obtain ⟨a1, a2⟩ := distStep_fold P f (sortEdge S f axis 0 st.1) 0 N
    (List.range (N + 1 - 2 * P.m)) ⟨0, none, 0, 0⟩ hk (by simp)
  obtain ⟨b1, b2⟩ := distStep_fold P f (sortEdge S f axis 1 (sortEdge S f axis 0 st.1)) 1 N
    (List.range (N + 1 - 2 * P.m)) _ hk a1
  have hidx := b1 (b2 (.inl hne))
  unfold axisStep
  simp only [List.foldl_cons, List.foldl_nil, edgeStep, l1, l2]
  cases hs : st.2 with
  | none =>
    refine ⟨e2.trans e1, by simp, ?_⟩
    intro c hc
    simp only [Option.mem_def, Option.some.injEq] at hc
    subst hc
    exact hidx
  | some c0 =>
    dsimp only
    refine ⟨e2.trans e1, by split <;> simp, ?_⟩
    intro c hc'
    split at hc'
    · simp only [Option.mem_def, Option.some.injEq] at hc'
      subst hc'
      exact hidx
    · simp only [Option.mem_def, Option.some.injEq] at hc'
      subst hc'
      exact hc _ (by rw [hs]; rfl)

theorem splitSearch_spec {P : RParams G} {S : Sorter} (hS : S.Valid) {β : Type}
    (f : β → Box d G) (items : List β) (hd : 0 < d) (h2m : 2 * P.m ≤ items.length) :
    (splitSearch P S f items).1.Perm items ∧ P.m ≤ (splitSearch P S f items).2 ∧
    (splitSearch P S f items).2 + P.m ≤ items.length := by
  have key : ∀ (axes : List (Fin d)) (st : List β × Option (SplitChoice d G)), st.1.Perm items →
      (∀ c ∈ st.2, P.m ≤ c.index ∧ c.index + P.m ≤ items.length) → (axes ≠ [] ∨ st.2 ≠ none) →
      (axes.foldl (axisStep P S f) st).1.Perm items ∧
      ∃ c, (axes.foldl (axisStep P S f) st).2 = some c ∧ P.m ≤ c.index ∧
        c.index + P.m ≤ items.length := by
    intro axes
    induction axes with
    | nil =>
      intro st h1 h2 h3
      refine ⟨h1, ?_⟩
      cases hs : st.2 with
      | none => simp [hs] at h3
      | some c => exact ⟨c, hs, h2 c hs⟩
    | cons a axes ih =>
      intro st h1 h2 _
      obtain ⟨s1, s2, s3⟩ := axisStep_spec hS f a st items.length h1.length_eq h2m h2
      rw [List.foldl_cons]
      exact ih _ (s1.trans h1) s3 (.inr s2)
  have hne : List.finRange d ≠ [] := by
    intro h
    have := congrArg List.length h
    simp at this
    omega
  obtain ⟨k1, c, k2, k3, k4⟩ := key (List.finRange d) (items, none) (List.Perm.refl _) (by simp)
    (.inl hne)
  unfold splitSearch
  dsimp only
  rw [k2]
  refine ⟨?_, k3, k4⟩
  dsimp only
  split
  · exact (sortEdge_perm hS f c.axis 0 _).trans k1
  · split
    · exact (sortEdge_perm hS f c.axis 1 _).trans k1
    · exact k1

theorem splitSearch_perm {P : RParams G} {S : Sorter} (hS : S.Valid) {β : Type}
    (f : β → Box d G) (items : List β) : (splitSearch P S f items).1.Perm items := by
  have hax : ∀ (st : List β × Option (SplitChoice d G)) (a : Fin d),
      (axisStep P S f st a).1.Perm st.1 := by
    intro st a
    have : (axisStep P S f st a).1 = sortEdge S f a 1 (sortEdge S f a 0 st.1) := by
      unfold axisStep
      simp only [List.foldl_cons, List.foldl_nil, edgeStep]
      cases st.2 <;> rfl
    rw [this]
    exact (sortEdge_perm hS f a 1 _).trans (sortEdge_perm hS f a 0 _)
  have key : ∀ (axes : List (Fin d)) (st : List β × Option (SplitChoice d G)),
      (axes.foldl (axisStep P S f) st).1.Perm st.1 := by
    intro axes
    induction axes with
    | nil => intro st; exact List.Perm.refl _
    | cons a axes ih => intro st; exact (ih _).trans (hax st a)
  have k1 := key (List.finRange d) (items, none)
  unfold splitSearch
  dsimp only
  split
  · exact k1
  · dsimp only
    split
    · exact (sortEdge_perm hS f _ 0 _).trans k1
    · split
      · exact (sortEdge_perm hS f _ 1 _).trans k1
      · exact k1

/-- The heuristics of the code satisfy what the theorems require, in at least one dimension. -/
theorem realHeur_valid {P : RParams G} (hP : P.Valid) {S : Sorter} (hS : S.Valid) (hd : 0 < d) :
    (realHeur P S : Heur d G).Valid P where
  choose := by
    intro b hl l hne
    show chooseSubtree b hl l < l.length
    unfold chooseSubtree
    split
    · exact minElementIdx_lt _ l hne
    · exact minElementIdx_lt _ l hne
  split_perm := fun β f l => splitSearch_perm hS f l
  split_lo := fun β f l hl => (splitSearch_spec hS f l hd (by rw [hl]; exact hP.half)).2.1
  split_hi := fun β f l hl => (splitSearch_spec hS f l hd (by rw [hl]; exact hP.half)).2.2
  order := fun β f b l => hS.psort _ _ _ _

end

/-- The parameters of every tree in the project, `RStarTree<size_t, D, 4, 32, double>`
(lib/index.hpp:136, multiscale/src/reconstructor.hpp:26, multiscale/src/center.hpp:109). -/
def stdParams (mx mn : G) : RParams G := ⟨4, 32, mx, mn⟩

theorem stdParams_valid [LinearOrder G] (mx mn : G) : (stdParams mx mn).Valid :=
  ⟨by simp [stdParams], by simp [stdParams], by simp [stdParams], by simp [stdParams, RNode.reinsertCount]⟩

end Colloids
