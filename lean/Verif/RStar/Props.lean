import Verif.RStar.Spec
import Mathlib.Tactic.NormNum
import Mathlib.Algebra.Order.Ring.Rat
import Mathlib.Algebra.Field.Rat

/-!
# Properties C12 to C17

`P` are the template parameters, `H` any outcome of the heuristics within the bounds of `Heur.Valid`.
`realHeur_valid` and `stdParams_valid` show that the heuristics and parameters of the code qualify.
-/

namespace Colloids
variable {d : Nat} {G α : Type}

section
variable [Field G] [LinearOrder G] [IsStrictOrderedRing G]

/-! ## C12 -/

/-- C12. Any sequence of insertions succeeds, the tree then stores the multiset of the inserted items
with their boxes, and `GetSize()` counts them. -/
theorem C12_insertions {P : RParams G} {H : Heur d G} (hP : P.Valid) (hH : H.Valid P)
    (xs : List (Leaf d G α)) :
    ∃ t, RTree.ofList P H xs = .ok t ∧ t.content.Perm xs ∧ t.size = xs.length := by
  have key : ∀ (xs : List (Leaf d G α)) (t : RTree d G α), t.Inv P →
      ∃ t', xs.foldlM (fun t x => t.insert P H x.val x.bound) t = .ok t' ∧
        t'.content.Perm (t.content ++ xs) ∧ t'.size = t.size + xs.length := by
    intro xs
    induction xs with
    | nil => intro t _; exact ⟨t, by simp, by simp, by simp⟩
    | cons x xs ih =>
      intro t ht
      obtain ⟨t1, h1, h2, h3, h4⟩ := RTree.insert_inv hP hH ht x.val x.bound
      obtain ⟨t2, h5, h6, h7⟩ := ih t1 h2
      refine ⟨t2, by rw [List.foldlM_cons, h1]; exact h5, ?_, by simp; omega⟩
      exact h6.trans ((h3.append_right xs).trans List.perm_middle.symm)
  obtain ⟨t, h1, h2, h3⟩ := key xs RTree.empty ⟨by simp [RTree.empty], by simp [RTree.empty, RTree.content]⟩
  exact ⟨t, h1, by simpa [RTree.content, RTree.empty] using h2, by simpa [RTree.empty] using h3⟩

/-- C12, with the heuristics and the parameters of the code, in any dimension. -/
theorem C12_code {S : Sorter} (hS : S.Valid) (hd : 0 < d) (mx mn : G) (xs : List (Leaf d G α)) :
    ∃ t, RTree.ofList (stdParams mx mn) (realHeur (stdParams mx mn) S) xs = .ok t ∧
      t.content.Perm xs ∧ t.size = xs.length :=
  C12_insertions (stdParams_valid mx mn) (realHeur_valid (stdParams_valid mx mn) hS hd) xs

/-- C12 inside any history: an insertion never fails and adds exactly the item. -/
theorem C12_step {P : RParams G} {H : Heur d G} (hP : P.Valid) (hH : H.Valid P) {tr : Bool}
    {t : RTree d G α} (ht : RTree.Reachable P H tr t) (val : α) (b : Box d G) :
    ∃ t', t.insert P H val b = .ok t' ∧ t'.content.Perm (⟨b, val⟩ :: t.content) ∧
      t'.size = t.size + 1 := by
  obtain ⟨t1, h1, -, h3, h4⟩ := RTree.insert_inv hP hH (RTree.reachable_inv hP hH ht) val b
  exact ⟨t1, h1, h3, h4⟩

/-- A sorter that permutes exists. -/
def exSorter : Sorter := ⟨fun lt l => l.mergeSort (fun x y => !lt y x), fun lt _ l => l.mergeSort (fun x y => !lt y x)⟩

example : exSorter.Valid :=
  ⟨fun _ _ l => List.mergeSort_perm l _, fun _ _ _ l => List.mergeSort_perm l _⟩

/-- Heuristics that always take the first child and split at the minimum. -/
def exHeur (d : Nat) (G : Type) (m : Nat) : Heur d G := ⟨fun _ _ _ => 0, fun _ l => (l, m), fun _ _ l => l⟩

omit [Field G] [IsStrictOrderedRing G] in
theorem exHeur_valid {P : RParams G} (hP : P.Valid) : (exHeur d G P.m).Valid P where
  choose := by
    intro b hl l hne
    cases l with
    | nil => exact absurd rfl hne
    | cons a l => simp [exHeur]
  split_perm := fun _ _ l => List.Perm.refl l
  split_lo := fun _ _ _ _ => le_refl _
  split_hi := by
    intro β f l hl
    have := hP.half
    simp only [exHeur]
    omega
  order := fun _ _ _ l => List.Perm.refl l

/-! ## C13 -/

/-- C13. In any reachable tree the overlap query returns exactly the stored items whose box overlaps
the query box, each as many times as it is stored. -/
theorem C13_overlapping {P : RParams G} {H : Heur d G} (hP : P.Valid) (hH : H.Valid P) {tr : Bool}
    {t : RTree d G α} (ht : RTree.Reachable P H tr t) (q : Box d G) :
    t.queryOverlapping q = t.content.filter (fun l => q.overlaps l.bound) := by
  have hi := RTree.reachable_inv hP hH ht
  unfold RTree.queryOverlapping RTree.query RTree.content
  cases hr : t.root with
  | none => simp
  | some r =>
    obtain ⟨h, hw⟩ := hi.1 r hr
    exact RNode.query_exact _ _ (fun l hl b hb => Box.overlaps_mono hb hl) hw

/-- C13. In any reachable tree the enclosing query returns stored items enclosed by the query box, each
at most as many times as it is stored. -/
theorem C13_enclosing_sound {P : RParams G} {H : Heur d G} (hP : P.Valid) (hH : H.Valid P) {tr : Bool}
    {t : RTree d G α} (ht : RTree.Reachable P H tr t) (q : Box d G) :
    (t.queryEnclosing q).Sublist (t.content.filter (fun l => q.encloses l.bound)) := by
  have hi := RTree.reachable_inv hP hH ht
  unfold RTree.queryEnclosing RTree.query RTree.content
  cases hr : t.root with
  | none => simp
  | some r =>
    obtain ⟨h, hw⟩ := hi.1 r hr
    exact RNode.query_sublist _ _ h P r hw

/-- C13. If every stored box has a positive extent along each axis, the enclosing query returns exactly
the enclosed items. Missing for the full property: items of zero extent lying on the boundary of the
query box, see `C13_enclosing_counterexample`. -/
theorem C13_enclosing_partial {P : RParams G} {H : Heur d G} (hP : P.Valid) (hH : H.Valid P) {tr : Bool}
    {t : RTree d G α} (ht : RTree.Reachable P H tr t)
    (hpos : ∀ l ∈ t.content, ∀ a, l.bound.lo a < l.bound.hi a) (q : Box d G) :
    t.queryEnclosing q = t.content.filter (fun l => q.encloses l.bound) := by
  have hi := RTree.reachable_inv hP hH ht
  have hex : ∀ l ∈ t.content, q.encloses l.bound = true → q.overlaps l.bound = true := by
    intro l hl he
    rw [Box.encloses_iff] at he
    rw [Box.overlaps_iff]
    exact fun a => ⟨lt_of_le_of_lt (he a).1 (hpos l hl a), lt_of_lt_of_le (hpos l hl a) (he a).2⟩
  refine (C13_enclosing_sound hP hH ht q).eq_of_length_le ?_
  unfold RTree.queryEnclosing RTree.query
  unfold RTree.content at hex ⊢
  cases hr : t.root with
  | none => simp
  | some r =>
    rw [hr] at hex
    obtain ⟨h, hw⟩ := hi.1 r hr
    have h1 := RNode.query_filter q.overlaps (fun l => q.encloses l.bound) (fun l => q.overlaps l.bound)
      (fun l hl b hb => Box.overlaps_mono hb hl) h P r hw
    have h2 : (r.allLeaves.filter (fun l => q.encloses l.bound)).filter (fun l => q.overlaps l.bound) =
        r.allLeaves.filter (fun l => q.encloses l.bound) := by
      rw [List.filter_eq_self]
      intro l hl
      rw [List.mem_filter] at hl
      exact hex l hl.1 hl.2
    rw [h2] at h1
    dsimp only
    rw [← h1]
    exact List.length_filter_le _ _

/-- C13, without hypothesis on the stored boxes: an enclosed item is missed at most if it does not
overlap the query box, i.e. has no extent along an axis where it is on the boundary (or the query
box itself has no extent). -/
theorem C13_enclosing_interior {P : RParams G} {H : Heur d G} (hP : P.Valid) (hH : H.Valid P) {tr : Bool}
    {t : RTree d G α} (ht : RTree.Reachable P H tr t) (q : Box d G) :
    (t.queryEnclosing q).filter (fun l => q.overlaps l.bound) =
      t.content.filter (fun l => q.encloses l.bound && q.overlaps l.bound) := by
  have hi := RTree.reachable_inv hP hH ht
  unfold RTree.queryEnclosing RTree.query RTree.content
  cases hr : t.root with
  | none => simp
  | some r =>
    obtain ⟨h, hw⟩ := hi.1 r hr
    have h1 := RNode.query_filter q.overlaps (fun l => q.encloses l.bound) (fun l => q.overlaps l.bound)
      (fun l hl b hb => Box.overlaps_mono hb hl) h P r hw
    dsimp only
    rw [h1, List.filter_filter]
    congr 1
    funext l
    rw [Bool.and_comm]

/-- C13 fails for an item of zero extent on the boundary of the query box: in the tree that stores one
point at 0, the query box [0, 1] encloses the point but the query returns nothing. -/
theorem C13_enclosing_counterexample (P : RParams G) (H : Heur 1 G) (val : α) :
    ∃ t q, RTree.ofList P H [⟨⟨fun _ => 0, fun _ => 0⟩, val⟩] = .ok t ∧
      (∀ l ∈ t.content, q.Contains l.bound) ∧ t.content.length = 1 ∧ t.queryEnclosing q = [] := by
  refine ⟨_, ⟨fun _ => 0, fun _ => 1⟩, rfl, ?_, rfl, ?_⟩
  · intro l hl
    simp only [RTree.content, RNode.allLeaves, List.mem_singleton] at hl
    subst hl
    intro a
    simp
  · simp [RTree.queryEnclosing, RTree.query, RNode.query, Box.overlaps]

/-! ## C14 -/

/-- C14. In any reachable tree: all leaf nodes are at the same depth, no node has more than `M` items,
every node but the root has at least `m` items, and the box of every node contains the boxes of all
the items stored below. -/
theorem C14_structure {P : RParams G} {H : Heur d G} (hP : P.Valid) (hH : H.Valid P) {tr : Bool}
    {t : RTree d G α} (ht : RTree.Reachable P H tr t) : ∀ r ∈ t.root,
    (∃ h, ∀ k ∈ r.depths, k = h) ∧ (∀ n ∈ r.subnodes, n.nItems ≤ P.M) ∧
    (∀ n ∈ r.subnodes, ∀ c ∈ n.children, P.m ≤ c.nItems) ∧
    (∀ n ∈ r.subnodes, ∀ l ∈ n.allLeaves, n.bound.Contains l.bound) := by
  intro r hr
  obtain ⟨h, hw⟩ := (RTree.reachable_inv hP hH ht).1 r hr
  exact ⟨⟨h, hw.structure.1⟩, hw.structure.2⟩

/-- C14, with the heuristics and the parameters of the code: between 4 and 32 items per node. -/
theorem C14_code {S : Sorter} (hS : S.Valid) (hd : 0 < d) (mx mn : G) {tr : Bool} {t : RTree d G α}
    (ht : RTree.Reachable (stdParams mx mn) (realHeur (stdParams mx mn) S) tr t) : ∀ r ∈ t.root,
    (∃ h, ∀ k ∈ r.depths, k = h) ∧ (∀ n ∈ r.subnodes, n.nItems ≤ 32) ∧
    (∀ n ∈ r.subnodes, ∀ c ∈ n.children, 4 ≤ c.nItems) ∧
    (∀ n ∈ r.subnodes, ∀ l ∈ n.allLeaves, n.bound.Contains l.bound) :=
  C14_structure (stdParams_valid mx mn) (realHeur_valid (stdParams_valid mx mn) hS hd) ht

/-- C14. After insertions and removals the box of every node also contains the boxes of its children.
Missing: this is not kept by translations, see `C14_nested_counterexample`. -/
theorem C14_nested_partial {P : RParams G} {H : Heur d G} (hP : P.Valid) (hH : H.Valid P)
    {t : RTree d G α} (ht : RTree.Reachable P H false t) : ∀ r ∈ t.root,
    ∀ n ∈ r.subnodes, ∀ c ∈ n.children, n.bound.Contains c.bound := by
  intro r hr
  obtain ⟨h, hw, hn⟩ := RTree.reachable_nest hP hH ht r hr
  exact hn.children

/-! ## C15 -/

/-- C15. In any reachable tree, `Remove` with any acceptor succeeds, what remains together with what the
query with the same acceptor returns is what was stored, and the size follows. -/
theorem C15_remove {P : RParams G} {H : Heur d G} (hP : P.Valid) (hH : H.Valid P) {tr : Bool}
    {t : RTree d G α} (ht : RTree.Reachable P H tr t) (accN : Box d G → Bool)
    (accL : Leaf d G α → Bool) :
    ∃ t', t.remove P H accN accL = .ok t' ∧ (t'.content ++ t.query accN accL).Perm t.content ∧
      t'.size = t'.content.length := by
  obtain ⟨t1, h1, h2, h3, h4⟩ := RTree.remove_inv hP hH (RTree.reachable_inv hP hH ht) accN accL
  exact ⟨t1, h1, h3, h2.2⟩

omit [Field G] [IsStrictOrderedRing G] in
theorem RTree.query_eq_filter {P : RParams G} {t : RTree d G α} (hi : t.Inv P)
    (accN : Box d G → Bool) (accL : Leaf d G α → Bool)
    (hmono : ∀ l b, accL l = true → b.Contains l.bound → accN b = true) :
    t.query accN accL = t.content.filter accL := by
  unfold RTree.query RTree.content
  cases hr : t.root with
  | none => simp
  | some r =>
    obtain ⟨h, hw⟩ := hi.1 r hr
    exact RNode.query_exact _ _ (fun l hl b hb => hmono l b hl hb) hw

/-- C15. If the acceptor accepts the box of any node around an accepted item (this is the case of
`AcceptAny` and `AcceptOverlapping`), exactly the accepted items are removed. -/
theorem C15_remove_exact {P : RParams G} {H : Heur d G} (hP : P.Valid) (hH : H.Valid P) {tr : Bool}
    {t : RTree d G α} (ht : RTree.Reachable P H tr t) (accN : Box d G → Bool)
    (accL : Leaf d G α → Bool)
    (hmono : ∀ l b, accL l = true → b.Contains l.bound → accN b = true) :
    ∃ t', t.remove P H accN accL = .ok t' ∧
      t'.content.Perm (t.content.filter (fun l => !accL l)) ∧ t'.size = t'.content.length := by
  have hi := RTree.reachable_inv hP hH ht
  obtain ⟨t1, h1, h2, h3⟩ := C15_remove hP hH ht accN accL
  refine ⟨t1, h1, ?_, h3⟩
  rw [RTree.query_eq_filter hi accN accL hmono] at h2
  exact (List.perm_append_right_iff _).1 (h2.trans (RNode.filter_not_perm accL t.content).symm)

/-- C15. `RemoveBoundedArea` removes exactly the items enclosed by the box, if every stored box has a
positive extent. Missing: items of zero extent on the boundary of the box may stay, as for C13. -/
theorem C15_bounded_area_partial {P : RParams G} {H : Heur d G} (hP : P.Valid) (hH : H.Valid P)
    {tr : Bool} {t : RTree d G α} (ht : RTree.Reachable P H tr t)
    (hpos : ∀ l ∈ t.content, ∀ a, l.bound.lo a < l.bound.hi a) (q : Box d G) :
    ∃ t', t.removeBoundedArea P H q = .ok t' ∧
      t'.content.Perm (t.content.filter (fun l => !q.encloses l.bound)) ∧
      t'.size = t'.content.length := by
  obtain ⟨t1, h1, h2, h3⟩ := C15_remove hP hH ht q.overlaps (fun l => q.encloses l.bound)
  refine ⟨t1, h1, ?_, h3⟩
  have hq := C13_enclosing_partial hP hH ht hpos q
  unfold RTree.queryEnclosing at hq
  rw [hq] at h2
  exact (List.perm_append_right_iff _).1 (h2.trans
    (RNode.filter_not_perm (fun l : Leaf d G α => q.encloses l.bound) t.content).symm)

/-! ## C16 -/

/-- C16. Translating the tree translates every stored item, leaves the size, and moves the overall box. -/
theorem C16_content {P : RParams G} {H : Heur d G} (hP : P.Valid) (hH : H.Valid P) {tr : Bool}
    {t : RTree d G α} (ht : RTree.Reachable P H tr t) (v : Fin d → G) :
    (t.translate v).content = t.content.map (Leaf.translate v) ∧ (t.translate v).size = t.size ∧
    (t.translate v).getOverallBox = t.getOverallBox.map (fun b => b.translate v) := by
  have hi := RTree.reachable_inv hP hH ht
  refine ⟨(RTree.translate_inv hi v).2, rfl, ?_⟩
  unfold RTree.getOverallBox RTree.translate
  cases hr : t.root with
  | none => rfl
  | some r =>
    obtain ⟨h, hw⟩ := hi.1 r hr
    simp [(RNode.translate_leaves v P h r hw).2.2.1, Except.map]

/-- C16. Querying the translated tree with the translated box returns what the query returned before,
translated. -/
theorem C16_queries {P : RParams G} {H : Heur d G} (hP : P.Valid) (hH : H.Valid P) {tr : Bool}
    {t : RTree d G α} (ht : RTree.Reachable P H tr t) (v : Fin d → G) (q : Box d G) :
    (t.translate v).queryOverlapping (q.translate v) =
      (t.queryOverlapping q).map (Leaf.translate v) ∧
    (t.translate v).queryEnclosing (q.translate v) = (t.queryEnclosing q).map (Leaf.translate v) := by
  have hi := RTree.reachable_inv hP hH ht
  unfold RTree.queryOverlapping RTree.queryEnclosing RTree.query RTree.translate
  cases hr : t.root with
  | none => simp
  | some r =>
    obtain ⟨h, hw⟩ := hi.1 r hr
    refine ⟨RNode.translate_query v P _ _ _ _ ?_ ?_ h r hw, RNode.translate_query v P _ _ _ _ ?_ ?_ h r hw⟩
    · exact fun b => Box.translate_overlaps
    · exact fun l => Box.translate_overlaps
    · exact fun b => Box.translate_overlaps
    · exact fun l => Box.translate_encloses

/-! ## C17 -/

/-- `B` is the smallest box that contains the boxes of all the items. -/
def IsTightBox (xs : List (Leaf d G α)) (B : Box d G) : Prop :=
  (∀ x ∈ xs, B.Contains x.bound) ∧ ∀ X : Box d G, (∀ x ∈ xs, X.Contains x.bound) → X.Contains B

omit [Field G] [IsStrictOrderedRing G] in
theorem ofList_bound {P : RParams G} {H : Heur d G} (hP : P.Valid) (hH : H.Valid P) :
    ∀ (xs : List (Leaf d G α)) (t t' : RTree d G α) (r : RNode d G α), t.root = some r →
      RNode.NWF P r → xs.foldlM (fun t x => t.insert P H x.val x.bound) t = .ok t' →
      ∃ r', t'.root = some r' ∧ RNode.NWF P r' ∧
        ∀ X : Box d G, RNode.Big P X → X.Contains r.bound → (∀ x ∈ xs, X.Contains x.bound) →
          X.Contains r'.bound := by
  intro xs
  induction xs with
  | nil => intro t t' r hr hn h; rw [List.foldlM_nil] at h; cases h; exact ⟨r, hr, hn, fun X _ h _ => h⟩
  | cons x xs ih =>
    intro t t' r hr hn h
    rw [List.foldlM_cons] at h
    obtain ⟨t1, h1, h⟩ := bind_ok.1 h
    unfold RTree.insert at h1
    rw [hr] at h1
    obtain ⟨r1, h2, h1⟩ := bind_ok.1 h1
    cases h1
    obtain ⟨n1, n2⟩ := RNode.insertLeaf_nest hP hH _ hn h2
    obtain ⟨r', k1, k2, k3⟩ := ih _ t' r1 rfl n1 h
    refine ⟨r', k1, k2, ?_⟩
    intro X hX hb hx
    exact k3 X hX (n2 X hX hb (hx x (by simp))) (fun y hy => hx y (by simp [hy]))

omit [Field G] [IsStrictOrderedRing G] in
theorem ofList_small {P : RParams G} {H : Heur d G} :
    ∀ (xs : List (Leaf d G α)) (t t' : RTree d G α) (b : Box d G) (items : List (Leaf d G α)),
      t.root = some (.leaves b items) → items.length + xs.length ≤ P.M →
      xs.foldlM (fun t x => t.insert P H x.val x.bound) t = .ok t' →
      ∃ b' items', t'.root = some (.leaves b' items') ∧
        ∀ X : Box d G, X.Contains b → (∀ x ∈ xs, X.Contains x.bound) → X.Contains b' := by
  intro xs
  induction xs with
  | nil =>
    intro t t' b items hr _ h; rw [List.foldlM_nil] at h; cases h
    exact ⟨b, items, hr, fun X h _ => h⟩
  | cons x xs ih =>
    intro t t' b items hr hl h
    rw [List.length_cons] at hl
    rw [List.foldlM_cons] at h
    obtain ⟨t1, h1, h⟩ := bind_ok.1 h
    unfold RTree.insert at h1
    rw [hr] at h1
    obtain ⟨r1, h2, h1⟩ := bind_ok.1 h1
    cases h1
    have hle : ¬ (items ++ [(⟨x.bound, x.val⟩ : Leaf d G α)]).length > P.M := by simp; omega
    simp only [RNode.insertLeaf, RNode.insRoot, RNode.ins, if_neg hle, ok_bind, pure_eq_ok,
      List.foldlM_nil, Except.ok.injEq] at h2
    subst h2
    obtain ⟨b', items', k1, k2⟩ := ih _ t' _ _ rfl (by simp; omega) h
    refine ⟨b', items', k1, ?_⟩
    intro X hb hx
    exact k2 X (Box.stretch_le hb (hx x (by simp))) (fun y hy => hx y (by simp [hy]))

omit [Field G] [IsStrictOrderedRing G] in
theorem ofList_cons {P : RParams G} {H : Heur d G} (x : Leaf d G α) (xs : List (Leaf d G α)) :
    RTree.ofList P H (x :: xs) = xs.foldlM (fun t x => t.insert P H x.val x.bound)
      ⟨some (.leaves x.bound [x]), 1⟩ := by
  unfold RTree.ofList
  rw [List.foldlM_cons]
  rfl

/-- C17. After insertions, the overall box is the smallest box that contains all the inserted boxes,
if there are at most `M` items, or if along each axis one upper edge is at least `mn` (the smallest
positive number in the code) and one lower edge at most `mx`. Missing: the other insertion histories,
for which it fails (`C17_counterexample`), and removals (`C17_removal_counterexample`). -/
theorem C17_tight_partial {P : RParams G} {H : Heur d G} (hP : P.Valid) (hH : H.Valid P)
    (xs : List (Leaf d G α)) (hne : xs ≠ [])
    (h : xs.length ≤ P.M ∨
      ∀ a, (∃ x ∈ xs, P.mn ≤ x.bound.hi a) ∧ (∃ x ∈ xs, x.bound.lo a ≤ P.mx)) :
    ∃ t B, RTree.ofList P H xs = .ok t ∧ t.getOverallBox = .ok B ∧ IsTightBox xs B := by
  obtain ⟨t, h1, h2, -⟩ := C12_insertions hP hH xs
  have hin : ∀ r, t.root = some r → ∀ x ∈ xs, r.bound.Contains x.bound := by
    intro r hr x hx
    have hreach : RTree.Reachable P H false t := RTree.Reachable.insertAll xs .empty h1
    obtain ⟨k, hw⟩ := (RTree.reachable_inv hP hH hreach).1 r hr
    refine hw.contains x ?_
    have := h2.mem_iff (a := x)
    simp only [RTree.content, hr] at this
    exact this.2 hx
  match xs, hne with
  | x :: xs, _ =>
    rw [ofList_cons] at h1
    rcases h with h | h
    · obtain ⟨b', items', k1, k2⟩ := ofList_small xs _ t x.bound [x] rfl
        (by simpa [Nat.add_comm] using h) h1
      refine ⟨t, b', by rw [ofList_cons]; exact h1, by simp [RTree.getOverallBox, k1, RNode.bound], ?_, ?_⟩
      · have := hin _ k1; simpa [RNode.bound] using this
      · intro X hX
        exact k2 X (hX x (by simp)) (fun y hy => hX y (by simp [hy]))
    · have hx0 : RNode.NWF P (.leaves x.bound [x] : RNode d G α) :=
        ⟨0, ⟨by have := hP.two; simp; omega, by simp [Box.Contains.refl]⟩, trivial⟩
      obtain ⟨r', k1, k2, k3⟩ := ofList_bound hP hH xs _ t _ rfl hx0 h1
      refine ⟨t, r'.bound, by rw [ofList_cons]; exact h1, by simp [RTree.getOverallBox, k1], ?_, ?_⟩
      · exact hin _ k1
      · intro X hX
        refine k3 X ?_ (hX x (by simp)) (fun y hy => hX y (by simp [hy]))
        intro a
        obtain ⟨⟨y, hy, hy'⟩, ⟨z, hz, hz'⟩⟩ := h a
        exact ⟨le_trans ((hX z hz) a).1 hz', le_trans hy' ((hX y hy) a).2⟩

/-- C17 fails as soon as there are more than `M` items whose upper edges along an axis are all less than
the smallest positive number `mn`: the overall box then extends to `mn`, whatever the items. -/
theorem C17_counterexample {P : RParams G} {H : Heur d G} (hP : P.Valid) (hH : H.Valid P)
    (xs : List (Leaf d G α)) (hM : P.M < xs.length) (a : Fin d)
    (hneg : ∀ x ∈ xs, x.bound.hi a < P.mn) :
    ∃ t B, RTree.ofList P H xs = .ok t ∧ t.getOverallBox = .ok B ∧ ¬ IsTightBox xs B ∧
      P.mn ≤ B.hi a := by
  obtain ⟨t, h1, h2, h3⟩ := C12_insertions hP hH xs
  match xs, hM with
  | x :: xs, hM =>
    have h1' := h1
    rw [ofList_cons] at h1
    have hx0 : RNode.NWF P (.leaves x.bound [x] : RNode d G α) :=
      ⟨0, ⟨by have := hP.two; simp; omega, by simp [Box.Contains.refl]⟩, trivial⟩
    obtain ⟨r', k1, ⟨h, hw, hn⟩, -⟩ := ofList_bound hP hH xs _ t _ rfl hx0 h1
    have hB : P.mn ≤ r'.bound.hi a := by
      have hlen := h2.length_eq
      simp only [RTree.content, k1] at hlen
      match h, r', hw, hn with
      | 0, .leaves b items, hw, _ => simp only [RNode.allLeaves] at hlen; have := hw.1; omega
      | h + 1, .inner b items, _, hn => exact (hn.1 a).2
    refine ⟨t, r'.bound, h1', by simp [RTree.getOverallBox, k1], ?_, hB⟩
    rintro ⟨-, ht⟩
    -- the box cut at the greatest upper edge contains all the items
    obtain ⟨y, hy, hmax⟩ : ∃ y ∈ x :: xs, ∀ z ∈ x :: xs, z.bound.hi a ≤ y.bound.hi a := by
      have key : ∀ (l : List (Leaf d G α)), l ≠ [] →
          ∃ y ∈ l, ∀ z ∈ l, z.bound.hi a ≤ y.bound.hi a := by
        intro l
        induction l with
        | nil => simp
        | cons u l ih =>
          intro _
          cases l with
          | nil => exact ⟨u, by simp, by simp⟩
          | cons w l =>
            obtain ⟨y, hy, hm⟩ := ih (by simp)
            rcases le_total (u.bound.hi a) (y.bound.hi a) with h | h
            · refine ⟨y, by simp only [List.mem_cons] at hy ⊢; tauto, ?_⟩
              intro z hz
              rcases List.mem_cons.1 hz with rfl | hz
              · exact h
              · exact hm z hz
            · refine ⟨u, by simp, ?_⟩
              intro z hz
              rcases List.mem_cons.1 hz with rfl | hz
              · exact le_refl _
              · exact le_trans (hm z hz) h
      exact key (x :: xs) (by simp)
    have hcon : ∀ z ∈ x :: xs, r'.bound.Contains z.bound := by
      intro z hz
      refine hw.contains z ?_
      have := h2.mem_iff (a := z)
      simp only [RTree.content, k1] at this
      exact this.2 hz
    have := ht ⟨r'.bound.lo, fun c => if c = a then y.bound.hi a else r'.bound.hi c⟩ ?_
    · have h4 := (this a).2
      simp only [if_true] at h4
      exact absurd (lt_of_le_of_lt (le_trans hB h4) (hneg y hy)) (lt_irrefl _)
    · intro z hz c
      refine ⟨(hcon z hz c).1, ?_⟩
      dsimp only
      split
      · rename_i hc; subst hc; exact hmax z hz
      · exact (hcon z hz c).2

/-- C17 fails after a removal: boxes are not shrunk. -/
theorem C17_removal_counterexample (P : RParams G) (hP : P.Valid) (H : Heur 1 G) (hH : H.Valid P)
    (u v : α) :
    ∃ t t' B, RTree.ofList P H [⟨⟨fun _ => 0, fun _ => 1⟩, u⟩, ⟨⟨fun _ => 4, fun _ => 5⟩, v⟩] = .ok t ∧
      t.removeBoundedArea P H ⟨fun _ => 3, fun _ => 6⟩ = .ok t' ∧
      t'.content = [⟨⟨fun _ => 0, fun _ => 1⟩, u⟩] ∧ t'.getOverallBox = .ok B ∧
      ¬ IsTightBox t'.content B := by
  have hM : ¬ 2 > P.M := by have := hP.two; omega
  refine ⟨⟨some (.leaves ⟨fun _ => 0, fun _ => 5⟩
    [⟨⟨fun _ => 0, fun _ => 1⟩, u⟩, ⟨⟨fun _ => 4, fun _ => 5⟩, v⟩]), 2⟩,
    ⟨some (.leaves ⟨fun _ => 0, fun _ => 5⟩ [⟨⟨fun _ => 0, fun _ => 1⟩, u⟩]), 1⟩,
    ⟨fun _ => 0, fun _ => 5⟩, ?_, ?_, rfl, rfl, ?_⟩
  · have h04 : ¬ (4 : G) < 0 := by norm_num
    have h15 : (1 : G) < 5 := by norm_num
    simp [RTree.ofList, RTree.insert, RTree.empty, RNode.insertLeaf, RNode.insRoot, RNode.ins, hM,
      Box.stretch, h15, h04]
  · have h1 : (0 : G) < 6 := by norm_num
    have h2 : (3 : G) < 5 := by norm_num
    have h3 : (0 : G) < 3 := by norm_num
    have h4 : ¬ (4 : G) < 3 := by norm_num
    have h5 : ¬ (6 : G) < 5 := by norm_num
    simp [RTree.removeBoundedArea, RTree.remove, RNode.rem, Box.overlaps, Box.encloses, h1, h2, h3, h4, h5]
  · rintro ⟨-, h⟩
    have := (h ⟨fun _ => 0, fun _ => 1⟩ (by simp [RTree.content, RNode.allLeaves, Box.Contains.refl]) 0).2
    norm_num at this

end

/-! ## Counterexample to the nesting of boxes after a translation -/

/-- 33 points inserted at 0, a translation by -100, 29 points inserted at -100. -/
def nestWitness : R (RTree 1 Int Nat) := do
  let P := stdParams (G := Int) 1000000 1
  let t ← RTree.ofList P (exHeur 1 Int 4) (List.replicate 33 ⟨⟨fun _ => 0, fun _ => 0⟩, 7⟩)
  (List.replicate 29 (⟨⟨fun _ => -100, fun _ => -100⟩, 8⟩ : Leaf 1 Int Nat)).foldlM
    (fun t x => t.insert P (exHeur 1 Int 4) x.val x.bound) (t.translate (fun _ => -100))

/-- C14, nesting of boxes, fails once the tree has been translated: `reset()` makes the upper edges of a
reinserted node at least the smallest positive number, also when the box of its parent was moved to
negative coordinates. (Coordinates are integers here, 1 standing for the smallest positive number.)
The boxes of the items remain contained, see `C14_structure`. -/
theorem C14_nested_counterexample :
    ∃ (P : RParams Int) (H : Heur 1 Int) (t : RTree 1 Int Nat), P = stdParams 1000000 1 ∧ H.Valid P ∧
      RTree.Reachable P H true t ∧
      ∃ r ∈ t.root, ∃ n ∈ r.subnodes, ∃ c ∈ n.children, ¬ n.bound.Contains c.bound := by
  have hc : (match nestWitness with
    | .ok t => (match t.root with
      | some (.inner b (c :: _)) => decide (b.hi 0 < c.bound.hi 0)
      | _ => false)
    | .error _ => false) = true := by decide +kernel
  cases hw : nestWitness with
  | error e => rw [hw] at hc; cases hc
  | ok t =>
    rw [hw] at hc
    refine ⟨stdParams 1000000 1, exHeur 1 Int 4, t, rfl, ?_, ?_, ?_⟩
    · exact exHeur_valid (P := stdParams (1000000 : Int) 1) (stdParams_valid _ _)
    · unfold nestWitness at hw
      dsimp only at hw
      obtain ⟨t0, h0, hw⟩ := bind_ok.1 hw
      exact RTree.Reachable.insertAll _ (.translate _ rfl (RTree.Reachable.insertAll _ .empty h0)) hw
    · dsimp only at hc
      cases hr : t.root with
      | none => rw [hr] at hc; cases hc
      | some r =>
        rw [hr] at hc
        match r, hc with
        | .inner b (c :: cs), hc =>
          refine ⟨_, rfl, .inner b (c :: cs), by simp [RNode.subnodes], c, by simp [RNode.children], ?_⟩
          intro h
          have := (h 0).2
          simp only [decide_eq_true_eq] at hc
          simp only [RNode.bound] at this hc
          omega

/-! ## The hypotheses are met -/

example : (stdParams (1000000 : ℚ) 1).Valid := stdParams_valid _ _

example : (exHeur 3 ℚ 4).Valid (stdParams (1000000 : ℚ) 1) :=
  exHeur_valid (P := stdParams (1000000 : ℚ) 1) (stdParams_valid _ _)

/-- A reachable tree with an item of positive extent. -/
example : ∃ t : RTree 1 ℚ Nat, RTree.Reachable (stdParams (1000000 : ℚ) 1) (exHeur 1 ℚ 4) true t ∧
    t.content.length = 2 ∧ ∀ l ∈ t.content, ∀ a, l.bound.lo a < l.bound.hi a := by
  obtain ⟨t, h1, h2, -⟩ := C12_insertions (stdParams_valid (1000000 : ℚ) 1)
    (exHeur_valid (P := stdParams (1000000 : ℚ) 1) (d := 1) (stdParams_valid _ _))
    [⟨⟨fun _ => 0, fun _ => 1⟩, 0⟩, ⟨⟨fun _ => -4, fun _ => 5⟩, 1⟩]
  refine ⟨t, RTree.Reachable.insertAll _ .empty h1, h2.length_eq, ?_⟩
  intro l hl a
  have := h2.mem_iff.1 hl
  simp only [List.mem_cons, List.not_mem_nil, or_false] at this
  rcases this with rfl | rfl <;> norm_num

/-- An acceptor as in `C15_remove_exact`. -/
example (q : Box 2 ℚ) : ∀ (l : Leaf 2 ℚ Nat) b, q.overlaps l.bound = true → b.Contains l.bound →
    q.overlaps b = true := fun _ _ h hb => Box.overlaps_mono hb h

/-- More than `M` items with negative coordinates, as in `C17_counterexample`. -/
example : (stdParams (1000000 : ℚ) 1).M <
      (List.replicate 40 (⟨⟨fun _ => -2, fun _ => -1⟩, 0⟩ : Leaf 1 ℚ Nat)).length ∧
    ∀ x ∈ List.replicate 40 (⟨⟨fun _ => -2, fun _ => -1⟩, 0⟩ : Leaf 1 ℚ Nat), x.bound.hi 0 < 1 := by
  refine ⟨by simp [stdParams], ?_⟩
  intro x hx
  rw [(List.mem_replicate.1 hx).2]
  norm_num

/-- Items as in `C17_tight_partial`, more than `M`. -/
example : ∀ a : Fin 1,
    (∃ x ∈ List.replicate 40 (⟨⟨fun _ => -2, fun _ => 3⟩, 0⟩ : Leaf 1 ℚ Nat), (1 : ℚ) ≤ x.bound.hi a) ∧
    (∃ x ∈ List.replicate 40 (⟨⟨fun _ => -2, fun _ => 3⟩, 0⟩ : Leaf 1 ℚ Nat), x.bound.lo a ≤ 1000000) := by
  intro a
  refine ⟨⟨_, List.mem_replicate.2 ⟨by simp, rfl⟩, ?_⟩, ⟨_, List.mem_replicate.2 ⟨by simp, rfl⟩, ?_⟩⟩ <;> norm_num

end Colloids
