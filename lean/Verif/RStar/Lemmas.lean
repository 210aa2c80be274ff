import Verif.RStar.Model
import Verif.CommonLemmas
import Mathlib.Data.List.Basic
import Mathlib.Data.List.Perm.Basic
import Mathlib.Order.Basic

/-! Lemmas on the R* tree: structure, content, queries. -/

namespace Colloids
variable {d : Nat} {G α : Type} [LinearOrder G]

namespace Box

/-- `b` contains `c`. -/
def Contains (b c : Box d G) : Prop := ∀ a, b.lo a ≤ c.lo a ∧ c.hi a ≤ b.hi a

theorem Contains.refl (b : Box d G) : b.Contains b := fun _ => ⟨le_refl _, le_refl _⟩

theorem Contains.trans {a b c : Box d G} (h : a.Contains b) (h' : b.Contains c) : a.Contains c :=
  fun x => ⟨le_trans (h x).1 (h' x).1, le_trans (h' x).2 (h x).2⟩

theorem ext' {a b : Box d G} (h : ∀ x, a.lo x = b.lo x ∧ a.hi x = b.hi x) : a = b := by
  cases a; cases b
  simp only [mk.injEq]
  exact ⟨funext fun x => (h x).1, funext fun x => (h x).2⟩

theorem Contains.antisymm {a b : Box d G} (h : a.Contains b) (h' : b.Contains a) : a = b :=
  ext' fun x => ⟨le_antisymm (h x).1 (h' x).1, le_antisymm (h' x).2 (h x).2⟩

theorem encloses_iff {b c : Box d G} : b.encloses c = true ↔ b.Contains c := by
  simp [encloses, Contains]

theorem overlaps_iff {b c : Box d G} :
    b.overlaps c = true ↔ ∀ a, b.lo a < c.hi a ∧ c.lo a < b.hi a := by
  simp [overlaps]

/-- A box overlapping `c` overlaps whatever contains `c`. -/
theorem overlaps_mono {q b c : Box d G} (h : b.Contains c) (ho : q.overlaps c = true) :
    q.overlaps b = true := by
  rw [overlaps_iff] at *
  exact fun a => ⟨lt_of_lt_of_le (ho a).1 (h a).2, lt_of_le_of_lt (h a).1 (ho a).2⟩

theorem stretch_lo (b c : Box d G) (a : Fin d) : (b.stretch c).lo a = min (b.lo a) (c.lo a) := by
  simp only [stretch]
  split
  · rename_i h; exact (min_eq_right (le_of_lt h)).symm
  · rename_i h; exact (min_eq_left (not_lt.1 h)).symm

theorem stretch_hi (b c : Box d G) (a : Fin d) : (b.stretch c).hi a = max (b.hi a) (c.hi a) := by
  simp only [stretch]
  split
  · rename_i h; exact (max_eq_right (le_of_lt h)).symm
  · rename_i h; exact (max_eq_left (not_lt.1 h)).symm

theorem stretch_left (b c : Box d G) : (b.stretch c).Contains b := by
  intro a; rw [stretch_lo, stretch_hi]; exact ⟨min_le_left _ _, le_max_left _ _⟩

theorem stretch_right (b c : Box d G) : (b.stretch c).Contains c := by
  intro a; rw [stretch_lo, stretch_hi]; exact ⟨min_le_right _ _, le_max_right _ _⟩

theorem stretch_le {X b c : Box d G} (h : X.Contains b) (h' : X.Contains c) :
    X.Contains (b.stretch c) := by
  intro a; rw [stretch_lo, stretch_hi]
  exact ⟨le_min (h a).1 (h' a).1, max_le (h a).2 (h' a).2⟩

theorem foldl_stretch_contains {β : Type} (f : β → Box d G) : ∀ (l : List β) (b : Box d G),
    (l.foldl (fun b x => b.stretch (f x)) b).Contains b ∧
    ∀ x ∈ l, (l.foldl (fun b x => b.stretch (f x)) b).Contains (f x) := by
  intro l
  induction l with
  | nil => intro b; exact ⟨Contains.refl _, by simp⟩
  | cons y l ih =>
    intro b
    obtain ⟨h1, h2⟩ := ih (b.stretch (f y))
    refine ⟨h1.trans (stretch_left _ _), ?_⟩
    intro x hx
    rcases List.mem_cons.1 hx with rfl | hx
    · exact h1.trans (stretch_right _ _)
    · exact h2 x hx

theorem foldl_stretch_le {β : Type} (f : β → Box d G) (X : Box d G) : ∀ (l : List β) (b : Box d G),
    X.Contains b → (∀ x ∈ l, X.Contains (f x)) →
    X.Contains (l.foldl (fun b x => b.stretch (f x)) b) := by
  intro l
  induction l with
  | nil => intro b h _; exact h
  | cons y l ih =>
    intro b h h'
    exact ih _ (stretch_le h (h' y (by simp))) (fun x hx => h' x (by simp [hx]))

theorem hull_contains {mx mn : G} {β : Type} {f : β → Box d G} {l : List β} {x : β} (h : x ∈ l) :
    (hull mx mn f l).Contains (f x) := (foldl_stretch_contains f l _).2 x h

theorem hull_reset {mx mn : G} {β : Type} {f : β → Box d G} {l : List β} :
    (hull mx mn f l).Contains (reset d mx mn) := (foldl_stretch_contains f l _).1

theorem hull_le {mx mn : G} {β : Type} {f : β → Box d G} {l : List β} {X : Box d G}
    (h : X.Contains (reset d mx mn)) (h' : ∀ x ∈ l, X.Contains (f x)) :
    X.Contains (hull mx mn f l) := foldl_stretch_le f X l _ h h'

end Box

/-- What the proofs need to know about the heuristics. -/
structure Heur.Valid (P : RParams G) (H : Heur d G) : Prop where
  choose : ∀ b hl l, l ≠ [] → H.choose b hl l < l.length
  split_perm : ∀ (β : Type) (f : β → Box d G) (l : List β), (H.split f l).1.Perm l
  split_lo : ∀ (β : Type) (f : β → Box d G) (l : List β), l.length = P.M + 1 → P.m ≤ (H.split f l).2
  split_hi : ∀ (β : Type) (f : β → Box d G) (l : List β), l.length = P.M + 1 →
    (H.split f l).2 + P.m ≤ l.length
  order : ∀ (β : Type) (f : β → Box d G) (b : Box d G) (l : List β), (H.order f b l).Perm l

/-- The relation between the template parameters that the algorithms need. -/
structure RParams.Valid (P : RParams G) : Prop where
  pos : 1 ≤ P.m
  two : 2 ≤ P.M
  half : 2 * P.m ≤ P.M + 1
  reins : P.m + RNode.reinsertCount (P.M + 1) ≤ P.M + 1

namespace RNode

/-- Number of items of the node. -/
def nItems : RNode d G α → Nat
  | .leaves _ items => items.length
  | .inner _ items => items.length

theorem allLeavesList_eq (l : List (RNode d G α)) : allLeavesList l = l.flatMap allLeaves := by
  induction l with
  | nil => simp [allLeavesList]
  | cons c cs ih => simp [allLeavesList, ih]

theorem queryList_eq (accN : Box d G → Bool) (accL : Leaf d G α → Bool) (l : List (RNode d G α)) :
    queryList accN accL l = l.flatMap (query accN accL) := by
  induction l with
  | nil => simp [queryList]
  | cons c cs ih => simp [queryList, ih]

theorem translateList_eq [Add G] (v : Fin d → G) (l : List (RNode d G α)) :
    translateList v l = l.map (translate v) := by
  induction l with
  | nil => simp [translateList]
  | cons c cs ih => simp [translateList, ih]

/-- A valid subtree of height `h`: balanced, at most `M` items per node, at least `m` items in every
node but the top one, every box contains all the leaves below. -/
def WF (P : RParams G) : Nat → RNode d G α → Prop
  | 0, .leaves b items => items.length ≤ P.M ∧ ∀ l ∈ items, b.Contains l.bound
  | h + 1, .inner b items => items ≠ [] ∧ items.length ≤ P.M ∧
      (∀ c ∈ items, WF P h c ∧ P.m ≤ c.nItems) ∧ ∀ c ∈ items, ∀ l ∈ c.allLeaves, b.Contains l.bound
  | _, _ => False

theorem WF.contains {P : RParams G} : ∀ {h : Nat} {t : RNode d G α}, WF P h t →
    ∀ l ∈ t.allLeaves, t.bound.Contains l.bound := by
  intro h t hw l hl
  match h, t, hw with
  | 0, .leaves b items, hw => simp only [allLeaves] at hl; exact hw.2 l hl
  | h + 1, .inner b items, hw =>
    simp only [allLeaves, allLeavesList_eq, List.mem_flatMap] at hl
    obtain ⟨c, hc, hl⟩ := hl
    exact hw.2.2.2 c hc l hl

theorem insAt_ok {P : RParams G} {H : Heur d G} {first : Bool} {lf : Leaf d G α} :
    ∀ (i : Nat) (l1 l2 : List (RNode d G α)) (c : RNode d G α) (r : InsResult d G α), i = l1.length →
      ins P H first false lf c = .ok r →
      insAt P H first lf i (l1 ++ c :: l2) = .ok (l1 ++ r.node :: l2, r.sibling, r.reinsert) := by
  intro i l1
  induction l1 generalizing i with
  | nil =>
    intro l2 c r hi h
    subst hi
    simp [insAt, h]
  | cons x l1 ih =>
    intro l2 c r hi h
    subst hi
    have := ih l1.length l2 c r rfl h
    simp [insAt, this]

/-- What one insertion below a node does. -/
structure InsSpec (P : RParams G) (h : Nat) (first isRoot : Bool) (lf : Leaf d G α) (t : RNode d G α)
    (r : InsResult d G α) : Prop where
  noSib : (isRoot = true ∨ first = true) → r.sibling = none
  noRe : first = false → r.reinsert = []
  wf : isRoot = false → WF P h r.node ∧ (P.m ≤ t.nItems → P.m ≤ r.node.nItems) ∧
    ∀ s ∈ r.sibling, WF P h s ∧ P.m ≤ s.nItems
  wfRoot : isRoot = true → WF P h r.node ∨ WF P (h + 1) r.node
  perm : (r.node.allLeaves ++ (r.sibling.toList.flatMap allLeaves) ++ r.reinsert).Perm
    (lf :: t.allLeaves)

theorem splitItems_spec {P : RParams G} {H : Heur d G} (hH : H.Valid P) {β : Type} (f : β → Box d G)
    (l : List β) (hl : l.length = P.M + 1) :
    ((splitItems H f l).1 ++ (splitItems H f l).2).Perm l ∧
    P.m ≤ (splitItems H f l).1.length ∧ P.m ≤ (splitItems H f l).2.length := by
  have h1 := hH.split_perm β f l
  have h2 := hH.split_lo β f l hl
  have h3 := hH.split_hi β f l hl
  have h4 := h1.length_eq
  simp only [splitItems]
  rw [List.take_append_drop, List.length_take, List.length_drop]
  refine ⟨h1, ?_, ?_⟩ <;> omega

theorem newRoot_wf {P : RParams G} (hP : P.Valid) {h : Nat} {x y : RNode d G α} (hx : WF P h x)
    (hy : WF P h y) (hx' : P.m ≤ x.nItems) (hy' : P.m ≤ y.nItems) : WF P (h + 1) (newRoot P x y) := by
  refine ⟨by simp, by simpa using hP.two, ?_, ?_⟩
  · intro c hc
    simp only [List.mem_cons, List.not_mem_nil, or_false] at hc
    rcases hc with rfl | rfl
    · exact ⟨hx, hx'⟩
    · exact ⟨hy, hy'⟩
  · intro c hc l hl
    have hb := Box.hull_contains (mx := P.mx) (mn := P.mn) (f := RNode.bound) hc
    refine hb.trans ?_
    simp only [List.mem_cons, List.not_mem_nil, or_false] at hc
    rcases hc with rfl | rfl
    · exact hx.contains l hl
    · exact hy.contains l hl

theorem ins_leaves {P : RParams G} {H : Heur d G} (hP : P.Valid) (hH : H.Valid P) (first isRoot : Bool)
    (lf : Leaf d G α) (b : Box d G) (items : List (Leaf d G α)) (hw : WF P 0 (.leaves b items)) :
    ∃ r, ins P H first isRoot lf (.leaves b items) = .ok r ∧
      InsSpec P 0 first isRoot lf (.leaves b items) r := by
  obtain ⟨hlen, hcon⟩ := hw
  have hcon' : ∀ l ∈ items ++ [lf], (b.stretch lf.bound).Contains l.bound := by
    intro l hl
    rcases List.mem_append.1 hl with hl | hl
    · exact (Box.stretch_left _ _).trans (hcon l hl)
    · simp only [List.mem_singleton] at hl; subst hl; exact Box.stretch_right _ _
  have hperm : (items ++ [lf]).Perm (lf :: items) := List.perm_append_singleton lf items
  unfold ins
  dsimp only
  split
  · rename_i hov
    have hl1 : (items ++ [lf]).length = P.M + 1 := by simp at hov ⊢; omega
    refine ⟨_, rfl, ?_⟩
    unfold overflowLeaves
    split
    · -- reinsertion
      rename_i hc
      obtain ⟨hc1, hc2⟩ : isRoot = false ∧ first = true := by simpa using hc
      subst hc1; subst hc2
      have ho := hH.order _ Leaf.bound (b.stretch lf.bound) (items ++ [lf])
      have hol := ho.length_eq
      have hr := hP.reins
      refine ⟨fun _ => rfl, ?_, ?_,
          ?_, ?_⟩
      · intro h; simp at h
      · intro _
        refine ⟨⟨?_, ?_⟩, ?_, by simp⟩
        · rw [List.length_take, hl1]
          have : 1 ≤ reinsertCount (P.M + 1) := by unfold reinsertCount; split <;> omega
          omega
        · intro l hl; exact Box.hull_contains hl
        · intro _
          simp only [nItems, List.length_take]
          rw [hl1] at hol ⊢
          omega
      · intro h; cases h
      · simp only [allLeaves, Option.toList_none, List.flatMap_nil, List.append_nil,
          List.take_append_drop]
        exact ho.trans hperm
    · -- split
      rename_i hc
      obtain ⟨s1, s2, s3⟩ := splitItems_spec hH Leaf.bound (items ++ [lf]) hl1
      have s4 := s1.length_eq
      rw [List.length_append, hl1] at s4
      have hm := hP.pos
      have hx : WF P 0 (splitLeaves P H (items ++ [lf])).1 :=
        ⟨by omega, fun l hl => Box.hull_contains hl⟩
      have hy : WF P 0 (splitLeaves P H (items ++ [lf])).2 :=
        ⟨by omega, fun l hl => Box.hull_contains hl⟩
      dsimp only
      split
      · rename_i hr
        subst hr
        refine ⟨fun _ => rfl, fun _ => rfl, (by simp),
          ?_, ?_⟩
        · intro _; right
          exact newRoot_wf hP hx hy s2 s3
        · simp only [newRoot, allLeaves, allLeavesList, splitLeaves, Option.toList_none,
            List.flatMap_nil, List.append_nil]
          exact s1.trans hperm
      · rename_i hr
        have hr' : isRoot = false := by simpa using hr
        subst hr'
        have hf : first = false := by simpa using hc
        subst hf
        refine ⟨(by simp), fun _ => rfl, ?_,
          (by simp), ?_⟩
        · intro _
          refine ⟨hx, fun _ => s2, ?_⟩
          intro s hs
          simp only [Option.mem_def, Option.some.injEq] at hs
          subst hs
          exact ⟨hy, s3⟩
        · simp only [allLeaves, splitLeaves, Option.toList_some, List.flatMap_cons,
            List.flatMap_nil, List.append_nil]
          exact s1.trans hperm
  · rename_i hov
    refine ⟨_, rfl, ⟨fun _ => rfl, fun _ => rfl, ?_,
          ?_, ?_⟩⟩
    · intro _
      refine ⟨⟨by omega, hcon'⟩, ?_, by simp⟩
      intro h; simp only [nItems, List.length_append] at h ⊢; omega
    · intro _; left; exact ⟨by omega, hcon'⟩
    · simpa [allLeaves] using hperm

theorem flatMap_perm {β γ : Type} {l l' : List β} (h : l.Perm l') (f : β → List γ) :
    (l.flatMap f).Perm (l'.flatMap f) := h.flatMap_right f

theorem ins_ok {P : RParams G} {H : Heur d G} (hP : P.Valid) (hH : H.Valid P) (first : Bool)
    (lf : Leaf d G α) : ∀ (h : Nat) (isRoot : Bool) (t : RNode d G α), WF P h t →
      ∃ r, ins P H first isRoot lf t = .ok r ∧ InsSpec P h first isRoot lf t r := by
  intro h
  induction h with
  | zero =>
    intro isRoot t hw
    match t, hw with
    | .leaves b items, hw => exact ins_leaves hP hH first isRoot lf b items hw
  | succ h ih =>
    intro isRoot t hw
    match t, hw with
    | .inner b items, ⟨hne, hlen, hch, hcon⟩ =>
      have h0 : 0 < items.length := List.length_pos_iff.2 hne
      have hhl : firstHasLeaves items = .ok items[0].hasLeaves := by
        unfold firstHasLeaves; rw [getR_of_lt h0]; rfl
      have hi : H.choose lf.bound items[0].hasLeaves (items.map bound) < items.length := by
        have := hH.choose lf.bound items[0].hasLeaves (items.map bound) (by simpa using hne)
        simpa using this
      generalize hidx : H.choose lf.bound items[0].hasLeaves (items.map bound) = i at hi
      obtain ⟨l1, l2, c, hsplit, hl1⟩ : ∃ l1 l2 c, items = l1 ++ c :: l2 ∧ i = l1.length :=
        ⟨items.take i, items.drop (i + 1), items[i], by simp, by simp; omega⟩
      have hcm : c ∈ items := by rw [hsplit]; simp
      obtain ⟨r, hr, hs⟩ := ih false c (hch c hcm).1
      have hat := insAt_ok i l1 l2 c r hl1 hr
      rw [← hsplit] at hat
      obtain ⟨w1, w2, w3⟩ := hs.wf rfl
      -- content
      have hperm : ((l1 ++ r.node :: l2).flatMap allLeaves ++
          r.sibling.toList.flatMap allLeaves ++ r.reinsert).Perm (lf :: items.flatMap allLeaves) := by
        rw [hsplit]
        simp only [List.flatMap_append, List.flatMap_cons]
        have hp := hs.perm
        refine List.Perm.trans ?_ (List.Perm.trans
          (List.Perm.append_right (l2.flatMap allLeaves)
            (List.Perm.append_left (l1.flatMap allLeaves) hp)) ?_)
        · simp only [List.append_assoc]
          refine List.Perm.append_left _ (List.Perm.append_left _ ?_)
          refine List.Perm.trans (List.perm_append_comm) ?_
          simp only [List.append_assoc]
          exact List.Perm.refl _
        · simp only [List.append_assoc, List.cons_append]
          exact List.perm_middle
      have hchild : ∀ x ∈ l1 ++ r.node :: l2, WF P h x ∧ P.m ≤ x.nItems := by
        intro x hx
        rcases List.mem_append.1 hx with hx | hx
        · exact hch x (by rw [hsplit]; simp [hx])
        · rcases List.mem_cons.1 hx with rfl | hx
          · exact ⟨w1, w2 (hch c hcm).2⟩
          · exact hch x (by rw [hsplit]; simp [hx])
      have hlen' : (l1 ++ r.node :: l2).length = items.length := by rw [hsplit]; simp
      have hconAll : ∀ l ∈ lf :: items.flatMap allLeaves, (b.stretch lf.bound).Contains l.bound := by
        intro l hl
        rcases List.mem_cons.1 hl with rfl | hl
        · exact Box.stretch_right _ _
        · obtain ⟨x, hx, hl⟩ := List.mem_flatMap.1 hl
          exact (Box.stretch_left _ _).trans (hcon x hx l hl)
      unfold ins
      dsimp only
      rw [hhl, ok_bind, hidx, hat, ok_bind]
      dsimp only
      cases hsib : r.sibling with
      | none =>
        rw [hsib] at hperm
        simp only [Option.toList_none, List.flatMap_nil, List.append_nil] at hperm
        have hwf : WF P (h + 1) (.inner (b.stretch lf.bound) (l1 ++ r.node :: l2)) := by
          refine ⟨by simp, by omega, hchild, ?_⟩
          intro x hx l hl
          refine hconAll l (hperm.subset ?_)
          exact List.mem_append_left _ (List.mem_flatMap.2 ⟨x, hx, hl⟩)
        refine ⟨_, rfl, ⟨fun _ => rfl, ?_, ?_,
          ?_, ?_⟩⟩
        · exact hs.noRe
        · intro _
          refine ⟨hwf, ?_, by simp⟩
          intro hm
          simp only [nItems] at hm ⊢
          omega
        · intro _; left; exact hwf
        · simp only [allLeaves, allLeavesList_eq, Option.toList_none, List.flatMap_nil, List.append_nil]
          exact hperm
      | some s =>
        have hff : first = false := by
          cases hf : first with
          | false => rfl
          | true => rw [hs.noSib (.inr hf)] at hsib; cases hsib
        have hre : r.reinsert = [] := hs.noRe hff
        obtain ⟨ws, ms⟩ := w3 s (by rw [hsib]; rfl)
        have hperm' : ((l1 ++ r.node :: l2 ++ [s]).flatMap allLeaves).Perm
            (lf :: items.flatMap allLeaves) := by
          rw [hsib, hre] at hperm
          simpa using hperm
        have hchild' : ∀ x ∈ l1 ++ r.node :: l2 ++ [s], WF P h x ∧ P.m ≤ x.nItems := by
          intro x hx
          rcases List.mem_append.1 hx with hx | hx
          · exact hchild x hx
          · simp only [List.mem_singleton] at hx; subst hx; exact ⟨ws, ms⟩
        have hlen'' : (l1 ++ r.node :: l2 ++ [s]).length = items.length + 1 := by
          rw [List.length_append, hlen']; rfl
        dsimp only
        generalize hits : l1 ++ r.node :: l2 ++ [s] = its at hperm' hchild' hlen''
        split
        · rename_i hov
          have hl1 : its.length = P.M + 1 := by omega
          obtain ⟨s1, s2, s3⟩ := splitItems_spec hH RNode.bound its hl1
          have s4 := s1.length_eq
          rw [List.length_append, hl1] at s4
          have hm := hP.pos
          have hx : WF P (h + 1) (splitInner P H its).1 := by
            refine ⟨?_, by omega, fun x hx => hchild' x (s1.subset (List.mem_append_left _ hx)), ?_⟩
            · intro e; rw [e] at s2; simp at s2; omega
            · intro x hx l hl
              exact (Box.hull_contains hx).trans
                ((hchild' x (s1.subset (List.mem_append_left _ hx))).1.contains l hl)
          have hy : WF P (h + 1) (splitInner P H its).2 := by
            refine ⟨?_, by omega, fun x hx => hchild' x (s1.subset (List.mem_append_right _ hx)), ?_⟩
            · intro e; rw [e] at s3; simp at s3; omega
            · intro x hx l hl
              exact (Box.hull_contains hx).trans
                ((hchild' x (s1.subset (List.mem_append_right _ hx))).1.contains l hl)
          have hpp := (flatMap_perm s1 allLeaves).trans hperm'
          rw [List.flatMap_append] at hpp
          unfold overflowInner
          rw [if_neg (by simp [hff])]
          dsimp only
          split
          · rename_i hr
            subst hr
            refine ⟨_, rfl, ⟨fun _ => rfl, fun _ => rfl, (by simp),
          fun _ => .inr (newRoot_wf hP hx hy s2 s3), ?_⟩⟩
            simpa [newRoot, allLeaves, allLeavesList, splitInner, allLeavesList_eq] using hpp
          · rename_i hr
            have hr' : isRoot = false := by simpa using hr
            subst hr'
            refine ⟨_, rfl, ⟨(by simp [hff]), fun _ => rfl, ?_,
          (by simp), ?_⟩⟩
            · intro _
              refine ⟨hx, fun _ => s2, ?_⟩
              intro s hs
              simp only [Option.mem_def, Option.some.injEq] at hs
              subst hs
              exact ⟨hy, s3⟩
            · simpa [allLeaves, splitInner, allLeavesList_eq] using hpp
        · rename_i hov
          have hwf : WF P (h + 1) (.inner (b.stretch lf.bound) its) := by
            refine ⟨?_, by omega, hchild', ?_⟩
            · intro e; rw [e] at hlen''; simp at hlen''
            · intro x hx l hl
              exact hconAll l (hperm'.subset (List.mem_flatMap.2 ⟨x, hx, hl⟩))
          refine ⟨_, rfl, ⟨fun _ => rfl, fun _ => hre, ?_,
          fun _ => .inl hwf, ?_⟩⟩
          · intro _
            refine ⟨hwf, ?_, by simp⟩
            intro hm
            simp only [nItems] at hm ⊢
            omega
          · simp only [allLeaves, allLeavesList_eq, Option.toList_none, List.flatMap_nil,
              List.append_nil, hre]
            exact hperm'

end RNode
end Colloids
