import Verif.RStar.OpLemmas

/-! Nested boxes: every node box contains the boxes of its children and is as small as `reset()`
allows. -/

namespace Colloids
variable {d : Nat} {G α : Type} [LinearOrder G]

namespace RNode

/-- The box contains what `reset()` gives. -/
abbrev Big (P : RParams G) (b : Box d G) : Prop := b.Contains (Box.reset d P.mx P.mn)

/-- Boxes of inner nodes contain the `reset()` box and the boxes of their children. -/
def Nest (P : RParams G) : Nat → RNode d G α → Prop
  | 0, .leaves _ _ => True
  | h + 1, .inner b items => Big P b ∧ ∀ c ∈ items, Nest P h c ∧ b.Contains c.bound
  | _, _ => False

/-- Effect of an insertion on the boxes. -/
structure NestSpec (P : RParams G) (h : Nat) (isRoot : Bool) (lf : Leaf d G α) (t : RNode d G α)
    (r : InsResult d G α) : Prop where
  nest : isRoot = false → Nest P h r.node ∧ ∀ s ∈ r.sibling, Nest P h s
  nestRoot : isRoot = true → (WF P h r.node ∧ Nest P h r.node) ∨ (WF P (h + 1) r.node ∧ Nest P (h + 1) r.node)
  le : ∀ X : Box d G, Big P X → X.Contains t.bound → X.Contains lf.bound →
    X.Contains r.node.bound ∧ ∀ s ∈ r.sibling, X.Contains s.bound

theorem newRoot_nest {P : RParams G} {h : Nat} {x y : RNode d G α} (hx : Nest P h x) (hy : Nest P h y) :
    Nest P (h + 1) (newRoot P x y) := by
  refine ⟨Box.hull_reset, ?_⟩
  intro c hc
  refine ⟨?_, Box.hull_contains hc⟩
  simp only [List.mem_cons, List.not_mem_nil, or_false] at hc
  rcases hc with rfl | rfl
  · exact hx
  · exact hy

theorem newRoot_le {P : RParams G} {x y : RNode d G α} {X : Box d G} (hX : Big P X)
    (hx : X.Contains x.bound) (hy : X.Contains y.bound) : X.Contains (newRoot P x y).bound := by
  refine Box.hull_le hX ?_
  intro c hc
  simp only [List.mem_cons, List.not_mem_nil, or_false] at hc
  rcases hc with rfl | rfl
  · exact hx
  · exact hy

theorem ins_leaves_nest {P : RParams G} {H : Heur d G} (hP : P.Valid) (hH : H.Valid P)
    (first isRoot : Bool) (lf : Leaf d G α) (b : Box d G) (items : List (Leaf d G α))
    (hw : WF P 0 (.leaves b items)) (r : InsResult d G α)
    (hr : ins P H first isRoot lf (.leaves b items) = .ok r) :
    NestSpec P 0 isRoot lf (.leaves b items) r := by
  obtain ⟨hlen, hcon⟩ := hw
  unfold ins at hr
  dsimp only at hr
  split at hr
  · rename_i hov
    have hl1 : (items ++ [lf]).length = P.M + 1 := by simp at hov ⊢; omega
    have hin : ∀ X : Box d G, X.Contains b → X.Contains lf.bound → ∀ l ∈ items ++ [lf],
        X.Contains l.bound := by
      intro X h1 h2 l hl
      rcases List.mem_append.1 hl with hl | hl
      · exact h1.trans (hcon l hl)
      · simp only [List.mem_singleton] at hl; subst hl; exact h2
    injection hr with hr
    subst hr
    unfold overflowLeaves
    split
    · rename_i hc
      obtain ⟨hc1, hc2⟩ : isRoot = false ∧ first = true := by simpa using hc
      subst hc1
      refine ⟨fun _ => ⟨trivial, by simp⟩, by simp, ?_⟩
      intro X hX h1 h2
      refine ⟨Box.hull_le hX ?_, by simp⟩
      intro l hl
      have ho := hH.order _ Leaf.bound (b.stretch lf.bound) (items ++ [lf])
      exact hin X h1 h2 l (ho.subset (List.mem_of_mem_take hl))
    · obtain ⟨s1, s2, s3⟩ := splitItems_spec hH Leaf.bound (items ++ [lf]) hl1
      have s4 := s1.length_eq
      rw [List.length_append, hl1] at s4
      have hm := hP.pos
      have hx : WF P 0 (splitLeaves P H (items ++ [lf])).1 :=
        ⟨by omega, fun l hl => Box.hull_contains hl⟩
      have hy : WF P 0 (splitLeaves P H (items ++ [lf])).2 :=
        ⟨by omega, fun l hl => Box.hull_contains hl⟩
      have hle : ∀ X : Box d G, Big P X → X.Contains b → X.Contains lf.bound →
          X.Contains (splitLeaves P H (items ++ [lf])).1.bound ∧
          X.Contains (splitLeaves P H (items ++ [lf])).2.bound := by
        intro X hX h1 h2
        exact ⟨Box.hull_le hX fun l hl => hin X h1 h2 l (s1.subset (List.mem_append_left _ hl)),
          Box.hull_le hX fun l hl => hin X h1 h2 l (s1.subset (List.mem_append_right _ hl))⟩
      dsimp only
      split
      · rename_i hr
        subst hr
        refine ⟨by simp, ?_, ?_⟩
        · intro _; right
          exact ⟨newRoot_wf hP hx hy s2 s3, newRoot_nest trivial trivial⟩
        · intro X hX h1 h2
          obtain ⟨e1, e2⟩ := hle X hX h1 h2
          exact ⟨newRoot_le hX e1 e2, by simp⟩
      · rename_i hr
        have hr' : isRoot = false := by simpa using hr
        subst hr'
        refine ⟨?_, by simp, ?_⟩
        · intro _
          refine ⟨trivial, ?_⟩
          intro s hs
          simp only [Option.mem_def, Option.some.injEq] at hs
          subst hs
          trivial
        · intro X hX h1 h2
          obtain ⟨e1, e2⟩ := hle X hX h1 h2
          refine ⟨e1, ?_⟩
          intro s hs
          simp only [Option.mem_def, Option.some.injEq] at hs
          subst hs
          exact e2
  · rename_i hov
    injection hr with hr
    subst hr
    refine ⟨fun _ => ⟨trivial, by simp⟩, ?_, ?_⟩
    · intro _; left
      refine ⟨⟨by omega, ?_⟩, trivial⟩
      intro l hl
      rcases List.mem_append.1 hl with hl | hl
      · exact (Box.stretch_left _ _).trans (hcon l hl)
      · simp only [List.mem_singleton] at hl; subst hl; exact Box.stretch_right _ _
    · intro X hX h1 h2
      exact ⟨Box.stretch_le h1 h2, by simp⟩

theorem ins_nest {P : RParams G} {H : Heur d G} (hP : P.Valid) (hH : H.Valid P) (first : Bool)
    (lf : Leaf d G α) : ∀ (h : Nat) (isRoot : Bool) (t : RNode d G α), WF P h t → Nest P h t →
      ∀ r, ins P H first isRoot lf t = .ok r → NestSpec P h isRoot lf t r := by
  intro h
  induction h with
  | zero =>
    intro isRoot t hw _ r hr
    match t, hw, hr with
    | .leaves b items, hw, hr => exact ins_leaves_nest hP hH first isRoot lf b items hw r hr
  | succ h ih =>
    intro isRoot t hw hn r' hr'
    have hroot := ins_ok hP hH first lf (h + 1) isRoot t hw
    match t, hw, hn, hr', hroot with
    | .inner b items, ⟨hne, hlen, hch, hcon⟩, ⟨hbig, hnest⟩, hq, hroot =>
      have h0 : 0 < items.length := List.length_pos_iff.2 hne
      have hhl : firstHasLeaves items = .ok items[0].hasLeaves := by
        unfold firstHasLeaves; rw [getR_of_lt h0]; rfl
      have hi : H.choose lf.bound items[0].hasLeaves (items.map bound) < items.length := by
        have := hH.choose lf.bound items[0].hasLeaves (items.map bound) (by simpa using hne)
        simpa using this
      generalize hidx : H.choose lf.bound items[0].hasLeaves (items.map bound) = i at hi
      obtain ⟨l1, l2, c, hsplit, hl1⟩ : ∃ l1 l2 c, items = l1 ++ c :: l2 ∧ i = l1.length :=
        ⟨items.take i, items.drop (i + 1), items[i], by simp, by simp; omega⟩
      have hcm : c ∈ items := by rw [hsplit]; simp
      obtain ⟨r, hr, hs⟩ := ins_ok hP hH first lf h false c (hch c hcm).1
      have hns := ih false c (hch c hcm).1 (hnest c hcm).1 r hr
      obtain ⟨n1, n2⟩ := hns.nest rfl
      have hat := insAt_ok i l1 l2 c r hl1 hr
      rw [← hsplit] at hat
      have hbig' : Big P (b.stretch lf.bound) := (Box.stretch_left _ _).trans hbig
      obtain ⟨le1, le2⟩ := hns.le (b.stretch lf.bound) hbig'
        ((Box.stretch_left _ _).trans (hnest c hcm).2) (Box.stretch_right _ _)
      have hchild : ∀ x ∈ l1 ++ r.node :: l2, Nest P h x ∧ (b.stretch lf.bound).Contains x.bound := by
        intro x hx
        rcases List.mem_append.1 hx with hx | hx
        · have := hnest x (by rw [hsplit]; simp [hx])
          exact ⟨this.1, (Box.stretch_left _ _).trans this.2⟩
        · rcases List.mem_cons.1 hx with rfl | hx
          · exact ⟨n1, le1⟩
          · have := hnest x (by rw [hsplit]; simp [hx])
            exact ⟨this.1, (Box.stretch_left _ _).trans this.2⟩
      -- the outcome satisfies the structural specification
      obtain ⟨r0, hr0, hspec⟩ := hroot
      have : r0 = r' := by rw [hq] at hr0; injection hr0 with e; exact e.symm
      subst this
      unfold ins at hq
      dsimp only at hq
      rw [hhl, ok_bind, hidx, hat, ok_bind] at hq
      dsimp only at hq
      have hfix : ∀ its : List (RNode d G α), r0 = ⟨.inner (b.stretch lf.bound) its, none, r0.reinsert⟩ →
          (∀ x ∈ its, Nest P h x ∧ (b.stretch lf.bound).Contains x.bound) →
          NestSpec P (h + 1) isRoot lf (.inner b items) r0 := by
        intro its e hits
        have hn : Nest P (h + 1) r0.node := by rw [e]; exact ⟨hbig', hits⟩
        refine ⟨?_, ?_, ?_⟩
        · intro _; exact ⟨hn, by rw [e]; simp⟩
        · intro hi
          rcases hspec.wfRoot hi with hw | hw
          · exact .inl ⟨hw, hn⟩
          · exfalso
            rw [e] at hw hn
            obtain ⟨hne2, -, hw2, -⟩ := hw
            obtain ⟨x, hx⟩ := List.exists_mem_of_ne_nil _ hne2
            have a1 := (hw2 x hx).1
            have a2 := (hits x hx).1
            clear * - a1 a2
            revert a1 a2
            generalize h = n
            intro a1 a2
            have key : ∀ (n : Nat) (x : RNode d G α), WF P (n + 1) x → Nest P n x → False := by
              intro n
              induction n with
              | zero =>
                intro x h1 h2
                match x, h1, h2 with
                | .inner _ _, _, h2 => exact h2
              | succ n ihn =>
                intro x h1 h2
                match x, h1, h2 with
                | .inner _ its, ⟨hne, _, h1, _⟩, ⟨_, h2⟩ =>
                  obtain ⟨y, hy⟩ := List.exists_mem_of_ne_nil _ hne
                  exact ihn y (h1 y hy).1 (h2 y hy).1
            exact key n x a1 a2
        · intro X hX h1 h2
          rw [e]
          exact ⟨Box.stretch_le h1 h2, by simp⟩
      cases hsib : r.sibling with
      | none =>
        rw [hsib] at hq
        dsimp only [pure_eq_ok] at hq
        injection hq with hq
        refine hfix (l1 ++ r.node :: l2) ?_ hchild
        rw [← hq]
      | some s =>
        rw [hsib] at hq
        dsimp only at hq
        have hff : first = false := by
          cases hf : first with
          | false => rfl
          | true => rw [hs.noSib (.inr hf)] at hsib; cases hsib
        have hchild' : ∀ x ∈ l1 ++ r.node :: l2 ++ [s],
            Nest P h x ∧ (b.stretch lf.bound).Contains x.bound := by
          intro x hx
          rcases List.mem_append.1 hx with hx | hx
          · exact hchild x hx
          · simp only [List.mem_singleton] at hx
            subst hx
            exact ⟨n2 x (by rw [hsib]; rfl), le2 x (by rw [hsib]; rfl)⟩
        have hlen'' : (l1 ++ r.node :: l2 ++ [s]).length = items.length + 1 := by
          rw [hsplit]; simp; omega
        generalize hits : l1 ++ r.node :: l2 ++ [s] = its at hq hchild' hlen''
        split at hq
        · rename_i hov
          have hl1 : its.length = P.M + 1 := by omega
          obtain ⟨s1, s2, s3⟩ := splitItems_spec hH RNode.bound its hl1
          have hx : Nest P (h + 1) (splitInner P H its).1 :=
            ⟨Box.hull_reset, fun x hx =>
              ⟨(hchild' x (s1.subset (List.mem_append_left _ hx))).1, Box.hull_contains hx⟩⟩
          have hy : Nest P (h + 1) (splitInner P H its).2 :=
            ⟨Box.hull_reset, fun x hx =>
              ⟨(hchild' x (s1.subset (List.mem_append_right _ hx))).1, Box.hull_contains hx⟩⟩
          have hle : ∀ X : Box d G, Big P X → X.Contains b → X.Contains lf.bound →
              X.Contains (splitInner P H its).1.bound ∧ X.Contains (splitInner P H its).2.bound := by
            intro X hX h1 h2
            have hXb := Box.stretch_le h1 h2
            exact ⟨Box.hull_le hX fun x hx =>
                hXb.trans (hchild' x (s1.subset (List.mem_append_left _ hx))).2,
              Box.hull_le hX fun x hx =>
                hXb.trans (hchild' x (s1.subset (List.mem_append_right _ hx))).2⟩
          unfold overflowInner at hq
          rw [if_neg (by simp [hff])] at hq
          dsimp only at hq
          split at hq
          · rename_i hroot'
            subst hroot'
            injection hq with hq
            subst hq
            refine ⟨by simp, ?_, ?_⟩
            · intro _; right
              refine ⟨?_, newRoot_nest hx hy⟩
              rcases hspec.wfRoot rfl with hw | hw
              · exfalso
                -- a new root has one more level
                obtain ⟨-, -, hw, -⟩ := hw
                have a1 := (hw (splitInner P H its).1 (by simp)).1
                have key : ∀ (n : Nat) (x : RNode d G α), WF P n x → Nest P (n + 1) x → False := by
                  intro n
                  induction n with
                  | zero =>
                    intro x h1 h2
                    match x, h1, h2 with
                    | .leaves _ _, _, h2 => exact h2
                  | succ n ihn =>
                    intro x h1 h2
                    match x, h1, h2 with
                    | .inner _ its, ⟨hne, _, h1, _⟩, ⟨_, h2⟩ =>
                      obtain ⟨y, hy⟩ := List.exists_mem_of_ne_nil _ hne
                      exact ihn y (h1 y hy).1 (h2 y hy).1
                exact key h _ a1 hx
              · exact hw
            · intro X hX h1 h2
              obtain ⟨e1, e2⟩ := hle X hX h1 h2
              exact ⟨newRoot_le hX e1 e2, by simp⟩
          · rename_i hroot'
            have hrr : isRoot = false := by simpa using hroot'
            subst hrr
            injection hq with hq
            subst hq
            refine ⟨?_, by simp, ?_⟩
            · intro _
              refine ⟨hx, ?_⟩
              intro s hs
              simp only [Option.mem_def, Option.some.injEq] at hs
              subst hs
              exact hy
            · intro X hX h1 h2
              obtain ⟨e1, e2⟩ := hle X hX h1 h2
              refine ⟨e1, ?_⟩
              intro s hs
              simp only [Option.mem_def, Option.some.injEq] at hs
              subst hs
              exact e2
        · rw [pure_eq_ok] at hq
          injection hq with hq
          refine hfix its ?_ hchild'
          rw [← hq]

/-- A tree whose boxes are nested. -/
def NWF (P : RParams G) (t : RNode d G α) : Prop := ∃ h, WF P h t ∧ Nest P h t

theorem insRoot_nest {P : RParams G} {H : Heur d G} (hP : P.Valid) (hH : H.Valid P) (first : Bool)
    (lf : Leaf d G α) {t : RNode d G α} (hw : NWF P t) {x : RNode d G α × List (Leaf d G α)}
    (hx : insRoot P H first t lf = .ok x) :
    NWF P x.1 ∧ ∀ X : Box d G, Big P X → X.Contains t.bound → X.Contains lf.bound → X.Contains x.1.bound := by
  obtain ⟨h, hw, hn⟩ := hw
  obtain ⟨r, hr, hs⟩ := ins_ok hP hH first lf h true t hw
  have hns := ins_nest hP hH first lf h true t hw hn r hr
  unfold insRoot at hx
  rw [hr, ok_bind, pure_eq_ok] at hx
  injection hx with hx
  subst hx
  refine ⟨?_, fun X hX h1 h2 => (hns.le X hX h1 h2).1⟩
  rcases hns.nestRoot rfl with h' | h'
  · exact ⟨_, h'⟩
  · exact ⟨_, h'⟩

theorem insertLeaf_nest {P : RParams G} {H : Heur d G} (hP : P.Valid) (hH : H.Valid P)
    (lf : Leaf d G α) {t t' : RNode d G α} (hw : NWF P t) (ht : insertLeaf P H t lf = .ok t') :
    NWF P t' ∧ ∀ X : Box d G, Big P X → X.Contains t.bound → X.Contains lf.bound → X.Contains t'.bound := by
  obtain ⟨h, hwf, hn⟩ := hw
  obtain ⟨t1, re, h1, h2, -, h4⟩ := insRoot_ok hP hH true lf hwf
  obtain ⟨n1, n2⟩ := insRoot_nest hP hH true lf ⟨h, hwf, hn⟩ h1
  unfold insertLeaf at ht
  rw [h1, ok_bind] at ht
  dsimp only at ht n1 n2
  have key : ∀ (re : List (Leaf d G α)) (t1 : RNode d G α), NWF P t1 →
      re.foldlM (fun r l => do return (← insRoot P H false r l).1) t1 = Except.ok t' →
      NWF P t' ∧ ∀ X : Box d G, Big P X → X.Contains t1.bound → (∀ l ∈ re, X.Contains l.bound) →
        X.Contains t'.bound := by
    intro re
    induction re with
    | nil =>
      intro t1 hn h
      simp only [List.foldlM_nil, pure_eq_ok] at h
      injection h with h
      subst h
      exact ⟨hn, fun X _ h _ => h⟩
    | cons l re ih =>
      intro t1 hn h
      obtain ⟨ht1, hw1, hn1⟩ := hn
      obtain ⟨t2, re2, e1, -, -, -⟩ := insRoot_ok hP hH false l hw1
      obtain ⟨a1, a2⟩ := insRoot_nest hP hH false l ⟨ht1, hw1, hn1⟩ e1
      rw [List.foldlM_cons, e1, ok_bind, pure_eq_ok, ok_bind] at h
      obtain ⟨b1, b2⟩ := ih t2 a1 h
      refine ⟨b1, ?_⟩
      intro X hX c1 c2
      exact b2 X hX (a2 X hX c1 (c2 l (by simp))) (fun l' hl' => c2 l' (by simp [hl']))
  obtain ⟨k1, k2⟩ := key re t1 n1 ht
  refine ⟨k1, ?_⟩
  intro X hX c1 c2
  refine k2 X hX (n2 X hX c1 c2) ?_
  intro l hl
  have hm : l ∈ lf :: t.allLeaves := h4.subset (List.mem_append_right _ hl)
  rcases List.mem_cons.1 hm with rfl | hm
  · exact c2
  · exact c1.trans (hwf.contains l hm)

/-- Removal keeps the boxes nested and does not move any. -/
theorem rem_nest {P : RParams G} (accN : Box d G → Bool) (accL : Leaf d G α → Bool) :
    ∀ (h : Nat) (isRoot : Bool) (t : RNode d G α), WF P h t → Nest P h t →
      (isRoot = false → ∀ n ∈ (rem P accN accL isRoot t).1, Nest P h n ∧ n.bound = t.bound) ∧
      (isRoot = true → ∀ n ∈ (rem P accN accL isRoot t).1, NWF P n) := by
  have hempty : NWF P (.leaves (Box.reset d P.mx P.mn) [] : RNode d G α) :=
    ⟨0, ⟨by simp, by simp⟩, trivial⟩
  intro h
  induction h with
  | zero =>
    intro isRoot t hw _
    have hspec := rem_ok accN accL 0 isRoot t hw
    match t, hw, hspec with
    | .leaves b items, hw, hspec =>
      refine ⟨?_, ?_⟩
      · intro _ n hn
        unfold rem at hn
        dsimp only at hn
        split at hn
        · split at hn
          · split at hn
            · simp at hn
            · split at hn
              · simp at hn
              · simp only [Option.mem_def, Option.some.injEq] at hn; subst hn; exact ⟨trivial, rfl⟩
          · rename_i h1 h2; simp_all
        · simp only [Option.mem_def, Option.some.injEq] at hn; subst hn; exact ⟨trivial, rfl⟩
      · intro hr n hn
        subst hr
        unfold rem at hn
        dsimp only at hn
        simp only [Bool.not_true, Bool.false_eq_true, if_false] at hn
        split at hn
        · split at hn
          · simp only [Option.mem_def, Option.some.injEq] at hn; subst hn; exact hempty
          · simp only [Option.mem_def, Option.some.injEq] at hn
            subst hn
            refine ⟨0, ⟨(List.length_filter_le _ _).trans hw.1,
              fun l hl => hw.2 l (List.mem_of_mem_filter hl)⟩, trivial⟩
        · simp only [Option.mem_def, Option.some.injEq] at hn; subst hn
          exact ⟨0, hw, trivial⟩
  | succ h ih =>
    intro isRoot t hw hn0
    match t, hw, hn0 with
    | .inner b items, ⟨hne, hlen, hch, hcon⟩, ⟨hbig, hnest⟩ =>
      obtain ⟨r1, r2, r3, -⟩ := remList_ok (fun t ht => rem_ok accN accL h false t ht) items hch
      have hkept : ∀ (its : List (RNode d G α)), (∀ c ∈ its, WF P h c) →
          (∀ c ∈ its, Nest P h c ∧ b.Contains c.bound) →
          ∀ c ∈ (remList P accN accL its).1, Nest P h c ∧ b.Contains c.bound := by
        intro its
        induction its with
        | nil => intro _ _ c hc; simp [remList] at hc
        | cons x xs ih2 =>
          intro hwx hx c hc
          simp only [remList] at hc
          rcases List.mem_append.1 hc with hc | hc
          · obtain ⟨a1, a2⟩ := (ih false x (hwx x (by simp)) (hx x (by simp)).1).1 rfl c (by simpa using hc)
            exact ⟨a1, by rw [a2]; exact (hx x (by simp)).2⟩
          · exact ih2 (fun y hy => hwx y (by simp [hy])) (fun y hy => hx y (by simp [hy])) c hc
      have hkept' := hkept items (fun c hc => (hch c hc).1) hnest
      generalize hrl : remList P accN accL items = rl at r1 r2 r3 hkept'
      have hwf : rl.1 ≠ [] → WF P (h + 1) (.inner b rl.1) := by
        intro hne
        refine ⟨hne, r2.trans hlen, r1, ?_⟩
        intro c hc l hl
        have : l ∈ items.flatMap allLeaves := r3.subset (List.mem_append_left _
          (List.mem_append_left _ (List.mem_flatMap.2 ⟨c, hc, hl⟩)))
        obtain ⟨x, hx, hl'⟩ := List.mem_flatMap.1 this
        exact hcon x hx l hl'
      refine ⟨?_, ?_⟩
      · intro hr n hn
        subst hr
        unfold rem at hn
        rw [hrl] at hn
        dsimp only at hn
        simp only [Bool.not_false, if_true] at hn
        split at hn
        · split at hn
          · simp at hn
          · split at hn
            · simp at hn
            · simp only [Option.mem_def, Option.some.injEq] at hn; subst hn
              exact ⟨⟨hbig, hkept'⟩, rfl⟩
        · simp only [Option.mem_def, Option.some.injEq] at hn; subst hn
          exact ⟨⟨hbig, hnest⟩, rfl⟩
      · intro hr n hn
        subst hr
        unfold rem at hn
        rw [hrl] at hn
        dsimp only at hn
        simp only [Bool.not_true, Bool.false_eq_true, if_false] at hn
        split at hn
        · split at hn
          · simp only [Option.mem_def, Option.some.injEq] at hn; subst hn; exact hempty
          · rename_i he
            simp only [Option.mem_def, Option.some.injEq] at hn; subst hn
            exact ⟨h + 1, hwf (by simpa using he), hbig, hkept'⟩
        · simp only [Option.mem_def, Option.some.injEq] at hn; subst hn
          exact ⟨h + 1, ⟨hne, hlen, hch, hcon⟩, hbig, hnest⟩

end RNode
end Colloids
