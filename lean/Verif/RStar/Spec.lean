import Verif.RStar.Heur
import Verif.RStar.NestLemmas

/-! # Vocabulary of the properties C12 to C17, and invariants of reachable trees -/

namespace Colloids
variable {d : Nat} {G α : Type}

namespace RNode

mutual
/-- The node and all the nodes below. -/
def subnodes : RNode d G α → List (RNode d G α)
  | .leaves b items => [.leaves b items]
  | .inner b items => .inner b items :: subnodesList items
/-- The nodes below, for a list of children. -/
def subnodesList : List (RNode d G α) → List (RNode d G α)
  | [] => []
  | c :: cs => subnodes c ++ subnodesList cs
end

mutual
/-- Depth of every leaf node below the node. -/
def depths : RNode d G α → List Nat
  | .leaves _ _ => [0]
  | .inner _ items => (depthsList items).map (· + 1)
/-- Depths of the leaf nodes, for a list of children. -/
def depthsList : List (RNode d G α) → List Nat
  | [] => []
  | c :: cs => depths c ++ depthsList cs
end

/-- The children nodes. -/
def children : RNode d G α → List (RNode d G α)
  | .leaves _ _ => []
  | .inner _ items => items

theorem subnodesList_eq (l : List (RNode d G α)) : subnodesList l = l.flatMap subnodes := by
  induction l with
  | nil => simp [subnodesList]
  | cons c cs ih => simp [subnodesList, ih]

theorem depthsList_eq (l : List (RNode d G α)) : depthsList l = l.flatMap depths := by
  induction l with
  | nil => simp [depthsList]
  | cons c cs ih => simp [depthsList, ih]

end RNode

namespace RTree

/-- All the stored leaves. -/
def content (t : RTree d G α) : List (Leaf d G α) :=
  match t.root with
  | none => []
  | some r => r.allLeaves

/-- Trees obtained from an empty one by insertions, removals and (if `tr`) translations. -/
inductive Reachable [LT G] [DecidableLT G] [Add G] (P : RParams G) (H : Heur d G) (tr : Bool) :
    RTree d G α → Prop
  | empty : Reachable P H tr RTree.empty
  | insert {t t' : RTree d G α} (val : α) (b : Box d G) : Reachable P H tr t →
      t.insert P H val b = .ok t' → Reachable P H tr t'
  | remove {t t' : RTree d G α} (accN : Box d G → Bool) (accL : Leaf d G α → Bool) :
      Reachable P H tr t → t.remove P H accN accL = .ok t' → Reachable P H tr t'
  | translate {t : RTree d G α} (v : Fin d → G) : tr = true → Reachable P H tr t →
      Reachable P H tr (t.translate v)

theorem Reachable.insertAll [LT G] [DecidableLT G] [Add G] {P : RParams G} {H : Heur d G} {tr : Bool} :
    ∀ (xs : List (Leaf d G α)) {t t' : RTree d G α}, Reachable P H tr t →
      xs.foldlM (fun t x => t.insert P H x.val x.bound) t = .ok t' → Reachable P H tr t' := by
  intro xs
  induction xs with
  | nil => intro t t' ht h; rw [List.foldlM_nil] at h; cases h; exact ht
  | cons x xs ih =>
    intro t t' ht h
    rw [List.foldlM_cons] at h
    obtain ⟨t1, h1, h⟩ := bind_ok.1 h
    exact ih (.insert _ _ ht h1) h

/-- Invariant of reachable trees. -/
def Inv [LinearOrder G] (P : RParams G) (t : RTree d G α) : Prop :=
  (∀ r ∈ t.root, ∃ h, RNode.WF P h r) ∧ t.size = t.content.length

section
variable [LinearOrder G] {P : RParams G} {H : Heur d G}

theorem insert_inv (hP : P.Valid) (hH : H.Valid P) {t : RTree d G α} (ht : t.Inv P) (val : α)
    (b : Box d G) : ∃ t', t.insert P H val b = .ok t' ∧ t'.Inv P ∧
      t'.content.Perm (⟨b, val⟩ :: t.content) ∧ t'.size = t.size + 1 := by
  unfold insert
  cases hr : t.root with
  | none =>
    refine ⟨_, rfl, ⟨?_, ?_⟩, ?_, rfl⟩
    · intro r hr
      cases hr
      exact ⟨0, ⟨by have := hP.two; simp; omega, by simp [Box.Contains.refl]⟩⟩
    · have := ht.2
      simp only [content, hr, List.length_nil] at this
      simp [content, RNode.allLeaves, this]
    · simp [content, hr, RNode.allLeaves]
  | some r =>
    obtain ⟨r', h1, h2, h3⟩ := RNode.insertLeaf_ok hP hH ⟨b, val⟩ (ht.1 r hr)
    refine ⟨⟨some r', t.size + 1⟩, ?_, ⟨?_, ?_⟩, ?_, rfl⟩
    · simp [h1]
    · intro x hx; cases hx; exact h2
    · have := ht.2
      simp only [content, hr] at this
      simp only [content]
      rw [h3.length_eq, List.length_cons, this]
    · simpa [content, hr] using h3

theorem remove_inv (hP : P.Valid) (hH : H.Valid P) {t : RTree d G α} (ht : t.Inv P)
    (accN : Box d G → Bool) (accL : Leaf d G α → Bool) :
    ∃ t', t.remove P H accN accL = .ok t' ∧ t'.Inv P ∧
      (t'.content ++ t.query accN accL).Perm t.content ∧
      t'.size + (t.query accN accL).length = t.size := by
  unfold remove
  cases hr : t.root with
  | none =>
    refine ⟨t, rfl, ht, ?_, ?_⟩
    · simp [content, query, hr]
    · simp [query, hr]
  | some r =>
    obtain ⟨h, hw⟩ := ht.1 r hr
    have hs := RNode.rem_ok accN accL (P := P) h true r hw
    obtain ⟨n, hn1, hn2⟩ := hs.wfRoot rfl
    have hp := hs.perm
    have hc := hs.count
    rcases hx : RNode.rem P accN accL true r with ⟨o, re, cnt⟩
    rw [hx] at hn1 hp hc
    dsimp only at hn1 hp hc
    subst hn1
    obtain ⟨r'', h1, h2, h3⟩ := RNode.insertLeaves_ok hP hH re n hn2
    have hperm : (r''.allLeaves ++ r.query accN accL).Perm r.allLeaves := by
      refine (h3.append_right _).trans ?_
      simpa using hp
    have hlen := hperm.length_eq
    rw [List.length_append] at hlen
    have hsz : t.size = r.allLeaves.length := by have := ht.2; simpa [content, hr] using this
    refine ⟨⟨some r'', t.size - cnt⟩, ?_, ⟨?_, ?_⟩, ?_, ?_⟩
    · simp [hx, h1]
    · intro x hx'; cases hx'; exact h2
    · simp only [content]; omega
    · simpa [content, query, hr] using hperm
    · simp only [query, hr]; omega

end

theorem translate_inv [Field G] [LinearOrder G] [IsStrictOrderedRing G] {P : RParams G}
    {t : RTree d G α} (ht : t.Inv P) (v : Fin d → G) :
    (t.translate v).Inv P ∧ (t.translate v).content = t.content.map (Leaf.translate v) := by
  cases hr : t.root with
  | none =>
    refine ⟨⟨?_, ?_⟩, ?_⟩
    · simp [translate, hr]
    · have := ht.2
      simpa [translate, hr, content] using this
    · simp [translate, hr, content]
  | some r =>
    obtain ⟨h, hw⟩ := ht.1 r hr
    obtain ⟨h1, h2, h3, h4⟩ := RNode.translate_leaves v P h r hw
    refine ⟨⟨?_, ?_⟩, ?_⟩
    · intro x hx
      simp only [translate, hr, Option.map_some, Option.mem_def, Option.some.injEq] at hx
      subst hx; exact ⟨h, h4⟩
    · have := ht.2
      simp only [content, hr] at this
      simp only [translate, hr, content, Option.map_some, h1, List.length_map, this]
    · simp only [translate, hr, content, Option.map_some, h1]

section
variable [Field G] [LinearOrder G] [IsStrictOrderedRing G] {P : RParams G} {H : Heur d G}

theorem reachable_inv (hP : P.Valid) (hH : H.Valid P) {tr : Bool} {t : RTree d G α}
    (ht : Reachable P H tr t) : t.Inv P := by
  induction ht with
  | empty => exact ⟨by simp [RTree.empty], by simp [RTree.empty, content]⟩
  | insert val b _ h ih =>
    obtain ⟨t1, h1, h2, -⟩ := insert_inv hP hH ih val b
    rw [h] at h1; cases h1; exact h2
  | remove accN accL _ h ih =>
    obtain ⟨t1, h1, h2, -⟩ := remove_inv hP hH ih accN accL
    rw [h] at h1; cases h1; exact h2
  | translate v _ _ ih => exact (translate_inv ih v).1

theorem insertLeaves_nest (hP : P.Valid) (hH : H.Valid P) : ∀ (re : List (Leaf d G α))
    (r r' : RNode d G α), RNode.NWF P r → re.foldlM (RNode.insertLeaf P H) r = .ok r' → RNode.NWF P r' := by
  intro re
  induction re with
  | nil => intro r r' h hr; rw [List.foldlM_nil] at hr; cases hr; exact h
  | cons l re ih =>
    intro r r' h hr
    rw [List.foldlM_cons] at hr
    obtain ⟨x, hx, hr⟩ := bind_ok.1 hr
    exact ih x r' (RNode.insertLeaf_nest hP hH l h hx).1 hr

/-- Without translations boxes of nodes are nested. -/
theorem reachable_nest (hP : P.Valid) (hH : H.Valid P) {t : RTree d G α}
    (ht : Reachable P H false t) : ∀ r ∈ t.root, RNode.NWF P r := by
  induction ht with
  | empty => simp [RTree.empty]
  | @insert t t' val b _ h ih =>
    unfold RTree.insert at h
    cases hr : t.root with
    | none =>
      rw [hr] at h
      cases h
      intro r hr'
      cases hr'
      exact ⟨0, ⟨by have := hP.two; simp; omega, by simp [Box.Contains.refl]⟩, trivial⟩
    | some r =>
      rw [hr] at h
      obtain ⟨x, hx, h⟩ := bind_ok.1 h
      cases h
      intro r' hr'
      cases hr'
      exact (RNode.insertLeaf_nest hP hH _ (ih r hr) hx).1
  | @remove t t' accN accL _ h ih =>
    unfold RTree.remove at h
    cases hr : t.root with
    | none => rw [hr] at h; cases h; rw [hr]; simp
    | some r =>
      rw [hr] at h
      dsimp only at h
      obtain ⟨k, hw, hn⟩ := ih r hr
      have hrem := (RNode.rem_nest accN accL k true r hw hn).2 rfl
      rcases hx : RNode.rem P accN accL true r with ⟨o, re, cnt⟩
      rw [hx] at h hrem
      cases o with
      | none => simp at h
      | some n =>
        dsimp only at h
        obtain ⟨y, hy, h⟩ := bind_ok.1 h
        cases h
        intro r' hr'
        cases hr'
        exact insertLeaves_nest hP hH re n y (hrem n rfl) hy
  | translate v h _ _ => cases h

end

end RTree

namespace RNode

theorem WF.structure [LinearOrder G] {P : RParams G} : ∀ {h : Nat} {t : RNode d G α}, WF P h t →
    (∀ k ∈ t.depths, k = h) ∧ (∀ n ∈ t.subnodes, n.nItems ≤ P.M) ∧
    (∀ n ∈ t.subnodes, ∀ c ∈ n.children, P.m ≤ c.nItems) ∧
    (∀ n ∈ t.subnodes, ∀ l ∈ n.allLeaves, n.bound.Contains l.bound) := by
  intro h
  induction h with
  | zero =>
    intro t hw
    match t, hw with
    | .leaves b items, hw =>
      simp only [depths, subnodes, List.mem_singleton, forall_eq, nItems, children, allLeaves, bound]
      exact ⟨trivial, hw.1, by simp, hw.2⟩
  | succ h ih =>
    intro t hw
    match t, hw with
    | .inner b items, hw =>
      have hw0 := hw
      obtain ⟨h1, h2, h3, h4⟩ := hw
      simp only [depths, subnodes, depthsList_eq, subnodesList_eq, List.mem_cons, List.mem_map,
        List.mem_flatMap]
      refine ⟨?_, ?_, ?_, ?_⟩
      · rintro k ⟨a, ⟨c, hc, ha⟩, rfl⟩
        rw [(ih (h3 c hc).1).1 a ha]
      · rintro n (rfl | ⟨c, hc, hn⟩)
        · exact h2
        · exact (ih (h3 c hc).1).2.1 n hn
      · rintro n (rfl | ⟨c, hc, hn⟩)
        · exact fun c hc => (h3 c hc).2
        · exact (ih (h3 c hc).1).2.2.1 n hn
      · rintro n (rfl | ⟨c, hc, hn⟩)
        · exact WF.contains hw0
        · exact (ih (h3 c hc).1).2.2.2 n hn

theorem Nest.children [LinearOrder G] {P : RParams G} : ∀ {h : Nat} {t : RNode d G α}, Nest P h t →
    ∀ n ∈ t.subnodes, ∀ c ∈ n.children, n.bound.Contains c.bound := by
  intro h
  induction h with
  | zero =>
    intro t hw
    match t, hw with
    | .leaves b items, hw => simp [subnodes, RNode.children]
  | succ h ih =>
    intro t hw
    match t, hw with
    | .inner b items, hw =>
      simp only [subnodes, subnodesList_eq, List.mem_cons, List.mem_flatMap]
      rintro n (rfl | ⟨c, hc, hn⟩)
      · exact fun c hc => (hw.2 c hc).2
      · exact ih (hw.2 c hc).1 n hn

end RNode

/-- Insertion of a sequence of items in an empty tree. -/
def RTree.ofList [LT G] [DecidableLT G] (P : RParams G) (H : Heur d G) (xs : List (Leaf d G α)) :
    R (RTree d G α) :=
  xs.foldlM (fun t x => t.insert P H x.val x.bound) RTree.empty

end Colloids
