import Verif.Recon.Model
import Verif.Centers.Props
import Verif.MTraj.Props

/-! # Helper lemmas for the reconstruction -/

namespace Colloids
namespace Recon
variable {G : Type} [Field G] [LinearOrder G]

/-! ## Links -/


/-- The triples for one particle `x` (number `p`) of the last frame. -/
def linksOf (x : Center 2 G) (p : Nat) (fr : List (Center 2 G)) (maxDist : G) (qs : List Nat) :
    List (G × Nat × Nat) :=
  qs.filterMap (fun q => (fr[q]?).bind (fun y =>
    if sqDist2 x y < maxDist * maxDist then some (sqDist2 x y, p, q) else none))

theorem inner_ok (x : Center 2 G) (p : Nat) (fr : List (Center 2 G)) (maxDist : G) :
    ∀ (qs : List Nat) (acc : List (G × Nat × Nat)), (∀ q ∈ qs, q < fr.length) →
    qs.foldlM (fun acc q => do
      let y ← getR fr q
      pure (if sqDist2 x y < maxDist * maxDist then acc ++ [(sqDist2 x y, p, q)] else acc)) acc =
      (.ok (acc ++ linksOf x p fr maxDist qs) : R _) := by
  intro qs
  induction qs with
  | nil => intro acc _; simp [linksOf]
  | cons q qs ih =>
    intro acc h
    have hq := h q (by simp)
    rw [List.foldlM_cons, getR_of_lt hq, ok_bind, pure_eq_ok, ok_bind,
      ih _ (fun q hq => h q (by simp [hq]))]
    congr 1
    unfold linksOf
    rw [List.filterMap_cons]
    simp only [List.getElem?_eq_getElem hq, Option.bind_some]
    split <;> simp

/-- The links found with a tree. -/
def treeLinks (last fr : List (Center 2 G)) (tree : RTree 2 G Nat) (maxDist : G) (n : Nat) :
    List (G × Nat × Nat) :=
  (List.range n).flatMap (fun p => match last[p]? with
    | some x => linksOf x p fr maxDist ((tree.queryOverlapping (x.getBBMargin maxDist)).map (·.val))
    | none => [])

variable [IsStrictOrderedRing G]

theorem query_lt {P : RParams G} {H : Heur 2 G} (hP : P.Valid) (hH : H.Valid P)
    {fr : List (Center 2 G)} {tree : RTree 2 G Nat} {tol : G} (ht : RTree.Reachable P H false tree)
    (hc : tree.content.Perm (Center.leavesOf tol fr)) (b : Box 2 G) :
    (∀ q ∈ (tree.queryOverlapping b).map (·.val), q < fr.length) ∧
    ((tree.queryOverlapping b).map (·.val)).Nodup ∧
    (∀ q, q ∈ (tree.queryOverlapping b).map (·.val) ↔ ∃ y, fr[q]? = some y ∧
      b.overlaps (y.getBB tol) = true) := by
  rw [C13_overlapping hP hH ht]
  have hm : ∀ q, q ∈ (tree.content.filter (fun l => b.overlaps l.bound)).map (·.val) ↔
      ∃ y, fr[q]? = some y ∧ b.overlaps (y.getBB tol) = true := by
    intro q
    constructor
    · intro hq
      obtain ⟨l, hl, rfl⟩ := List.mem_map.1 hq
      obtain ⟨hl1, hl2⟩ := List.mem_filter.1 hl
      have := hc.mem_iff.1 hl1
      unfold Center.leavesOf at this
      obtain ⟨⟨x, i⟩, hx, rfl⟩ := List.mem_map.1 this
      exact ⟨x, List.mk_mem_zipIdx_iff_getElem?.1 hx, hl2⟩
    · rintro ⟨y, hy, hb⟩
      refine List.mem_map.2 ⟨⟨y.getBB tol, q⟩, List.mem_filter.2 ⟨hc.mem_iff.2 ?_, hb⟩, rfl⟩
      unfold Center.leavesOf
      exact List.mem_map.2 ⟨(y, q), List.mk_mem_zipIdx_iff_getElem?.2 hy, rfl⟩
  refine ⟨?_, ?_, hm⟩
  · intro q hq
    obtain ⟨y, hy, -⟩ := (hm q).1 hq
    exact (List.getElem?_eq_some_iff.1 hy).1
  · have h1 : (tree.content.map (·.val)).Nodup := by
      refine (hc.map _).nodup_iff.2 ?_
      unfold Center.leavesOf
      rw [List.map_map]
      have : fr.zipIdx.map ((fun x => x.val) ∘ fun ci : Center 2 G × Nat =>
          (⟨ci.1.getBB tol, ci.2⟩ : Leaf 2 G Nat)) = fr.zipIdx.map Prod.snd := rfl
      rw [this, TrajMap.zipIdx_snd]
      exact List.nodup_range'
    exact h1.sublist (List.filter_sublist.map _)

theorem links_ok {P : RParams G} {H : Heur 2 G} (hP : P.Valid) (hH : H.Valid P)
    {last fr : List (Center 2 G)} {tree : RTree 2 G Nat} {tol : G}
    (ht : RTree.Reachable P H false tree)
    (hc : tree.content.Perm (Center.leavesOf tol fr)) (maxDist : G) :
    linksByRStarTree last fr tree maxDist = .ok (treeLinks last fr tree maxDist last.length) := by
  unfold linksByRStarTree
  have key : ∀ n, n ≤ last.length → (List.range n).foldlM (fun acc p => do
      let x ← getR last p
      let ngb := (tree.queryOverlapping (x.getBBMargin maxDist)).map (·.val)
      ngb.foldlM (fun acc q => do
        let y ← getR fr q
        pure (if sqDist2 x y < maxDist * maxDist then acc ++ [(sqDist2 x y, p, q)] else acc)) acc) [] =
      (.ok (treeLinks last fr tree maxDist n) : R _) := by
    intro n
    induction n with
    | zero => intro _; rfl
    | succ n ih =>
      intro hn
      have hl : n < last.length := by omega
      rw [List.range_succ, List.foldlM_append, ih (by omega), ok_bind, List.foldlM_cons,
        getR_of_lt hl, ok_bind]
      dsimp only
      rw [inner_ok _ _ _ _ _ _ (query_lt hP hH ht hc _).1, ok_bind, List.foldlM_nil, pure_eq_ok]
      congr 1
      unfold treeLinks
      rw [List.range_succ, List.flatMap_append]
      congr 1
      simp [hl]
  exact key _ (le_refl _)

omit [IsStrictOrderedRing G] in
theorem mem_linksOf {x : Center 2 G} {p : Nat} {fr : List (Center 2 G)} {maxDist : G} {qs : List Nat}
    {e : G × Nat × Nat} : e ∈ linksOf x p fr maxDist qs ↔ e.2.1 = p ∧ e.2.2 ∈ qs ∧
      ∃ y, fr[e.2.2]? = some y ∧ e.1 = sqDist2 x y ∧ sqDist2 x y < maxDist * maxDist := by
  unfold linksOf
  rw [List.mem_filterMap]
  constructor
  · rintro ⟨q, hq, h⟩
    obtain ⟨y, hy, h⟩ := Option.bind_eq_some_iff.1 h
    split at h
    · rename_i hlt
      injection h with h
      subst h
      exact ⟨rfl, hq, y, hy, rfl, hlt⟩
    · cases h
  · rintro ⟨h1, h2, y, hy, h3, h4⟩
    refine ⟨e.2.2, h2, ?_⟩
    rw [hy, Option.bind_some, if_pos h4]
    obtain ⟨a, b, c⟩ := e
    simp only at h1 h3 ⊢
    rw [h1, h3]

omit [IsStrictOrderedRing G] in
theorem mem_treeLinks {last fr : List (Center 2 G)} {tree : RTree 2 G Nat} {maxDist : G}
    {e : G × Nat × Nat} : e ∈ treeLinks last fr tree maxDist last.length ↔
      ∃ x y, last[e.2.1]? = some x ∧ fr[e.2.2]? = some y ∧ e.1 = sqDist2 x y ∧
        sqDist2 x y < maxDist * maxDist ∧
        e.2.2 ∈ (tree.queryOverlapping (x.getBBMargin maxDist)).map (·.val) := by
  unfold treeLinks
  rw [List.mem_flatMap]
  constructor
  · rintro ⟨p, hp, h⟩
    rw [List.mem_range] at hp
    rw [List.getElem?_eq_getElem hp] at h
    obtain ⟨h1, h2, y, h3, h4, h5⟩ := mem_linksOf.1 h
    subst h1
    exact ⟨_, y, List.getElem?_eq_getElem hp, h3, h4, h5, h2⟩
  · rintro ⟨x, y, h1, h2, h3, h4, h5⟩
    refine ⟨e.2.1, List.mem_range.2 (List.getElem?_eq_some_iff.1 h1).1, ?_⟩
    rw [h1]
    exact mem_linksOf.2 ⟨rfl, h5, y, h2, h3, h4⟩

theorem treeLinks_nodup {P : RParams G} {H : Heur 2 G} (hP : P.Valid) (hH : H.Valid P)
    {last fr : List (Center 2 G)} {tree : RTree 2 G Nat} {tol : G}
    (ht : RTree.Reachable P H false tree)
    (hc : tree.content.Perm (Center.leavesOf tol fr)) (maxDist : G) (n : Nat) :
    ((treeLinks last fr tree maxDist n).map Prod.snd).Nodup := by
  have one : ∀ x p, ((linksOf x p fr maxDist
      ((tree.queryOverlapping (x.getBBMargin maxDist)).map (·.val))).map Prod.snd).Nodup := by
    intro x p
    have hnd := (query_lt hP hH ht hc (x.getBBMargin maxDist)).2.1
    generalize (tree.queryOverlapping (x.getBBMargin maxDist)).map (·.val) = qs at hnd
    have hs : ((linksOf x p fr maxDist qs).map Prod.snd).map Prod.snd = (qs.filterMap (fun q =>
        (fr[q]?).bind (fun y => if sqDist2 x y < maxDist * maxDist then some q else none))) := by
      unfold linksOf
      rw [List.map_filterMap, List.map_filterMap]
      apply List.filterMap_congr
      intro q _
      cases fr[q]? with
      | none => rfl
      | some y => simp only [Option.bind_some]; split <;> rfl
    have h2 : (((linksOf x p fr maxDist qs).map Prod.snd).map Prod.snd).Nodup := by
      rw [hs]
      refine List.Nodup.filterMap ?_ hnd
      intro a b c ha hb
      rw [Option.mem_def] at ha hb
      obtain ⟨y, -, ha⟩ := Option.bind_eq_some_iff.1 ha
      obtain ⟨z, -, hb⟩ := Option.bind_eq_some_iff.1 hb
      split at ha
      · split at hb
        · injection ha with ha; injection hb with hb; rw [ha, hb]
        · cases hb
      · cases ha
    exact List.Nodup.of_map _ h2
  induction n with
  | zero => simp [treeLinks]
  | succ n ih =>
    have e : treeLinks last fr tree maxDist (n + 1) = treeLinks last fr tree maxDist n ++
        (match last[n]? with
          | some x => linksOf x n fr maxDist ((tree.queryOverlapping (x.getBBMargin maxDist)).map (·.val))
          | none => []) := by
      unfold treeLinks
      rw [List.range_succ, List.flatMap_append, List.flatMap_cons, List.flatMap_nil, List.append_nil]
    rw [e, List.map_append, List.nodup_append]
    refine ⟨ih, ?_, ?_⟩
    · cases last[n]? with
      | none => simp
      | some x => exact one x n
    · intro a ha b hb hab
      subst hab
      obtain ⟨u, hu, rfl⟩ := List.mem_map.1 ha
      obtain ⟨v, hv, hvu⟩ := List.mem_map.1 hb
      have hu1 : u.2.1 < n := by
        unfold treeLinks at hu
        obtain ⟨p, hp, hu⟩ := List.mem_flatMap.1 hu
        rw [List.mem_range] at hp
        cases hl : last[p]? with
        | none => rw [hl] at hu; cases hu
        | some x => rw [hl] at hu; rw [(mem_linksOf.1 hu).1]; exact hp
      cases hl : last[n]? with
      | none => rw [hl] at hv; cases hv
      | some x =>
        rw [hl] at hv
        have := (mem_linksOf.1 hv).1
        rw [hvu] at this
        omega

end Recon
end Colloids
