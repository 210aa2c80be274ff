import Verif.Particles.Model
import Verif.Index.Props
import Mathlib.Tactic.Linarith
import Mathlib.Tactic.Positivity
import Mathlib.Tactic.Ring
import Mathlib.Algebra.Order.Archimedean.Basic

/-! # Lemmas on particle sets and their neighbour searches -/

namespace Colloids
namespace Particles
variable {G : Type} [Field G] [LinearOrder G]

/-- The items an index of `pos` must hold. -/
def pointLeaves (pos : List (Coord G)) : List (Leaf 3 G Nat) :=
  pos.zipIdx.map fun x => ⟨bounds x.1 0, x.2⟩

/-- The index exists and holds the positions of the particles. -/
def Coherent (P : RParams G) (H : Heur 3 G) (ps : Particles G) : Prop :=
  ∃ t, ps.index = some t ∧ RTree.Reachable P H true t ∧ t.content.Perm (pointLeaves ps.pos)

theorem mem_pointLeaves {pos : List (Coord G)} {l : Leaf 3 G Nat} :
    l ∈ pointLeaves pos ↔ ∃ x, pos[l.val]? = some x ∧ l.bound = bounds x 0 := by
  unfold pointLeaves
  rw [List.mem_map]
  constructor
  · rintro ⟨⟨x, i⟩, h, rfl⟩
    rw [List.mk_mem_zipIdx_iff_getElem?] at h
    exact ⟨x, h, rfl⟩
  · rintro ⟨x, h, hb⟩
    exact ⟨(x, l.val), List.mk_mem_zipIdx_iff_getElem?.2 h, by cases l; simp at hb; simp [hb]⟩

theorem at_ok {ps : Particles G} {i : Nat} (h : i < ps.pos.length) : ps.at_ i = .ok ps.pos[i] := by
  unfold at_; simp [h]

/-- What the searches rely on: distances are computed for all the particles, and the candidates for a
range contain all the particles closer than the range. -/
structure Searches (g : Geometry G) (ps : Particles G) (c : Coord G) (dist : Nat → G) : Prop where
  diff : ∀ p < ps.pos.length, ∃ v, g.getDiff ps c p = .ok v ∧ dot3 v v = dist p
  cand : ∀ r, ∃ L, g.selectEnclosed ps (bounds c r) = .ok L ∧ L.Pairwise (· < ·) ∧
    (∀ p ∈ L, p < ps.pos.length) ∧ (∀ p < ps.pos.length, 0 < r → dist p < r * r → p ∈ L) ∧
    (r < 0 → L = [])

theorem keepNear_ok {g : Geometry G} {ps : Particles G} {c : Coord G} {dist : Nat → G} {rSq : G}
    {skip : Nat → Bool} {L : List Nat}
    (h : ∀ p ∈ L, ∃ v, g.getDiff ps c p = .ok v ∧ dot3 v v = dist p) :
    keepNear g ps c rSq skip L = .ok (L.filter fun p => !skip p && decide (dist p < rSq)) := by
  unfold keepNear
  have key : ∀ (L : List Nat) (acc : List Nat),
      (∀ p ∈ L, ∃ v, g.getDiff ps c p = .ok v ∧ dot3 v v = dist p) →
      L.foldlM (fun acc p =>
        if skip p then (.ok acc : R (List Nat)) else do
          let diff ← g.getDiff ps c p
          return if dot3 diff diff < rSq then acc ++ [p] else acc) acc =
        .ok (acc ++ L.filter fun p => !skip p && decide (dist p < rSq)) := by
    intro L
    induction L with
    | nil => intro acc _; simp
    | cons p L ih =>
      intro acc h
      rw [List.foldlM_cons]
      obtain ⟨v, hv, hd⟩ := h p (by simp)
      have ih' := fun acc => ih acc (fun q hq => h q (by simp [hq]))
      by_cases hs : skip p = true
      · rw [if_pos hs, ok_bind, ih', List.filter_cons_of_neg (by simp [hs])]
      · rw [if_neg hs, hv, ok_bind, pure_eq_ok, ok_bind, ih', hd]
        by_cases hlt : dist p < rSq
        · rw [if_pos hlt, List.filter_cons_of_pos (by simp [hs, hlt])]; simp
        · rw [if_neg hlt, List.filter_cons_of_neg (by simp [hlt])]
  simpa using key L [] h

/-- `q` is closer than `r`, in terms of the squared distance. -/
def Closer (dist r : G) : Prop := 0 < r ∧ dist < r * r

theorem search_filter {g : Geometry G} {ps : Particles G} {c : Coord G} {dist : Nat → G} [IsStrictOrderedRing G]
    (hs : Searches g ps c dist) (hnn : ∀ p < ps.pos.length, 0 ≤ dist p) (skip : Nat → Bool) (r : G) :
    ∃ L, g.selectEnclosed ps (bounds c r) = .ok L ∧ ∃ N, keepNear g ps c (r * r) skip L = .ok N ∧
      N.Pairwise (· < ·) ∧
      ∀ p, p ∈ N ↔ p < ps.pos.length ∧ skip p = false ∧ Closer (dist p) r := by
  obtain ⟨L, h1, h2, h3, h4, h5⟩ := hs.cand r
  refine ⟨L, h1, _, keepNear_ok (fun p hp => hs.diff p (h3 p hp)), h2.filter _, ?_⟩
  intro p
  rw [List.mem_filter]
  simp only [Bool.and_eq_true, Bool.not_eq_true', decide_eq_true_eq]
  constructor
  · rintro ⟨hp, hk, hd⟩
    refine ⟨h3 p hp, hk, ?_, hd⟩
    rcases lt_trichotomy r 0 with hr | hr | hr
    · rw [h5 hr] at hp; cases hp
    · subst hr
      have := hnn p (h3 p hp)
      simp at hd; exact absurd hd (not_lt.2 this)
    · exact hr
  · rintro ⟨hp, hk, hr, hd⟩
    exact ⟨h4 p hp hr hd, hk, hd⟩

theorem neighbours_ok [IsStrictOrderedRing G] {g : Geometry G} {ps : Particles G} {c : Coord G} {dist : Nat → G}
    (hs : Searches g ps c dist) (hnn : ∀ p < ps.pos.length, 0 ≤ dist p) (r : G) :
    ∃ N, getEuclidianNeighbours g ps c r = .ok N ∧ N.Pairwise (· < ·) ∧
      ∀ p, p ∈ N ↔ p < ps.pos.length ∧ Closer (dist p) r := by
  obtain ⟨L, h1, N, h2, h3, h4⟩ := search_filter hs hnn (fun _ => false) r
  refine ⟨N, by unfold getEuclidianNeighbours; rw [h1, ok_bind, h2], h3, ?_⟩
  intro p; rw [h4]; simp

theorem neighboursOf_ok [IsStrictOrderedRing G] {g : Geometry G} {ps : Particles G} {i : Nat} {c : Coord G}
    {dist : Nat → G} (hi : ps.pos[i]? = some c)
    (hs : Searches g ps c dist) (hnn : ∀ p < ps.pos.length, 0 ≤ dist p) (r : G) :
    ∃ N, getEuclidianNeighboursOf g ps i r = .ok N ∧ N.Pairwise (· < ·) ∧
      ∀ p, p ∈ N ↔ p < ps.pos.length ∧ p ≠ i ∧ Closer (dist p) r := by
  obtain ⟨L, h1, N, h2, h3, h4⟩ := search_filter hs hnn (fun p => decide (p = i)) r
  refine ⟨N, by unfold getEuclidianNeighboursOf; rw [getR_ok.2 hi, ok_bind, h1, ok_bind, h2], h3, ?_⟩
  intro p; rw [h4]; simp

theorem bySqDist_ok [IsStrictOrderedRing G] {g : Geometry G} {ps : Particles G} {c : Coord G} {dist : Nat → G}
    (hs : Searches g ps c dist) (hnn : ∀ p < ps.pos.length, 0 ≤ dist p) (r : G) :
    ∃ N, getEuclidianNeighbours g ps c r = .ok N ∧
      ∃ M, getEuclidianNeighboursBySqDist g ps c r = .ok M ∧ M.Pairwise (fun a b => a.1 ≤ b.1) ∧
      M.Perm (N.map fun p => (dist p, p)) := by
  obtain ⟨L, h1, h2, h3, h4, h5⟩ := hs.cand r
  have hN : getEuclidianNeighbours g ps c r =
      .ok (L.filter fun p => decide (dist p < r * r)) := by
    unfold getEuclidianNeighbours
    rw [h1, ok_bind, keepNear_ok (fun p hp => hs.diff p (h3 p hp))]
    simp
  refine ⟨_, hN, ?_⟩
  have key : ∀ (L : List Nat) (acc : List (G × Nat)),
      (∀ p ∈ L, ∃ v, g.getDiff ps c p = .ok v ∧ dot3 v v = dist p) →
      acc.Pairwise (fun a b => a.1 ≤ b.1) →
      ∃ M, L.foldlM (fun acc p => do
          let diff ← g.getDiff ps c p
          (return if dot3 diff diff < r * r then mmInsert (dot3 diff diff) p acc else acc : R _)) acc = .ok M ∧
        M.Pairwise (fun a b => a.1 ≤ b.1) ∧
        M.Perm (acc ++ (L.filter fun p => decide (dist p < r * r)).map fun p => (dist p, p)) := by
    intro L
    induction L with
    | nil => intro acc _ ha; exact ⟨acc, rfl, ha, by simp⟩
    | cons p L ih =>
      intro acc h ha
      obtain ⟨v, hv, hd⟩ := h p (by simp)
      have ih' := fun acc ha => ih acc (fun q hq => h q (by simp [hq])) ha
      by_cases hlt : dist p < r * r
      · obtain ⟨M, k1, k2, k3⟩ := ih' (mmInsert (dist p) p acc) (mmInsert_sorted _ _ _ ha)
        refine ⟨M, ?_, k2, ?_⟩
        · rw [List.foldlM_cons, hv, ok_bind, pure_eq_ok, ok_bind, hd, if_pos hlt, k1]
        · rw [List.filter_cons_of_pos (by simpa using hlt)]
          refine k3.trans ?_
          refine ((mmInsert_perm _ _ _).append_right _).trans ?_
          rw [List.map_cons, List.cons_append]
          exact List.perm_middle.symm
      · obtain ⟨M, k1, k2, k3⟩ := ih' acc ha
        refine ⟨M, ?_, k2, ?_⟩
        · rw [List.foldlM_cons, hv, ok_bind, pure_eq_ok, ok_bind, hd, if_neg hlt, k1]
        · rw [List.filter_cons_of_neg (by simpa using hlt)]; exact k3
  obtain ⟨M, k1, k2, k3⟩ := key L [] (fun p hp => hs.diff p (h3 p hp)) List.Pairwise.nil
  refine ⟨M, ?_, k2, by simpa using k3⟩
  unfold getEuclidianNeighboursBySqDist
  rw [h1, ok_bind, k1]

section order
variable [IsStrictOrderedRing G]

theorem dot3_self_nonneg (v : Coord G) : 0 ≤ dot3 v v := by
  unfold dot3
  have := mul_self_nonneg (v 0); have := mul_self_nonneg (v 1); have := mul_self_nonneg (v 2)
  linarith

theorem sq_le_dot3 (v : Coord G) (a : Fin 3) : v a * v a ≤ dot3 v v := by
  unfold dot3
  have h0 := mul_self_nonneg (v 0); have h1 := mul_self_nonneg (v 1); have h2 := mul_self_nonneg (v 2)
  match a with
  | 0 => linarith
  | 1 => linarith
  | 2 => linarith

theorem abs_lt_of_dot3 {v : Coord G} {r : G} (hr : 0 < r) (h : dot3 v v < r * r) (a : Fin 3) :
    -r < v a ∧ v a < r := by
  have := sq_le_dot3 v a
  constructor <;> by_contra h' <;> nlinarith

theorem select_point_sound {P : RParams G} {H : Heur 3 G} (hP : P.Valid) (hH : H.Valid P)
    {ps : Particles G} {t : RStarIndex G} (ht : RTree.Reachable P H true t)
    (hc : t.content.Perm (pointLeaves ps.pos)) (q : Box 3 G) :
    ∀ j ∈ RStarIndex.select t q, ∃ x, ps.pos[j]? = some x ∧ ∀ a, q.lo a ≤ x a ∧ x a ≤ q.hi a := by
  intro j hj
  obtain ⟨l, hl, rfl, hq⟩ := (C13_index_sound hP hH ht q).2 j hj
  obtain ⟨x, hx, hb⟩ := mem_pointLeaves.1 (hc.mem_iff.1 hl)
  refine ⟨x, hx, fun a => ?_⟩
  rw [hb] at hq
  have := hq a
  simpa [bounds] using this

theorem select_point_complete {P : RParams G} {H : Heur 3 G} (hP : P.Valid) (hH : H.Valid P)
    {ps : Particles G} {t : RStarIndex G} (ht : RTree.Reachable P H true t)
    (hc : t.content.Perm (pointLeaves ps.pos)) (q : Box 3 G) {j : Nat} {x : Coord G}
    (hx : ps.pos[j]? = some x) (hin : ∀ a, q.lo a < x a ∧ x a < q.hi a) :
    j ∈ RStarIndex.select t q := by
  refine C13_index_complete_partial hP hH ht q ⟨bounds x 0, j⟩ (hc.mem_iff.2 (mem_pointLeaves.2 ⟨x, hx, rfl⟩))
    ?_ (.inr ?_) ?_
  · intro a; simpa [bounds] using ⟨(hin a).1.le, (hin a).2.le⟩
  · intro a; simpa [bounds] using hin a
  · intro a; simp [bounds]

/-- Squared distance from `c` to particle `p`. -/
def distSq (ps : Particles G) (c : Coord G) (p : Nat) : G :=
  match ps.pos[p]? with
  | some x => dot3 (x - c) (x - c)
  | none => 0

omit [LinearOrder G] [IsStrictOrderedRing G] in
theorem distSq_eq {ps : Particles G} {c : Coord G} {p : Nat} {x : Coord G} (h : ps.pos[p]? = some x) :
    distSq ps c p = dot3 (x - c) (x - c) := by unfold distSq; rw [h]

theorem distSq_nonneg (ps : Particles G) (c : Coord G) (p : Nat) : 0 ≤ distSq ps c p := by
  unfold distSq
  split
  · exact dot3_self_nonneg _
  · exact le_refl _

theorem searches_plain {P : RParams G} {H : Heur 3 G} (hP : P.Valid) (hH : H.Valid P)
    {ps : Particles G} (hc : Coherent P H ps) (c : Coord G) : Searches geometry ps c (distSq ps c) := by
  obtain ⟨t, h1, h2, h3⟩ := hc
  refine ⟨?_, ?_⟩
  · intro p hp
    refine ⟨ps.pos[p] - c, ?_, ?_⟩
    · simp [geometry, getDiff, at_ok hp]
    · rw [distSq_eq (x := ps.pos[p]) (by simp [hp])]
  · intro r
    refine ⟨RStarIndex.select t (bounds c r), ?_, sortUnique_sorted _, ?_, ?_, ?_⟩
    · simp [geometry, selectEnclosed, h1]
    · intro p hp
      obtain ⟨x, hx, -⟩ := select_point_sound hP hH h2 h3 _ p hp
      exact (List.getElem?_eq_some_iff.1 hx).1
    · intro p hp hr hd
      have hx : ps.pos[p]? = some ps.pos[p] := by simp [hp]
      rw [distSq_eq hx] at hd
      refine select_point_complete hP hH h2 h3 _ hx (fun a => ?_)
      have := abs_lt_of_dot3 hr hd a
      simp only [bounds, Pi.sub_apply] at this ⊢
      constructor <;> linarith [this.1, this.2]
    · intro hr
      rw [List.eq_nil_iff_forall_not_mem]
      intro p hp
      obtain ⟨x, -, hx⟩ := select_point_sound hP hH h2 h3 _ p hp
      have := hx 0
      simp only [bounds] at this
      linarith [this.1, this.2]

end order

/-! ## Keeping the index coherent -/

section coherence
variable [IsStrictOrderedRing G]

theorem makeRTreeIndex_ok {P : RParams G} {H : Heur 3 G} (hP : P.Valid) (hH : H.Valid P)
    (ps : Particles G) : ∃ ps', makeRTreeIndex P H ps = .ok ps' ∧ Coherent P H ps' ∧ ps'.pos = ps.pos ∧
      ps'.bb = ps.bb ∧ ps'.radius = ps.radius := by
  obtain ⟨t, h1, h2, -⟩ := C12_insertions hP hH (pointLeaves ps.pos)
  have hr : RTree.Reachable P H true t := RTree.Reachable.insertAll _ .empty h1
  refine ⟨{ ps with index := some t }, ?_, ⟨t, rfl, hr, h2⟩, rfl, rfl, rfl⟩
  unfold makeRTreeIndex RStarIndex.ofBoxes
  have : ((ps.pos.map fun x => bounds x 0).zipIdx.map fun b => (⟨b.1, b.2⟩ : Leaf 3 G Nat)) =
      pointLeaves ps.pos := by
    unfold pointLeaves
    rw [List.zipIdx_map, List.map_map]; rfl
  rw [this, h1]; rfl

theorem pushBack_ok {P : RParams G} {H : Heur 3 G} (hP : P.Valid) (hH : H.Valid P)
    {ps : Particles G} (hc : Coherent P H ps) (x : Coord G) :
    ∃ ps', pushBack P H ps x = .ok ps' ∧ Coherent P H ps' ∧ ps'.pos = ps.pos ++ [x] ∧
      ps'.bb = ps.bb ∧ ps'.radius = ps.radius := by
  obtain ⟨t, h1, h2, h3⟩ := hc
  obtain ⟨t', k1, k2, -⟩ := C12_step hP hH h2 ps.pos.length (bounds x 0)
  refine ⟨{ ps with pos := ps.pos ++ [x], index := some t' }, ?_, ⟨t', rfl, .insert _ _ h2 k1, ?_⟩,
    rfl, rfl, rfl⟩
  · unfold pushBack; rw [h1]; dsimp only; rw [k1]; rfl
  · refine k2.trans ((h3.cons _).trans ?_)
    unfold pointLeaves
    rw [List.zipIdx_append, List.map_append]
    refine (List.perm_append_singleton _ _).symm.trans ?_
    simp

theorem translate_coherent {P : RParams G} {H : Heur 3 G} (hP : P.Valid) (hH : H.Valid P)
    {ps : Particles G} (hc : Coherent P H ps) (v : Coord G) : Coherent P H (ps.translate v) := by
  obtain ⟨t, h1, h2, h3⟩ := hc
  refine ⟨t.translate v, by simp [translate, h1], .translate v rfl h2, ?_⟩
  rw [(C16_content hP hH h2 v).1]
  refine (h3.map _).trans (List.Perm.of_eq ?_)
  unfold pointLeaves translate
  dsimp only
  rw [List.zipIdx_map, List.map_map, List.map_map]
  refine List.map_congr_left fun x _ => ?_
  simp only [Function.comp_apply, Leaf.translate, Box.translate, bounds, Prod.map]
  congr 2 <;> funext a <;> simp

end coherence

end Particles
end Colloids
