import Verif.Particles.OpLemmas
import Mathlib.Tactic.NormNum
import Mathlib.Tactic.LinearCombination
import Mathlib.Algebra.Order.Ring.Rat
import Mathlib.Algebra.Field.Rat
import Mathlib.Algebra.Order.Archimedean.Basic

/-! # Properties of particle sets: C19 to C25 and C51 -/

namespace Colloids
open Particles
variable {G : Type} [Field G] [LinearOrder G]

/-- Squared Euclidean distance. -/
def sqDist (x y : Coord G) : G := (x 0 - y 0) ^ 2 + (x 1 - y 1) ^ 2 + (x 2 - y 2) ^ 2

/-- The Euclidean distance between `x` and `y` is less than `r`. -/
def NearerThan (x y : Coord G) (r : G) : Prop := 0 < r ∧ sqDist x y < r ^ 2

/-- Particle sets with an index made by the library: by `makeRTreeIndex` or `cut`, then kept up to date
by `push_back` and `+=`. The box and the radius are public members that can be set at any time. -/
inductive Indexed (P : RParams G) (H : Heur 3 G) : Particles G → Prop
  | make {ps ps' : Particles G} : makeRTreeIndex P H ps = .ok ps' → Indexed P H ps'
  | cut {ps ps' : Particles G} {sep : G} : Particles.cut P H ps sep = .ok ps' → Indexed P H ps'
  | push {ps ps' : Particles G} (x : Coord G) : Indexed P H ps → pushBack P H ps x = .ok ps' → Indexed P H ps'
  | translate {ps : Particles G} (v : Coord G) : Indexed P H ps → Indexed P H (ps.translate v)
  | members {ps : Particles G} (b : Box 3 G) (r : G) : Indexed P H ps →
      Indexed P H { ps with bb := b, radius := r }

omit [LinearOrder G] in
theorem dot3_eq_sqDist (x y : Coord G) : dot3 (x - y) (x - y) = sqDist x y := by
  simp only [dot3, sqDist, Pi.sub_apply]; ring

theorem closer_iff {x y : Coord G} {r : G} : Closer (dot3 (x - y) (x - y)) r ↔ NearerThan x y r := by
  unfold Closer NearerThan
  rw [dot3_eq_sqDist, pow_two r]

omit [LinearOrder G] in
theorem sqDist_comm (x y : Coord G) : sqDist x y = sqDist y x := by
  simp only [sqDist]; ring

theorem NearerThan.symm {x y : Coord G} {r : G} (h : NearerThan x y r) : NearerThan y x r := by
  unfold NearerThan at *; rwa [sqDist_comm]

variable [IsStrictOrderedRing G]

theorem Indexed.coherent {P : RParams G} {H : Heur 3 G} (hP : P.Valid) (hH : H.Valid P) {ps : Particles G}
    (h : Indexed P H ps) : Coherent P H ps := by
  induction h with
  | make h =>
    rename_i ps ps'
    obtain ⟨ps1, h1, h2, -⟩ := makeRTreeIndex_ok hP hH ps
    rw [h] at h1; injection h1 with h1; rwa [h1]
  | cut h =>
    rename_i ps ps' sep
    obtain ⟨ps1, K, h1, h2⟩ := cut_ok hP hH ps sep
    rw [h] at h1; injection h1 with h1; rw [h1]; exact h2.coh
  | push x _ h ih =>
    obtain ⟨ps1, h1, h2, -⟩ := pushBack_ok hP hH ih x
    rw [h] at h1; injection h1 with h1; rwa [h1]
  | translate v _ ih => exact translate_coherent hP hH ih v
  | members b r _ ih => exact ih

/-! ## C19 -/

/-- C19. A search around a position returns, in increasing order and once each, exactly the particles
nearer than the range. -/
theorem C19_position {P : RParams G} {H : Heur 3 G} (hP : P.Valid) (hH : H.Valid P) {ps : Particles G}
    (hps : Indexed P H ps) (c : Coord G) (range : G) :
    ∃ N, getEuclidianNeighbours geometry ps c range = .ok N ∧ N.Pairwise (· < ·) ∧
      ∀ j, j ∈ N ↔ ∃ x, ps.pos[j]? = some x ∧ NearerThan x c range := by
  obtain ⟨N, h1, h2, h3⟩ := neighbours_ok (searches_plain hP hH (hps.coherent hP hH) c)
    (fun p _ => distSq_nonneg _ _ p) range
  refine ⟨N, h1, h2, ?_⟩
  intro j
  rw [h3]
  constructor
  · rintro ⟨hj, hc⟩
    have hx : ps.pos[j]? = some ps.pos[j] := by simp [hj]
    rw [distSq_eq hx, closer_iff] at hc
    exact ⟨_, hx, hc⟩
  · rintro ⟨x, hx, hc⟩
    refine ⟨(List.getElem?_eq_some_iff.1 hx).1, ?_⟩
    rwa [distSq_eq hx, closer_iff]

/-- C19. A search around a particle returns exactly the other particles nearer than the range. -/
theorem C19_particle {P : RParams G} {H : Heur 3 G} (hP : P.Valid) (hH : H.Valid P) {ps : Particles G}
    (hps : Indexed P H ps) (i : Nat) (c : Coord G) (hi : ps.pos[i]? = some c) (range : G) :
    ∃ N, getEuclidianNeighboursOf geometry ps i range = .ok N ∧ N.Pairwise (· < ·) ∧
      ∀ j, j ∈ N ↔ j ≠ i ∧ ∃ x, ps.pos[j]? = some x ∧ NearerThan x c range := by
  obtain ⟨N, h1, h2, h3⟩ := neighboursOf_ok hi (searches_plain hP hH (hps.coherent hP hH) c)
    (fun p _ => distSq_nonneg _ _ p) range
  refine ⟨N, h1, h2, ?_⟩
  intro j
  rw [h3]
  constructor
  · rintro ⟨hj, hne, hc⟩
    have hx : ps.pos[j]? = some ps.pos[j] := by simp [hj]
    rw [distSq_eq hx, closer_iff] at hc
    exact ⟨hne, _, hx, hc⟩
  · rintro ⟨hne, x, hx, hc⟩
    refine ⟨(List.getElem?_eq_some_iff.1 hx).1, hne, ?_⟩
    rwa [distSq_eq hx, closer_iff]

/-- C19. The search sorted by distance returns the same particles, each with its exact squared
distance, in increasing order of the distance. -/
theorem C19_by_distance {P : RParams G} {H : Heur 3 G} (hP : P.Valid) (hH : H.Valid P) {ps : Particles G}
    (hps : Indexed P H ps) (c : Coord G) (range : G) :
    ∃ M, getEuclidianNeighboursBySqDist geometry ps c range = .ok M ∧ M.Pairwise (fun a b => a.1 ≤ b.1) ∧
      (M.map Prod.snd).Nodup ∧
      ∀ d j, (d, j) ∈ M ↔ ∃ x, ps.pos[j]? = some x ∧ d = sqDist x c ∧ NearerThan x c range := by
  obtain ⟨N, h1, M, h2, h3, h4⟩ := bySqDist_ok (searches_plain hP hH (hps.coherent hP hH) c)
    (fun p _ => distSq_nonneg _ _ p) range
  obtain ⟨N', k1, k2, k3⟩ := C19_position hP hH hps c range
  rw [h1] at k1; injection k1 with k1; subst k1
  refine ⟨M, h2, h3, ?_, ?_⟩
  · have := (h4.map Prod.snd).nodup_iff
    rw [this, List.map_map]
    have hid : (Prod.snd ∘ fun p => (distSq ps c p, p)) = (id : Nat → Nat) := rfl
    rw [hid, List.map_id]
    exact k2.imp (fun h => Nat.ne_of_lt h)
  · intro d j
    rw [h4.mem_iff, List.mem_map]
    constructor
    · rintro ⟨p, hp, he⟩
      injection he with e1 e2
      subst e2
      obtain ⟨x, hx, hn⟩ := (k3 p).1 hp
      exact ⟨x, hx, by rw [← e1, distSq_eq hx, dot3_eq_sqDist], hn⟩
    · rintro ⟨x, hx, rfl, hn⟩
      exact ⟨j, (k3 j).2 ⟨x, hx, hn⟩, by rw [distSq_eq hx, dot3_eq_sqDist]⟩

/-- A set that satisfies the hypotheses of C19: any positions can be indexed. -/
theorem indexed_exists {P : RParams G} {H : Heur 3 G} (hP : P.Valid) (hH : H.Valid P)
    (pos : List (Coord G)) (b : Box 3 G) (r : G) :
    ∃ ps : Particles G, Indexed P H ps ∧ ps.pos = pos ∧ ps.bb = b ∧ ps.radius = r := by
  obtain ⟨ps, h1, -, h2, h3, h4⟩ := makeRTreeIndex_ok hP hH ⟨pos, b, r, none⟩
  exact ⟨ps, .make h1, h2, h3, h4⟩

example : ∃ (P : RParams ℚ) (H : Heur 3 ℚ) (ps : Particles ℚ), P.Valid ∧ H.Valid P ∧ Indexed P H ps ∧
    getEuclidianNeighbours geometry ps (fun _ => 0) 2 = .ok [0, 2] := by
  have hP := stdParams_valid (1000 : ℚ) (1 / 1000)
  obtain ⟨ps, h1, h2, -⟩ := indexed_exists hP (exHeur_valid (d := 3) hP)
    [fun _ => 0, fun _ => 5, fun _ => 1] ⟨fun _ => 0, fun _ => 0⟩ 1
  refine ⟨_, _, ps, hP, exHeur_valid hP, h1, ?_⟩
  obtain ⟨N, k1, k2, k3⟩ := C19_position hP (exHeur_valid hP) h1 (fun _ => 0) 2
  rw [k1]
  congr 1
  refine sortedLT_ext k2 (by simp) (fun x => ?_)
  rw [k3, h2]
  match x with
  | 0 => simp [NearerThan, sqDist]
  | 1 => simp [NearerThan, sqDist]; norm_num
  | 2 => simp [NearerThan, sqDist]; norm_num
  | n + 3 => simp

/-! ## C20 -/

/-- C20. The neighbour list has one row per particle; each row is in increasing order and holds exactly
the other particles nearer than `2*bondLength*radius`. -/
theorem C20_exact {P : RParams G} {H : Heur 3 G} (hP : P.Valid) (hH : H.Valid P) {ps : Particles G}
    (hps : Indexed P H ps) (bondLength : G) :
    ∃ ngb, makeNgbList geometry ps bondLength = .ok ngb ∧ ngb.length = ps.pos.length ∧
      (∀ row ∈ ngb, row.Pairwise (· < ·)) ∧
      ∀ (p : Nat) x row, ps.pos[p]? = some x → ngb[p]? = some row → ∀ q, q ∈ row ↔
        q ≠ p ∧ ∃ y, ps.pos[q]? = some y ∧ NearerThan x y (2 * bondLength * ps.radius) := by
  obtain ⟨ngb, h1, h2, h3, h4⟩ := makeNgbList_ok (searches_plain hP hH (hps.coherent hP hH))
    (fun c p => distSq_nonneg _ _ p) bondLength
  refine ⟨ngb, h1, h2, h3, ?_⟩
  intro p x row hx hrow q
  obtain ⟨x', hx', h⟩ := h4 p row hrow
  rw [hx] at hx'; injection hx' with hx'; subst hx'
  rw [h]
  constructor
  · rintro ⟨hj, hne, hc⟩
    have hy : ps.pos[q]? = some ps.pos[q] := by simp [hj]
    rw [distSq_eq hy, closer_iff] at hc
    exact ⟨hne, _, hy, hc.symm⟩
  · rintro ⟨hne, y, hy, hc⟩
    refine ⟨(List.getElem?_eq_some_iff.1 hy).1, hne, ?_⟩
    rw [distSq_eq hy, closer_iff]
    exact hc.symm

/-- C20. The neighbour list is symmetric and no particle is its own neighbour. -/
theorem C20_symmetric {P : RParams G} {H : Heur 3 G} (hP : P.Valid) (hH : H.Valid P) {ps : Particles G}
    (hps : Indexed P H ps) (bondLength : G) :
    ∃ ngb, makeNgbList geometry ps bondLength = .ok ngb ∧
      ∀ (p : Nat) row, ngb[p]? = some row → p ∉ row ∧
        ∀ q ∈ row, ∃ row', ngb[q]? = some row' ∧ p ∈ row' := by
  obtain ⟨ngb, h1, h2, h3, h4⟩ := C20_exact hP hH hps bondLength
  refine ⟨ngb, h1, ?_⟩
  intro p row hrow
  have hp : p < ps.pos.length := by rw [← h2]; exact (List.getElem?_eq_some_iff.1 hrow).1
  have hx : ps.pos[p]? = some ps.pos[p] := by simp [hp]
  have hr := h4 p _ row hx hrow
  refine ⟨fun h => ((hr p).1 h).1 rfl, ?_⟩
  intro q hq
  obtain ⟨hne, y, hy, hn⟩ := (hr q).1 hq
  have hql : q < ngb.length := by rw [h2]; exact (List.getElem?_eq_some_iff.1 hy).1
  have hrow' : ngb[q]? = some ngb[q] := by simp [hql]
  exact ⟨_, hrow', (h4 q y _ hy hrow' p).2 ⟨hne.symm, _, hx, hn.symm⟩⟩

example : ∃ (P : RParams ℚ) (H : Heur 3 ℚ) (ps : Particles ℚ), P.Valid ∧ H.Valid P ∧ Indexed P H ps ∧
    ps.pos.length = 3 := by
  have hP := stdParams_valid (1000 : ℚ) (1 / 1000)
  obtain ⟨ps, h1, h2, -⟩ := indexed_exists hP (exHeur_valid (d := 3) hP)
    [fun _ => 0, fun _ => 5, fun _ => 1] ⟨fun _ => 0, fun _ => 0⟩ 1
  exact ⟨_, _, ps, hP, exHeur_valid hP, h1, by rw [h2]; rfl⟩

/-! ## C21 -/

/-- C21. On a set with particles and for a positive initial range, the search terminates and returns a
particle no farther from the centre than any other; among equally near ones, the first. -/
theorem C21_nearest [Archimedean G] {P : RParams G} {H : Heur 3 G} (hP : P.Valid) (hH : H.Valid P)
    {ps : Particles G} (hps : Indexed P H ps) (hne : ps.pos ≠ []) (c : Coord G) (range : G) (hr : 0 < range) :
    ∃ n i x, (∀ fuel, n ≤ fuel → getNearestNeighbour fuel geometry ps c range = .ok i) ∧
      ps.pos[i]? = some x ∧
      ∀ j y, ps.pos[j]? = some y → sqDist x c ≤ sqDist y c ∧ (j < i → sqDist x c < sqDist y c) := by
  obtain ⟨n, i, h1, h2, h3⟩ := nearest_ok (searches_plain hP hH (hps.coherent hP hH) c)
    (fun p _ => distSq_nonneg _ _ p) hne range hr
  have hx : ps.pos[i]? = some ps.pos[i] := by simp [h2]
  refine ⟨n, i, _, h1, hx, ?_⟩
  intro j y hy
  have := h3 j (List.getElem?_eq_some_iff.1 hy).1
  rwa [distSq_eq hx, distSq_eq hy, dot3_eq_sqDist, dot3_eq_sqDist] at this

/-- C21. Without particles, or with a range that is not positive, the search never returns. -/
theorem C21_diverges {P : RParams G} {H : Heur 3 G} (hP : P.Valid) (hH : H.Valid P)
    {ps : Particles G} (hps : Indexed P H ps) (c : Coord G) (range : G)
    (h : ps.pos = [] ∨ range ≤ 0) (fuel : Nat) :
    getNearestNeighbour fuel geometry ps c range = .error .diverge := by
  unfold getNearestNeighbour
  rw [nearestRange_diverge (searches_plain hP hH (hps.coherent hP hH) c)
    (fun p _ => distSq_nonneg _ _ p) fuel range h]
  rfl

example : ∃ (P : RParams ℚ) (H : Heur 3 ℚ) (ps : Particles ℚ), P.Valid ∧ H.Valid P ∧ Indexed P H ps ∧
    ps.pos ≠ [] ∧ (0 : ℚ) < 1 := by
  have hP := stdParams_valid (1000 : ℚ) (1 / 1000)
  obtain ⟨ps, h1, h2, -⟩ := indexed_exists hP (exHeur_valid (d := 3) hP)
    [fun _ => 0, fun _ => 5, fun _ => 1] ⟨fun _ => 0, fun _ => 0⟩ 1
  exact ⟨_, _, ps, hP, exHeur_valid hP, h1, by rw [h2]; simp, by norm_num⟩

/-! ## C22 -/

/-- C22. `cut` keeps, in order, a subset `K` of the particles: no two kept particles are nearer than
the separation and every discarded one is nearer than the separation to a kept one met before. The
result is indexed. No index is needed on the original. -/
theorem C22_cut {P : RParams G} {H : Heur 3 G} (hP : P.Valid) (hH : H.Valid P) (ps : Particles G) (sep : G) :
    ∃ (out : Particles G) (K : List Nat), Particles.cut P H ps sep = .ok out ∧ Indexed P H out ∧
      out.bb = ps.bb ∧ K.Pairwise (· < ·) ∧ out.pos.map some = (K.map fun i => ps.pos[i]?) ∧
      (∀ i ∈ K, ∀ j ∈ K, i ≠ j → ∀ x y, ps.pos[i]? = some x → ps.pos[j]? = some y → ¬ NearerThan x y sep) ∧
      ∀ i x, ps.pos[i]? = some x → i ∉ K → ∃ j ∈ K, j < i ∧ ∃ y, ps.pos[j]? = some y ∧ NearerThan x y sep := by
  obtain ⟨out, K, h1, h2⟩ := cut_ok hP hH ps sep
  refine ⟨out, K, h1, .cut h1, h2.bb, h2.sorted, h2.pos, ?_, ?_⟩
  · intro i hi j hj hij x y hx hy hn
    exact h2.apart i hi j hj hij x y hx hy (closer_iff.2 hn)
  · intro i x hx hi
    obtain ⟨j, hj, hji, x', y, hx', hy, hc⟩ := h2.near i (List.getElem?_eq_some_iff.1 hx).1 hi
    rw [hx] at hx'; injection hx' with hx'; subst hx'
    exact ⟨j, hj, hji, y, hy, closer_iff.1 hc⟩

example : ∃ (P : RParams ℚ) (H : Heur 3 ℚ), P.Valid ∧ H.Valid P :=
  ⟨_, _, stdParams_valid (1000 : ℚ) (1 / 1000), exHeur_valid (stdParams_valid (1000 : ℚ) (1 / 1000))⟩

/-! ## C23 -/

/-- C23. `removeShortRange` keeps, in order, exactly the particles that have no other particle nearer
than the separation. -/
theorem C23_remove {P : RParams G} {H : Heur 3 G} (hP : P.Valid) (hH : H.Valid P) {ps : Particles G}
    (hps : Indexed P H ps) (sep : G) :
    ∃ (out : Particles G) (K : List Nat), removeShortRange P H geometry ps sep = .ok out ∧
      out.bb = ps.bb ∧ K.Pairwise (· < ·) ∧ out.pos.map some = (K.map fun i => ps.pos[i]?) ∧
      ∀ i, i ∈ K ↔ ∃ x, ps.pos[i]? = some x ∧
        ∀ j y, ps.pos[j]? = some y → j ≠ i → ¬ NearerThan x y sep := by
  have hc := hps.coherent hP hH
  obtain ⟨out, K, h1, h2, h3, h4, h5, h6⟩ := removeShortRange_ok (P := P) (H := H)
    (by obtain ⟨t, ht, -⟩ := hc; simp [ht]) (searches_plain hP hH hc) (fun c p => distSq_nonneg _ _ p) sep
  refine ⟨out, K, h1, h2, h4, h5, ?_⟩
  intro i
  rw [h6]
  constructor
  · rintro ⟨x, hx, h⟩
    refine ⟨x, hx, fun j y hy hji hn => ?_⟩
    refine h j (List.getElem?_eq_some_iff.1 hy).1 hji ?_
    rw [distSq_eq hy, closer_iff]
    exact hn.symm
  · rintro ⟨x, hx, h⟩
    refine ⟨x, hx, fun j hj hji hn => ?_⟩
    have hy : ps.pos[j]? = some ps.pos[j] := by simp [hj]
    rw [distSq_eq hy, closer_iff] at hn
    exact h j _ hy hji hn.symm

omit [IsStrictOrderedRing G] in
/-- C23. Without an index it throws. -/
theorem C23_no_index {P : RParams G} {H : Heur 3 G} (g : Geometry G) (ps : Particles G) (h : ps.index = none)
    (sep : G) : removeShortRange P H g ps sep = .error .logicError := by
  unfold removeShortRange; rw [h]

example : ∃ (P : RParams ℚ) (H : Heur 3 ℚ) (ps : Particles ℚ), P.Valid ∧ H.Valid P ∧ Indexed P H ps ∧
    ps.pos.length = 2 := by
  have hP := stdParams_valid (1000 : ℚ) (1 / 1000)
  obtain ⟨ps, h1, h2, -⟩ := indexed_exists hP (exHeur_valid (d := 3) hP)
    [fun _ => 0, fun _ => 5] ⟨fun _ => 0, fun _ => 0⟩ 1
  exact ⟨_, _, ps, hP, exHeur_valid hP, h1, by rw [h2]; rfl⟩

/-! ## C24 -/

omit [LinearOrder G] [IsStrictOrderedRing G] in
theorem sqDist_translate (x y v : Coord G) : sqDist (x + v) (y + v) = sqDist x y := by
  simp [sqDist]

/-- C24. A translation moves the positions and the box, and searches around the moved centre (or
around the same particle) give the same particles as before. -/
theorem C24_translate {P : RParams G} {H : Heur 3 G} (hP : P.Valid) (hH : H.Valid P) {ps : Particles G}
    (hps : Indexed P H ps) (v : Coord G) :
    (ps.translate v).pos = ps.pos.map (fun x => x + v) ∧
    (∀ a, (ps.translate v).bb.lo a = ps.bb.lo a + v a ∧ (ps.translate v).bb.hi a = ps.bb.hi a + v a) ∧
    (ps.translate v).radius = ps.radius ∧
    (∀ c range, getEuclidianNeighbours geometry (ps.translate v) (c + v) range =
      getEuclidianNeighbours geometry ps c range) ∧
    (∀ i < ps.pos.length, ∀ range, getEuclidianNeighboursOf geometry (ps.translate v) i range =
      getEuclidianNeighboursOf geometry ps i range) ∧
    ∀ b, makeNgbList geometry (ps.translate v) b = makeNgbList geometry ps b := by
  have hpos : ∀ j : Nat, (ps.translate v).pos[j]? = (ps.pos[j]?).map (fun x => x + v) := by
    intro j; simp [Particles.translate]
  have hnear : ∀ (j : Nat) (c : Coord G) range, (∃ x, (ps.translate v).pos[j]? = some x ∧ NearerThan x (c + v) range) ↔
      ∃ x, ps.pos[j]? = some x ∧ NearerThan x c range := by
    intro j c range
    rw [hpos]
    constructor
    · rintro ⟨x, hx, hn⟩
      obtain ⟨y, hy, rfl⟩ := Option.map_eq_some_iff.1 hx
      refine ⟨y, hy, ?_⟩
      unfold NearerThan at *
      rwa [sqDist_translate] at hn
    · rintro ⟨x, hx, hn⟩
      refine ⟨x + v, by rw [hx]; rfl, ?_⟩
      unfold NearerThan at *
      rwa [sqDist_translate]
  have hof : ∀ i < ps.pos.length, ∀ range, getEuclidianNeighboursOf geometry (ps.translate v) i range =
      getEuclidianNeighboursOf geometry ps i range := by
    intro i hi range
    have hx : ps.pos[i]? = some ps.pos[i] := by simp [hi]
    obtain ⟨N, h1, h2, h3⟩ := C19_particle hP hH hps i _ hx range
    obtain ⟨N', k1, k2, k3⟩ := C19_particle hP hH (hps.translate v) i (ps.pos[i] + v) (by rw [hpos, hx]; rfl) range
    rw [h1, k1]
    congr 1
    refine sortedLT_ext k2 h2 (fun j => ?_)
    rw [h3, k3, hnear]
  refine ⟨rfl, fun a => ⟨rfl, rfl⟩, rfl, ?_, hof, ?_⟩
  · intro c range
    obtain ⟨N, h1, h2, h3⟩ := C19_position hP hH hps c range
    obtain ⟨N', k1, k2, k3⟩ := C19_position hP hH (hps.translate v) (c + v) range
    rw [h1, k1]
    congr 1
    refine sortedLT_ext k2 h2 (fun j => ?_)
    rw [h3, k3, hnear]
  · intro b
    obtain ⟨ngb, h1, -, -, -⟩ := C20_exact hP hH hps b
    obtain ⟨N, hN⟩ : ∃ N : Nat → List Nat, ∀ i < ps.pos.length,
        getEuclidianNeighboursOf geometry ps i (2 * b * ps.radius) = .ok (N i) := by
      have : ∀ i, ∃ N, i < ps.pos.length → getEuclidianNeighboursOf geometry ps i (2 * b * ps.radius) = .ok N := by
        intro i
        by_cases hi : i < ps.pos.length
        · obtain ⟨N, h1, -⟩ := C19_particle hP hH hps i ps.pos[i] (by simp [hi]) (2 * b * ps.radius)
          exact ⟨N, fun _ => h1⟩
        · exact ⟨[], fun h => absurd h hi⟩
      choose N hN using this
      exact ⟨N, hN⟩
    have hlen : (ps.translate v).pos.length = ps.pos.length := by simp [Particles.translate]
    unfold makeNgbList
    rw [hlen, TreeIndex.mapM_ok_of _ N _ (fun p hp => hN p (List.mem_range.1 hp)),
      TreeIndex.mapM_ok_of _ N _ (fun p hp => ?_)]
    have := hof p (List.mem_range.1 hp) (2 * b * ps.radius)
    rw [hN p (List.mem_range.1 hp)] at this
    exact this

example : ∃ (P : RParams ℚ) (H : Heur 3 ℚ) (ps : Particles ℚ), P.Valid ∧ H.Valid P ∧ Indexed P H ps ∧
    ps.pos.length = 2 := by
  have hP := stdParams_valid (1000 : ℚ) (1 / 1000)
  obtain ⟨ps, h1, h2, -⟩ := indexed_exists hP (exHeur_valid (d := 3) hP)
    [fun _ => 0, fun _ => 5] ⟨fun _ => 0, fun _ => 0⟩ 1
  exact ⟨_, _, ps, hP, exHeur_valid hP, h1, by rw [h2]; rfl⟩

/-! ## C25 -/

/-- C25 is false: whatever the set, a particle that moves by at least `range` along an axis when the
set is rescaled is no longer found by the search around its own new position. -/
theorem C25_stale_counterexample {P : RParams G} {H : Heur 3 G} (hP : P.Valid) (hH : H.Valid P) {ps : Particles G}
    (hps : Indexed P H ps) (mul : G) (i : Nat) (x : Coord G) (hx : ps.pos[i]? = some x) (a : Fin 3)
    (range : G) (hr : 0 < range) (hmove : range < |x a * mul - x a|) :
    (ps.scale mul).pos[i]? = some (fun a => x a * mul) ∧
    NearerThan (fun a => x a * mul) (fun a => x a * mul) range ∧
    ∃ N, getEuclidianNeighbours geometry (ps.scale mul) (fun a => x a * mul) range = .ok N ∧ i ∉ N := by
  refine ⟨by simp [Particles.scale, Particles.scaleBy, hx]; rfl, ⟨hr, by simp [sqDist, hr]⟩, ?_⟩
  obtain ⟨t, h1, h2, h3⟩ := hps.coherent hP hH
  have hidx : (ps.scale mul).index = some t := h1
  have hlen : (ps.scale mul).pos.length = ps.pos.length := by simp [Particles.scale, Particles.scaleBy]
  unfold getEuclidianNeighbours
  have hsel : (geometry (G := G)).selectEnclosed (ps.scale mul) (bounds (fun a => x a * mul) range) =
      .ok (RStarIndex.select t (bounds (fun a => x a * mul) range)) := by
    simp [geometry, Particles.selectEnclosed, hidx]
  rw [hsel, ok_bind]
  have hsound := select_point_sound hP hH h2 h3 (bounds (fun a => x a * mul) range)
  rw [keepNear_ok (dist := distSq (ps.scale mul) (fun a => x a * mul))]
  · refine ⟨_, rfl, ?_⟩
    intro hi
    obtain ⟨y, hy, hin⟩ := hsound i (List.mem_filter.1 hi).1
    rw [hx] at hy; injection hy with hy; subst hy
    have := hin a
    simp only [bounds] at this
    rcases lt_abs.1 hmove with h | h <;> linarith [this.1, this.2]
  · intro p hp
    obtain ⟨y, hy, -⟩ := hsound p hp
    have hp' : p < (ps.scale mul).pos.length := by rw [hlen]; exact (List.getElem?_eq_some_iff.1 hy).1
    refine ⟨(ps.scale mul).pos[p] - (fun a => x a * mul), ?_, ?_⟩
    · simp [geometry, Particles.getDiff, at_ok hp']
    · rw [distSq_eq (x := (ps.scale mul).pos[p]) (by simp [hp'])]

/-- C25, the part that holds: positions and radius are rescaled, and once the index is made again the
searches are exact and, for a positive factor, the neighbour list is the same as before. The box is only
rescaled if its lower corner is the origin (`C25_box`). -/
theorem C25_reindexed_partial {P : RParams G} {H : Heur 3 G} (hP : P.Valid) (hH : H.Valid P) {ps : Particles G}
    (hps : Indexed P H ps) (mul : G) :
    ∃ ps', makeRTreeIndex P H (ps.scale mul) = .ok ps' ∧ Indexed P H ps' ∧
      ps'.pos = ps.pos.map (fun x a => x a * mul) ∧ ps'.radius = ps.radius * mul ∧
      (0 < mul → ∀ b, makeNgbList geometry ps' b = makeNgbList geometry ps b) := by
  obtain ⟨ps', h1, -, h2, h3, h4⟩ := makeRTreeIndex_ok hP hH (ps.scale mul)
  have h2' : ps'.pos = ps.pos.map (fun x a => x a * mul) := h2
  have h4' : ps'.radius = ps.radius * mul := h4
  refine ⟨ps', h1, .make h1, h2', h4', ?_⟩
  intro hmul b
  obtain ⟨n1, a1, a2, a3, a4⟩ := C20_exact hP hH hps b
  obtain ⟨n2, b1, b2, b3, b4⟩ := C20_exact hP hH (.make h1 : Indexed P H ps') b
  rw [a1, b1]
  congr 1
  have hlen : n2.length = n1.length := by rw [a2, b2, h2']; simp
  refine List.ext_getElem hlen ?_
  intro p hp2 hp1
  refine sortedLT_ext (b3 _ (List.getElem_mem _)) (a3 _ (List.getElem_mem _)) (fun q => ?_)
  have hpl : p < ps.pos.length := by omega
  have hx : ps.pos[p]? = some ps.pos[p] := by simp [hpl]
  have hx' : ps'.pos[p]? = some (fun a => ps.pos[p] a * mul) := by rw [h2']; simp [hpl]
  rw [a4 p _ n1[p] hx (by simp [hp1]), b4 p _ n2[p] hx' (by simp [hp2])]
  refine and_congr_right fun _ => ?_
  have hscale : ∀ y : Coord G, NearerThan (fun a => ps.pos[p] a * mul) (fun a => y a * mul) (2 * b * ps'.radius) ↔
      NearerThan ps.pos[p] y (2 * b * ps.radius) := by
    intro y
    have e1 : sqDist (fun a => ps.pos[p] a * mul) (fun a => y a * mul) = sqDist ps.pos[p] y * mul ^ 2 := by
      simp only [sqDist]; ring
    have e2 : 2 * b * ps'.radius = 2 * b * ps.radius * mul := by rw [h4']; ring
    unfold NearerThan
    rw [e1, e2, mul_pow, mul_lt_mul_iff_left₀ (by positivity)]
    refine and_congr_left fun _ => ?_
    constructor
    · intro h; by_contra hc; nlinarith
    · intro h; positivity
  constructor
  · rintro ⟨y, hy, hn⟩
    rw [h2', List.getElem?_map] at hy
    obtain ⟨z, hz, rfl⟩ := Option.map_eq_some_iff.1 hy
    exact ⟨z, hz, (hscale z).1 hn⟩
  · rintro ⟨y, hy, hn⟩
    exact ⟨_, by rw [h2', List.getElem?_map, hy]; rfl, (hscale y).2 hn⟩

/-- C25. The rescaled box is right on an axis exactly when its lower edge was fixed by the scaling. -/
theorem C25_box (ps : Particles G) (mul : G) (a : Fin 3) :
    (ps.scale mul).bb.hi a = ps.bb.hi a * mul ∧
    ((ps.scale mul).bb.lo a = ps.bb.lo a * mul ↔ ps.bb.lo a = 0 ∨ mul = 1) := by
  refine ⟨rfl, ?_⟩
  show ps.bb.lo a = ps.bb.lo a * mul ↔ _
  constructor
  · intro h
    have : ps.bb.lo a * (mul - 1) = 0 := by linear_combination -h
    rcases mul_eq_zero.1 this with h | h
    · exact .inl h
    · exact .inr (by linear_combination h)
  · rintro (h | h) <;> simp [h]

example : ∃ (P : RParams ℚ) (H : Heur 3 ℚ) (ps : Particles ℚ), P.Valid ∧ H.Valid P ∧ Indexed P H ps ∧
    ps.pos[0]? = some (fun _ => (1 : ℚ)) ∧ (1 : ℚ) < |1 * 3 - 1| := by
  have hP := stdParams_valid (1000 : ℚ) (1 / 1000)
  obtain ⟨ps, h1, h2, -⟩ := indexed_exists hP (exHeur_valid (d := 3) hP)
    [fun _ => 1] ⟨fun _ => 0, fun _ => 0⟩ 1
  exact ⟨_, _, ps, hP, exHeur_valid hP, h1, by rw [h2]; rfl, by norm_num [abs]⟩

/-! ## C51 -/

theorem coordMax_spec {l : List (Coord G)} {u : Coord G} (a : Fin 3) :
    (∀ x ∈ l, x a ≤ (l.foldl (fun u x => fun a => max (u a) (x a)) u) a) ∧
    u a ≤ (l.foldl (fun u x => fun a => max (u a) (x a)) u) a ∧
    ((l.foldl (fun u x => fun a => max (u a) (x a)) u) a = u a ∨
      ∃ x ∈ l, (l.foldl (fun u x => fun a => max (u a) (x a)) u) a = x a) := by
  induction l generalizing u with
  | nil => simp
  | cons y l ih =>
    rw [List.foldl_cons]
    obtain ⟨h1, h2, h3⟩ := ih (u := fun a => max (u a) (y a))
    refine ⟨?_, (le_max_left _ _).trans h2, ?_⟩
    · intro x hx
      rcases List.mem_cons.1 hx with rfl | hx
      · exact (le_max_right _ _).trans h2
      · exact h1 x hx
    · rcases h3 with h3 | ⟨x, hx, h3⟩
      · rcases max_choice (u a) (y a) with h | h
        · left; rw [h3]; exact h
        · right; exact ⟨y, by simp, by rw [h3]; exact h⟩
      · exact .inr ⟨x, by simp [hx], h3⟩

theorem coordMin_spec {l : List (Coord G)} {u : Coord G} (a : Fin 3) :
    (∀ x ∈ l, (l.foldl (fun u x => fun a => min (u a) (x a)) u) a ≤ x a) ∧
    (l.foldl (fun u x => fun a => min (u a) (x a)) u) a ≤ u a ∧
    ((l.foldl (fun u x => fun a => min (u a) (x a)) u) a = u a ∨
      ∃ x ∈ l, (l.foldl (fun u x => fun a => min (u a) (x a)) u) a = x a) := by
  induction l generalizing u with
  | nil => simp
  | cons y l ih =>
    rw [List.foldl_cons]
    obtain ⟨h1, h2, h3⟩ := ih (u := fun a => min (u a) (y a))
    refine ⟨?_, h2.trans (min_le_left _ _), ?_⟩
    · intro x hx
      rcases List.mem_cons.1 hx with rfl | hx
      · exact h2.trans (min_le_right _ _)
      · exact h1 x hx
    · rcases h3 with h3 | ⟨x, hx, h3⟩
      · rcases min_choice (u a) (y a) with h | h
        · left; rw [h3]; exact h
        · right; exact ⟨y, by simp, by rw [h3]; exact h⟩
      · exact .inr ⟨x, by simp [hx], h3⟩

omit [IsStrictOrderedRing G] in
theorem foldlM_filter_range {pos : List (Coord G)} (f : Coord G → Bool) : ∀ n ≤ pos.length,
    (List.range n).foldlM (fun ret p => do
      let x ← getR pos p
      (return if f x then ret ++ [p] else ret : R (List Nat))) [] =
      .ok ((List.range n).filter fun p => (pos[p]?).any f) := by
  intro n
  induction n with
  | zero => intro _; rfl
  | succ n ih =>
    intro hn
    have hx : pos[n]? = some pos[n] := by simp
    rw [List.range_succ, List.foldlM_append, ih (by omega), ok_bind, List.foldlM_cons, getR_ok.2 hx, ok_bind,
      pure_eq_ok, ok_bind, List.foldlM_nil, pure_eq_ok, List.filter_append]
    congr 1
    by_cases h : f pos[n] = true
    · rw [if_pos h, List.filter_cons_of_pos (by rw [hx]; exact h)]; rfl
    · rw [if_neg h, List.filter_cons_of_neg (by rw [hx]; exact h)]; simp

/-- C51. When on each axis some particle has a non negative coordinate, `selectInside_noindex` returns,
in increasing order, exactly the particles at least `margin` inside the bounding box `[lo,hi]` of the
set (ignoring the last axis if `noZ`). The hypothesis on signs is needed: see `C51_counterexample`. -/
theorem C51_inside_partial (ps : Particles G) (margin : G) (noZ : Bool) (lo hi : Coord G)
    (hlo : ∀ a, (∃ x ∈ ps.pos, x a = lo a) ∧ ∀ x ∈ ps.pos, lo a ≤ x a)
    (hhi : ∀ a, (∃ x ∈ ps.pos, x a = hi a) ∧ ∀ x ∈ ps.pos, x a ≤ hi a)
    (hpos : ∀ a, 0 ≤ hi a) :
    ∃ N, selectInsideNoIndex ps margin noZ = .ok N ∧ N.Pairwise (· < ·) ∧
      ∀ j, j ∈ N ↔ ∃ x, ps.pos[j]? = some x ∧ ∀ a : Fin 3, (noZ = true → a ≠ 2) →
        lo a + margin ≤ x a ∧ x a ≤ hi a - margin := by
  have hax : ∀ a : Fin 3, a.val < 3 - noZ.toNat ↔ (noZ = true → a ≠ 2) := by
    intro a
    cases noZ with
    | false => simp
    | true =>
      match a with
      | 0 => simp
      | 1 => simp
      | 2 => simp
  obtain ⟨⟨x0, hx0, -⟩, -⟩ := hlo 0
  have hlen : 0 < ps.pos.length := List.length_pos_of_mem hx0
  have hf : ps.pos[0]? = some ps.pos[0] := by simp [hlen]
  have hup : ∀ a, (ps.pos.foldl (fun u x => fun a => max (u a) (x a)) (fun _ => 0)) a = hi a := by
    intro a
    obtain ⟨h1, h2, h3⟩ := coordMax_spec (l := ps.pos) (u := fun _ => (0 : G)) a
    obtain ⟨⟨x, hx, hxa⟩, hall⟩ := hhi a
    refine le_antisymm ?_ (hxa ▸ h1 x hx)
    rcases h3 with h3 | ⟨y, hy, h3⟩
    · rw [h3]; exact hpos a
    · rw [h3]; exact hall y hy
  have hdn : ∀ a, (ps.pos.foldl (fun u x => fun a => min (u a) (x a)) ps.pos[0]) a = lo a := by
    intro a
    obtain ⟨h1, h2, h3⟩ := coordMin_spec (l := ps.pos) (u := ps.pos[0]) a
    obtain ⟨⟨x, hx, hxa⟩, hall⟩ := hlo a
    refine le_antisymm (hxa ▸ h1 x hx) ?_
    rcases h3 with h3 | ⟨y, hy, h3⟩
    · rw [h3]; exact hall _ (List.getElem_mem _)
    · rw [h3]; exact hall y hy
  unfold selectInsideNoIndex
  rw [getR_ok.2 hf, ok_bind]
  dsimp only
  rw [foldlM_filter_range (fun x => _) ps.pos.length (le_refl _)]
  refine ⟨_, rfl, List.pairwise_lt_range.filter _, ?_⟩
  intro j
  rw [List.mem_filter, List.mem_range]
  constructor
  · rintro ⟨hj, h⟩
    have hx : ps.pos[j]? = some ps.pos[j] := by simp [hj]
    rw [hx] at h
    refine ⟨_, hx, fun a ha => ?_⟩
    simp only [Option.any_some, Bool.and_eq_true, List.all_eq_true, decide_eq_true_eq] at h
    have u := h.1 a (List.mem_finRange a)
    have d := h.2 a (List.mem_finRange a)
    rw [if_pos ((hax a).2 ha), hup] at u
    rw [if_pos ((hax a).2 ha), hdn] at d
    exact ⟨d, u⟩
  · rintro ⟨x, hx, h⟩
    refine ⟨(List.getElem?_eq_some_iff.1 hx).1, ?_⟩
    rw [hx]
    have hxm := List.mem_of_getElem? hx
    simp only [Option.any_some, Bool.and_eq_true, List.all_eq_true, decide_eq_true_eq]
    refine ⟨fun a _ => ?_, fun a _ => ?_⟩
    · rw [hup]
      split
      · rename_i ha; exact (h a ((hax a).1 ha)).2
      · exact (hhi a).2 x hxm
    · rw [hdn]
      split
      · rename_i ha; exact (h a ((hax a).1 ha)).1
      · exact (hlo a).2 x hxm

/-- C51 is false in general: when all the coordinates are negative, the upper side is taken at zero.
Here particle 1 is on the upper corner of the bounding box of the set and is selected with a margin
of 1. -/
theorem C51_counterexample (b : Box 3 G) (r : G) :
    selectInsideNoIndex ⟨[fun _ => -10, fun _ => -5], b, r, none⟩ 1 false = .ok [1] := by
  unfold selectInsideNoIndex
  have h1 : getR [(fun _ => -10 : Coord G), fun _ => -5] 0 = .ok (fun _ => -10) := rfl
  rw [h1, ok_bind]
  dsimp only
  rw [foldlM_filter_range (fun x => _) _ (le_refl _)]
  have e1 : max (0 : G) (-10) = 0 := max_eq_left (by norm_num)
  have e2 : max (0 : G) (-5) = 0 := max_eq_left (by norm_num)
  have e3 : min (-10 : G) (-5) = -10 := min_eq_left (by norm_num)
  simp [List.range_succ, e1, e2, e3, List.finRange]
  norm_num

omit [IsStrictOrderedRing G] in
/-- C51. On an empty set, `front()` is undefined. -/
theorem C51_empty (b : Box 3 G) (r margin : G) (t : Option (RStarIndex G)) (noZ : Bool) :
    selectInsideNoIndex ⟨[], b, r, t⟩ margin noZ = .error .ub := rfl

example : ∃ (ps : Particles ℚ) (lo hi : Coord ℚ),
    (∀ a, (∃ x ∈ ps.pos, x a = lo a) ∧ ∀ x ∈ ps.pos, lo a ≤ x a) ∧
    (∀ a, (∃ x ∈ ps.pos, x a = hi a) ∧ ∀ x ∈ ps.pos, x a ≤ hi a) ∧ ∀ a, 0 ≤ hi a :=
  ⟨⟨[fun _ => -1, fun _ => 5], ⟨fun _ => 0, fun _ => 0⟩, 1, none⟩, fun _ => -1, fun _ => 5,
    by intro a; simp; norm_num, by intro a; simp; norm_num, by intro a; norm_num⟩

end Colloids
