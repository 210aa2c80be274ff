import Verif.Periodic.Lemmas
import Verif.Particles.Props

/-! # Properties of periodic boundary conditions: C26 to C28 and C52 -/

namespace Colloids
open Particles Periodic
variable {G : Type} [Field G] [LinearOrder G]

/-- `x` is a point of the box of the set (faces included), which is not flat. -/
def PointOf (ps : Particles G) (x : Coord G) : Prop :=
  ∀ a, ps.bb.lo a < ps.bb.hi a ∧ ps.bb.lo a ≤ x a ∧ x a ≤ ps.bb.hi a

/-- The two vectors differ by whole periods. -/
def SameImage (ps : Particles G) (v w : Coord G) : Prop :=
  ∀ a, ∃ n : Int, w a = v a + n * (ps.bb.hi a - ps.bb.lo a)

/-- Squared length. -/
def sqNorm (v : Coord G) : G := v 0 ^ 2 + v 1 ^ 2 + v 2 ^ 2

omit [LinearOrder G] in
theorem dot3_eq_sqNorm (v : Coord G) : dot3 v v = sqNorm v := by
  simp only [dot3, sqNorm]; ring

variable [IsStrictOrderedRing G]

/-! ## C26 -/

theorem PointOf.diff_range {ps : Particles G} {x y : Coord G} (hx : PointOf ps x) (hy : PointOf ps y)
    (a : Fin 3) : 0 < getPeriod ps a ∧ -(3 * getPeriod ps a / 2) < y a - x a ∧
      y a - x a < 3 * getPeriod ps a / 2 := by
  obtain ⟨h1, h2, h3⟩ := hx a
  obtain ⟨-, h4, h5⟩ := hy a
  unfold getPeriod
  refine ⟨by linarith, by linarith, by linarith⟩

/-- C26. For two particles in the box, the difference is congruent to the plain difference modulo the
periods, has each component in `(-L/2, L/2]`, and each component (hence the whole vector) is no longer
than that of any other image. -/
theorem C26_minimal_image (ps : Particles G) (i j : Nat) (x y : Coord G) (hi : ps.pos[i]? = some x)
    (hj : ps.pos[j]? = some y) (hx : PointOf ps x) (hy : PointOf ps y) :
    ∃ d, getDiffBetween ps i j = .ok d ∧ Periodic.getDiff ps x j = .ok d ∧ SameImage ps (y - x) d ∧
      (∀ a, -((ps.bb.hi a - ps.bb.lo a) / 2) < d a ∧ d a ≤ (ps.bb.hi a - ps.bb.lo a) / 2) ∧
      ∀ w, SameImage ps (y - x) w → (∀ a, d a ^ 2 ≤ w a ^ 2) ∧ sqNorm d ≤ sqNorm w := by
  have hai : ps.at_ i = .ok x := by unfold at_; rw [hi]
  have haj : ps.at_ j = .ok y := by unfold at_; rw [hj]
  refine ⟨periodify ps (y - x), ?_, ?_, ?_, ?_, ?_⟩
  · unfold getDiffBetween; rw [haj, ok_bind, hai, ok_bind, pure_eq_ok]
  · unfold Periodic.getDiff Particles.getDiff; rw [haj, ok_bind, pure_eq_ok, ok_bind, pure_eq_ok]
  · intro a
    obtain ⟨k, -, hk⟩ := wrap1_congr (getPeriod ps a) ((y - x) a)
    exact ⟨k, hk⟩
  · intro a
    obtain ⟨h1, h2, h3⟩ := hx.diff_range hy a
    exact wrap1_range (L := getPeriod ps a) (v := (y - x) a) h2 h3.le
  · intro w hw
    have hmin : ∀ a, periodify ps (y - x) a ^ 2 ≤ w a ^ 2 := by
      intro a
      obtain ⟨h1, h2, h3⟩ := hx.diff_range hy a
      obtain ⟨k, -, hk⟩ := wrap1_congr (getPeriod ps a) ((y - x) a)
      obtain ⟨n, hn⟩ := hw a
      have := rep_minimal h1 (wrap1_range (L := getPeriod ps a) (v := (y - x) a) h2 h3.le) (n - k)
      have e : wrap1 (getPeriod ps a) ((y - x) a) + ((n - k : Int) : G) * getPeriod ps a = w a := by
        rw [hk, hn]; push_cast; unfold getPeriod; ring
      rw [e] at this
      rw [pow_two, pow_two]; exact this
    refine ⟨hmin, ?_⟩
    unfold sqNorm
    linarith [hmin 0, hmin 1, hmin 2]

example : ∃ (ps : Particles ℚ) (x y : Coord ℚ), ps.pos[0]? = some x ∧ ps.pos[1]? = some y ∧
    PointOf ps x ∧ PointOf ps y ∧ getDiffBetween ps 0 1 = .ok (fun _ => -1) := by
  refine ⟨⟨[fun _ => 0, fun _ => 9], ⟨fun _ => 0, fun _ => 10⟩, 1, none⟩, fun _ => 0, fun _ => 9, rfl, rfl,
    fun a => by norm_num, fun a => by norm_num, ?_⟩
  simp [getDiffBetween, at_]
  funext a
  simp [periodify, wrap1, getPeriod]
  norm_num

/-! ## C27 -/

/-- C27. The distance does not depend on the order of the two particles. -/
theorem C27_symmetric (ps : Particles G) (i j : Nat) (x y : Coord G) (hi : ps.pos[i]? = some x)
    (hj : ps.pos[j]? = some y) (hx : PointOf ps x) (hy : PointOf ps y) :
    ∃ d e, getDiffBetween ps i j = .ok d ∧ getDiffBetween ps j i = .ok e ∧ sqNorm d = sqNorm e := by
  obtain ⟨d, h1, -, h2, -, h3⟩ := C26_minimal_image ps i j x y hi hj hx hy
  obtain ⟨e, k1, -, k2, -, k3⟩ := C26_minimal_image ps j i y x hj hi hy hx
  refine ⟨d, e, h1, k1, ?_⟩
  have hneg : ∀ v : Coord G, sqNorm (-v) = sqNorm v := by intro v; simp [sqNorm]
  refine le_antisymm ?_ ?_
  · rw [← hneg e]
    refine (h3 (-e) ?_).2
    intro a
    obtain ⟨n, hn⟩ := k2 a
    exact ⟨-n, by simp only [Pi.neg_apply, Pi.sub_apply] at *; rw [hn]; push_cast; ring⟩
  · rw [← hneg d]
    refine (k3 (-d) ?_).2
    intro a
    obtain ⟨n, hn⟩ := h2 a
    exact ⟨-n, by simp only [Pi.neg_apply, Pi.sub_apply] at *; rw [hn]; push_cast; ring⟩

/-- C27. The difference does not depend on which images of the particles are stored: two sets with the
same box whose particles `i` and `j` differ by whole periods give the same difference vector. -/
theorem C27_images (ps ps' : Particles G) (i j : Nat) (x y x' y' : Coord G) (hb : ps'.bb = ps.bb)
    (hi : ps.pos[i]? = some x) (hj : ps.pos[j]? = some y) (hi' : ps'.pos[i]? = some x')
    (hj' : ps'.pos[j]? = some y') (hx : PointOf ps x) (hy : PointOf ps y) (hx' : PointOf ps x')
    (hy' : PointOf ps y') (hxx : SameImage ps x x') (hyy : SameImage ps y y') :
    getDiffBetween ps' i j = getDiffBetween ps i j := by
  have hai : ps.at_ i = .ok x := by unfold at_; rw [hi]
  have haj : ps.at_ j = .ok y := by unfold at_; rw [hj]
  have hai' : ps'.at_ i = .ok x' := by unfold at_; rw [hi']
  have haj' : ps'.at_ j = .ok y' := by unfold at_; rw [hj']
  unfold getDiffBetween
  rw [hai, haj, hai', haj']
  simp only [ok_bind, pure_eq_ok]
  congr 1
  funext a
  have hper : getPeriod ps' a = getPeriod ps a := by unfold getPeriod; rw [hb]
  unfold periodify
  rw [hper]
  obtain ⟨h1, h2, h3⟩ := hx.diff_range hy a
  obtain ⟨-, h2', h3'⟩ := hx'.diff_range hy' a
  obtain ⟨n, hn⟩ := hxx a
  obtain ⟨m, hm⟩ := hyy a
  refine wrap1_periodic (n := m - n) h1 h2' h3'.le h2 h3.le ?_
  simp only [Pi.sub_apply]
  rw [hn, hm]
  push_cast
  unfold getPeriod
  ring

/-- C27. The distance is zero exactly for two images of the same point. -/
theorem C27_zero (ps : Particles G) (i j : Nat) (x y : Coord G) (hi : ps.pos[i]? = some x)
    (hj : ps.pos[j]? = some y) (hx : PointOf ps x) (hy : PointOf ps y) :
    ∃ d, getDiffBetween ps i j = .ok d ∧ (sqNorm d = 0 ↔ SameImage ps x y) := by
  obtain ⟨d, h1, -, h2, -, h3⟩ := C26_minimal_image ps i j x y hi hj hx hy
  refine ⟨d, h1, ?_⟩
  constructor
  · intro h a
    have hd : d a = 0 := by
      have s0 := sq_nonneg (d 0); have s1 := sq_nonneg (d 1); have s2 := sq_nonneg (d 2)
      unfold sqNorm at h
      have : d a ^ 2 = 0 := by
        match a with
        | 0 => linarith
        | 1 => linarith
        | 2 => linarith
      exact pow_eq_zero_iff (two_ne_zero) |>.1 this
    obtain ⟨n, hn⟩ := h2 a
    rw [hd] at hn
    exact ⟨-n, by simp only [Pi.sub_apply] at hn; push_cast; linear_combination -hn⟩
  · intro h
    have h0 := (h3 0 (fun a => by
      obtain ⟨n, hn⟩ := h a
      exact ⟨-n, by simp only [Pi.sub_apply, Pi.zero_apply]; rw [hn]; push_cast; ring⟩)).2
    have hz : sqNorm (0 : Coord G) = 0 := by simp [sqNorm]
    rw [hz] at h0
    refine le_antisymm h0 ?_
    unfold sqNorm
    positivity

example : ∃ (ps ps' : Particles ℚ) (x y x' y' : Coord ℚ), ps'.bb = ps.bb ∧ ps.pos[0]? = some x ∧
    ps.pos[1]? = some y ∧ ps'.pos[0]? = some x' ∧ ps'.pos[1]? = some y' ∧ PointOf ps x ∧ PointOf ps y ∧
    PointOf ps x' ∧ PointOf ps y' ∧ SameImage ps x x' ∧ SameImage ps y y' ∧ x ≠ x' := by
  refine ⟨⟨[fun _ => 0, fun _ => 9], ⟨fun _ => 0, fun _ => 10⟩, 1, none⟩,
    ⟨[fun _ => 10, fun _ => 9], ⟨fun _ => 0, fun _ => 10⟩, 1, none⟩, fun _ => 0, fun _ => 9, fun _ => 10,
    fun _ => 9, rfl, rfl, rfl, rfl, rfl, fun a => by norm_num, fun a => by norm_num, fun a => by norm_num,
    fun a => by norm_num, fun a => ⟨1, by norm_num⟩, fun a => ⟨0, by norm_num⟩, ?_⟩
  intro h
  have := congrFun h 0
  norm_num at this

/-! ## C28 -/

/-- The image of `x` shifted by `n` periods. -/
def imageOf (ps : Particles G) (x : Coord G) (n : Fin 3 → Int) : Coord G :=
  fun a => x a + n a * (ps.bb.hi a - ps.bb.lo a)

/-- Shifts by -1, 0 or 1 period on each axis. -/
def UnitShift (n : Fin 3 → Int) : Prop := ∀ a, n a = -1 ∨ n a = 0 ∨ n a = 1

/-- C28. The selection is in increasing order and each selected particle has an image in the query box. -/
theorem C28_sound {P : RParams G} {H : Heur 3 G} (hP : P.Valid) (hH : H.Valid P) {ps : Particles G}
    (hps : Indexed P H ps) (q : Box 3 G) :
    ∃ L, Periodic.selectEnclosed ps q = .ok L ∧ L.Pairwise (· < ·) ∧
      ∀ j ∈ L, ∃ x n, ps.pos[j]? = some x ∧ UnitShift n ∧
        ∀ a, q.lo a ≤ imageOf ps x n a ∧ imageOf ps x n a ≤ q.hi a := by
  obtain ⟨L, h1, h2, h3, -⟩ := selectEnclosed_ok hP hH (hps.coherent hP hH) q
  refine ⟨L, h1, h2, ?_⟩
  intro j hj
  obtain ⟨x, hx, n, hn, hin⟩ := h3 j hj
  exact ⟨x, n, hx, hn, hin⟩

/-- C28, for images in the interior of the query box: when the particles are in the periodic box, each
particle that has an image strictly inside is selected. Missing: images on the faces of the query box,
see the two counterexamples. -/
theorem C28_complete_partial {P : RParams G} {H : Heur 3 G} (hP : P.Valid) (hH : H.Valid P) {ps : Particles G}
    (hps : Indexed P H ps) (hbox : ∀ x ∈ ps.pos, PointOf ps x) (q : Box 3 G) :
    ∃ L, Periodic.selectEnclosed ps q = .ok L ∧
      ∀ j x n, ps.pos[j]? = some x → UnitShift n →
        (∀ a, q.lo a < imageOf ps x n a ∧ imageOf ps x n a < q.hi a) → j ∈ L := by
  obtain ⟨L, h1, h2, -, h4⟩ := selectEnclosed_ok hP hH (hps.coherent hP hH) q
  refine ⟨L, h1, ?_⟩
  intro j x n hx hn hin
  have hxm := hbox x (List.mem_of_getElem? hx)
  exact h4 ⟨fun a => (hxm a).1, fun y hy a => (hbox y hy a).2⟩ j x hx n hn hin

/-- C28 fails on the faces of the periodic box: when the query is inside the box, no image is
considered, so that a particle on a lower face whose image is in the query, on the opposite face, is not
selected. -/
theorem C28_face_counterexample {P : RParams G} {H : Heur 3 G} (hP : P.Valid) (hH : H.Valid P)
    {ps : Particles G} (hps : Indexed P H ps) (q : Box 3 G) (hq : ps.bb.Contains q) (j : Nat) (x : Coord G)
    (hx : ps.pos[j]? = some x) (a : Fin 3) (hlt : x a < q.lo a) :
    ∃ L, Periodic.selectEnclosed ps q = .ok L ∧ j ∉ L := by
  obtain ⟨t, h1, h2, h3⟩ := hps.coherent hP hH
  unfold Periodic.selectEnclosed
  rw [if_pos (Box.encloses_iff.2 hq)]
  unfold Particles.selectEnclosed
  rw [h1]
  refine ⟨_, rfl, ?_⟩
  intro hj
  obtain ⟨y, hy, hin⟩ := select_point_sound hP hH h2 h3 q j hj
  rw [hx] at hy; injection hy with hy; subst hy
  exact absurd (hin a).1 (not_le.2 hlt)

/-- The particle of `C28_face_counterexample` can have an image in the query box. -/
example : ∃ (P : RParams ℚ) (H : Heur 3 ℚ) (ps : Particles ℚ) (q : Box 3 ℚ) (x : Coord ℚ) (n : Fin 3 → Int),
    P.Valid ∧ H.Valid P ∧ Indexed P H ps ∧ ps.bb.Contains q ∧ ps.pos[0]? = some x ∧ PointOf ps x ∧
    x 0 < q.lo 0 ∧ UnitShift n ∧ ∀ a, q.lo a ≤ imageOf ps x n a ∧ imageOf ps x n a ≤ q.hi a := by
  have hP := stdParams_valid (1000 : ℚ) (1 / 1000)
  obtain ⟨ps, h1, h2, h3, -⟩ := indexed_exists hP (exHeur_valid (d := 3) hP)
    [fun _ => 0] ⟨fun _ => 0, fun _ => 10⟩ 1
  refine ⟨_, _, ps, ⟨fun _ => 9, fun _ => 10⟩, fun _ => 0, fun _ => 1, hP, exHeur_valid hP, h1, ?_, by rw [h2]; rfl,
    ?_, by norm_num, fun a => by simp, ?_⟩
  · intro a; rw [h3]; norm_num
  · intro a; rw [h3]; norm_num
  · intro a; unfold imageOf; rw [h3]; norm_num

/-- C28 fails for a point on a face of the query box even without any image: the index does not find it
(as in C13). -/
theorem C28_boundary_counterexample (P : RParams G) (H : Heur 3 G) (r : G) :
    ∃ ps, makeRTreeIndex P H ⟨[fun _ => 0], ⟨fun _ => -5, fun _ => 5⟩, r, none⟩ = .ok ps ∧
      Periodic.selectEnclosed ps ⟨fun _ => 0, fun _ => 1⟩ = .ok [] := by
  refine ⟨_, rfl, ?_⟩
  unfold Periodic.selectEnclosed
  rw [if_pos]
  · unfold Particles.selectEnclosed
    dsimp only
    congr 1
    unfold RStarIndex.select RTree.queryEnclosing RTree.query
    have : ∀ b : Box 3 G, b = bounds (fun _ => 0) 0 →
        (⟨fun _ => 0, fun _ => 1⟩ : Box 3 G).overlaps b = false := by
      rintro b rfl
      simp [Box.overlaps, bounds, List.finRange]
    simp [RNode.query, this, sortUnique, listUnique]
  · rw [Box.encloses_iff]
    intro a
    constructor
    · show (-5 : G) ≤ 0; norm_num
    · show (1 : G) ≤ 5; norm_num

/-! ## C52 -/

/-- `y` is nearer than `r` to `x` through the periodic boundaries: some image is. -/
def PeriodicallyNearer (ps : Particles G) (x y : Coord G) (r : G) : Prop :=
  ∃ w, SameImage ps (y - x) w ∧ 0 < r ∧ sqNorm w < r ^ 2

omit [IsStrictOrderedRing G] in
theorem PeriodicallyNearer.symm {ps : Particles G} {x y : Coord G} {r : G} (h : PeriodicallyNearer ps x y r) :
    PeriodicallyNearer ps y x r := by
  obtain ⟨w, h1, h2, h3⟩ := h
  refine ⟨-w, ?_, h2, by simpa [sqNorm] using h3⟩
  intro a
  obtain ⟨n, hn⟩ := h1 a
  exact ⟨-n, by simp only [Pi.neg_apply, Pi.sub_apply] at *; rw [hn]; push_cast; ring⟩

theorem periodicallyNearer_iff {ps : Particles G} {c x : Coord G} (hc : PointOf ps c) (hx : PointOf ps x)
    (r : G) : Closer (dot3 (periodify ps (x - c)) (periodify ps (x - c))) r ↔ PeriodicallyNearer ps c x r := by
  rw [dot3_eq_sqNorm]
  obtain ⟨d, h1, -, h2, -, h3⟩ := C26_minimal_image { ps with pos := [c, x] } 0 1 c x rfl rfl hc hx
  have hd : d = periodify ps (x - c) := by
    have : getDiffBetween { ps with pos := [c, x] } 0 1 = .ok (periodify ps (x - c)) := rfl
    rw [h1] at this
    injection this
  rw [← hd]
  unfold Closer PeriodicallyNearer
  constructor
  · rintro ⟨a, b⟩; exact ⟨d, h2, a, by rwa [pow_two]⟩
  · rintro ⟨w, a, b, e⟩
    exact ⟨b, by rw [← pow_two]; exact (h3 w a).2.trans_lt e⟩

/-- C52. In periodic conditions, with all particles and the centre in the box, the search returns
exactly the particles that have an image nearer than the range, whatever the range. -/
theorem C52_position {P : RParams G} {H : Heur 3 G} (hP : P.Valid) (hH : H.Valid P) {ps : Particles G}
    (hps : Indexed P H ps) (hbox : ∀ x ∈ ps.pos, PointOf ps x) (c : Coord G) (hc : PointOf ps c) (range : G) :
    ∃ N, getEuclidianNeighbours Periodic.geometry ps c range = .ok N ∧ N.Pairwise (· < ·) ∧
      ∀ j, j ∈ N ↔ ∃ x, ps.pos[j]? = some x ∧ PeriodicallyNearer ps c x range := by
  have hb : InBox ps := ⟨fun a => (hc a).1, fun y hy a => (hbox y hy a).2⟩
  obtain ⟨N, h1, h2, h3⟩ := neighbours_ok (searches_periodic hP hH (hps.coherent hP hH) hb c)
    (fun p _ => pdistSq_nonneg _ _ p) range
  refine ⟨N, h1, h2, ?_⟩
  intro j
  rw [h3]
  constructor
  · rintro ⟨hj, hcl⟩
    have hx : ps.pos[j]? = some ps.pos[j] := by simp [hj]
    rw [pdistSq_eq hx, periodicallyNearer_iff hc (hbox _ (List.getElem_mem _))] at hcl
    exact ⟨_, hx, hcl⟩
  · rintro ⟨x, hx, hcl⟩
    refine ⟨(List.getElem?_eq_some_iff.1 hx).1, ?_⟩
    rwa [pdistSq_eq hx, periodicallyNearer_iff hc (hbox _ (List.mem_of_getElem? hx))]

/-- C52. The periodic neighbour list is exact, symmetric and irreflexive. -/
theorem C52_ngb_list {P : RParams G} {H : Heur 3 G} (hP : P.Valid) (hH : H.Valid P) {ps : Particles G}
    (hps : Indexed P H ps) (hbox : ∀ x ∈ ps.pos, PointOf ps x) (b : G) :
    ∃ ngb, makeNgbList Periodic.geometry ps b = .ok ngb ∧ ngb.length = ps.pos.length ∧
      (∀ row ∈ ngb, row.Pairwise (· < ·)) ∧
      (∀ (p : Nat) x row, ps.pos[p]? = some x → ngb[p]? = some row → ∀ q, q ∈ row ↔
        q ≠ p ∧ ∃ y, ps.pos[q]? = some y ∧ PeriodicallyNearer ps x y (2 * b * ps.radius)) ∧
      ∀ (p : Nat) row, ngb[p]? = some row → ∀ q ∈ row, ∃ row', ngb[q]? = some row' ∧ p ∈ row' := by
  have hcoh := hps.coherent hP hH
  by_cases hne : ps.pos = []
  · refine ⟨[], by unfold makeNgbList; rw [hne]; rfl, by rw [hne]; rfl, by simp, ?_, ?_⟩
    · intro p x row hx; rw [hne] at hx; simp at hx
    · intro p row hrow; simp at hrow
  obtain ⟨x0, hx0⟩ := List.exists_mem_of_ne_nil _ hne
  have hb : InBox ps := ⟨fun a => (hbox x0 hx0 a).1, fun y hy a => (hbox y hy a).2⟩
  obtain ⟨ngb, h1, h2, h3, h4⟩ := makeNgbList_ok (searches_periodic hP hH hcoh hb)
    (fun c p => pdistSq_nonneg _ _ p) b
  have hexact : ∀ (p : Nat) x row, ps.pos[p]? = some x → ngb[p]? = some row → ∀ q, q ∈ row ↔
        q ≠ p ∧ ∃ y, ps.pos[q]? = some y ∧ PeriodicallyNearer ps x y (2 * b * ps.radius) := by
    intro p x row hx hrow q
    obtain ⟨x', hx', h⟩ := h4 p row hrow
    rw [hx] at hx'; injection hx' with hx'; subst hx'
    have hpx := hbox x (List.mem_of_getElem? hx)
    rw [h]
    constructor
    · rintro ⟨hj, hqp, hc⟩
      have hy : ps.pos[q]? = some ps.pos[q] := by simp [hj]
      rw [pdistSq_eq hy, periodicallyNearer_iff hpx (hbox _ (List.getElem_mem _))] at hc
      exact ⟨hqp, _, hy, hc⟩
    · rintro ⟨hqp, y, hy, hc⟩
      refine ⟨(List.getElem?_eq_some_iff.1 hy).1, hqp, ?_⟩
      rwa [pdistSq_eq hy, periodicallyNearer_iff hpx (hbox _ (List.mem_of_getElem? hy))]
  refine ⟨ngb, h1, h2, h3, hexact, ?_⟩
  intro p row hrow q hq
  have hp : p < ps.pos.length := by rw [← h2]; exact (List.getElem?_eq_some_iff.1 hrow).1
  have hx : ps.pos[p]? = some ps.pos[p] := by simp [hp]
  obtain ⟨hqp, y, hy, hn⟩ := (hexact p _ row hx hrow q).1 hq
  have hql : q < ngb.length := by rw [h2]; exact (List.getElem?_eq_some_iff.1 hy).1
  have hrow' : ngb[q]? = some ngb[q] := by simp [hql]
  exact ⟨_, hrow', (hexact q y _ hy hrow' p).2 ⟨hqp.symm, _, hx, hn.symm⟩⟩

/-- C52. Nearest neighbour in periodic conditions: no other particle has a nearer image. -/
theorem C52_nearest [Archimedean G] {P : RParams G} {H : Heur 3 G} (hP : P.Valid) (hH : H.Valid P)
    {ps : Particles G} (hps : Indexed P H ps) (hne : ps.pos ≠ []) (hbox : ∀ x ∈ ps.pos, PointOf ps x)
    (c : Coord G) (hc : PointOf ps c) (range : G) (hr : 0 < range) :
    ∃ n i x v, (∀ fuel, n ≤ fuel → getNearestNeighbour fuel Periodic.geometry ps c range = .ok i) ∧
      ps.pos[i]? = some x ∧ SameImage ps (x - c) v ∧
      ∀ y ∈ ps.pos, ∀ w, SameImage ps (y - c) w → sqNorm v ≤ sqNorm w := by
  have hb : InBox ps := ⟨fun a => (hc a).1, fun y hy a => (hbox y hy a).2⟩
  obtain ⟨n, i, h1, h2, h3⟩ := nearest_ok (searches_periodic hP hH (hps.coherent hP hH) hb c)
    (fun p _ => pdistSq_nonneg _ _ p) hne range hr
  have hx : ps.pos[i]? = some ps.pos[i] := by simp [h2]
  have himg : ∀ v : Coord G, SameImage ps v (periodify ps v) := by
    intro v a
    obtain ⟨k, -, hk⟩ := wrap1_congr (getPeriod ps a) (v a)
    exact ⟨k, hk⟩
  refine ⟨n, i, _, periodify ps (ps.pos[i] - c), h1, hx, himg _, ?_⟩
  intro y hy w hw
  obtain ⟨j, hj⟩ := List.mem_iff_getElem?.1 hy
  have hle := (h3 j (List.getElem?_eq_some_iff.1 hj).1).1
  rw [pdistSq_eq hx, pdistSq_eq hj, dot3_eq_sqNorm, dot3_eq_sqNorm] at hle
  refine hle.trans ?_
  obtain ⟨d, k1, -, -, -, k3⟩ := C26_minimal_image { ps with pos := [c, y] } 0 1 c y rfl rfl hc (hbox y hy)
  have hd : d = periodify ps (y - c) := by
    have : getDiffBetween { ps with pos := [c, y] } 0 1 = .ok (periodify ps (y - c)) := rfl
    rw [k1] at this
    injection this
  rw [← hd]
  exact (k3 w hw).2

example : ∃ (P : RParams ℚ) (H : Heur 3 ℚ) (ps : Particles ℚ), P.Valid ∧ H.Valid P ∧ Indexed P H ps ∧
    ps.pos.length = 2 ∧ (∀ x ∈ ps.pos, PointOf ps x) ∧ PointOf ps (fun _ => 1) := by
  have hP := stdParams_valid (1000 : ℚ) (1 / 1000)
  obtain ⟨ps, h1, h2, h3, -⟩ := indexed_exists hP (exHeur_valid (d := 3) hP)
    [fun _ => 0, fun _ => 5] ⟨fun _ => 0, fun _ => 10⟩ 1
  refine ⟨_, _, ps, hP, exHeur_valid hP, h1, by rw [h2]; rfl, ?_, ?_⟩
  · intro x hx a
    rw [h2] at hx
    rw [h3]
    simp only [List.mem_cons, List.not_mem_nil, or_false] at hx
    rcases hx with rfl | rfl <;> norm_num
  · intro a; rw [h3]; norm_num

end Colloids
