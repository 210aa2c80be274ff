import Verif.Mains.BooModel
import Verif.Boo.FieldProps
import Verif.Rdf.DensityProps
import Verif.Bonds.Props
import Verif.Dyn.DriftProps
import Verif.Mains.VoroBondProps
import Verif.Files.Lemmas

/-! # Properties of the program `boo` -/

namespace Colloids
namespace Mains

open Boo (GoodNgbs rowOf mean ownBonds outerBonds prev)
open Clusters (Ngb)
open Particles (selectInsideNoIndex makeRTreeIndex makeNgbList pointLeaves)

variable {V : Type} [AddCommGroup V] [Module ℝ V] {n : Nat} {ngbs : NgbList} {sph : Nat → Nat → V}

/-! ### The tensors -/

/-- The tensor of a particle when only some have one: the mean of the harmonics of its bonds, or null. -/
noncomputable def keptTensor (ngbs : NgbList) (sph : Nat → Nat → V) (inside : List Nat) (p : Nat) : V :=
  if inside = [] ∨ p ∈ inside then mean ((rowOf ngbs p).map (fun q => sph p q)) else 0

omit [Module ℝ V] in
theorem removeOutside_kept {inside : List Nat} (hi : inside.Pairwise (· < ·)) (hin : ∀ p ∈ inside, p < n) {l : List V}
    {F : Nat → V} (hl : l.length = n) (hF : ∀ p, p < n → l[p]? = some (F p)) :
    ∃ l', keepInside n inside l = .ok l' ∧ l'.length = n ∧
      ∀ p, p < n → l'[p]? = some (if inside = [] ∨ p ∈ inside then F p else 0) := by
  by_cases he : inside = []
  · subst he
    exact ⟨l, rfl, hl, fun p hp => by simpa using hF p hp⟩
  · obtain ⟨l', h1, h2, h3, h4⟩ := Rdf.C59_remove_outside (0 : V) n inside l hi hin hl
    refine ⟨l', by unfold keepInside; rw [if_neg (by simpa using he)]; exact h1, h2, ?_⟩
    intro p hp
    by_cases hpi : p ∈ inside
    · rw [h3 p hpi, if_pos (.inr hpi), hF p hp]
    · rw [h4 p hp hpi, if_neg (by simp [he, hpi])]

/-- What `boo` computes for given neighbours and selections: the tensors of the particles of the first selection, also
with the bonds between neighbours, and the mean of these tensors over the particle and its neighbours for the second
selection; null for the others. An empty selection stands for all the particles. -/
theorem C130_tensors (h : GoodNgbs n ngbs) (hs : ∀ p q, sph p q = sph q p) {inside second : List Nat}
    (hi : inside.Pairwise (· < ·)) (hin : ∀ p ∈ inside, p < n) (h2 : ∀ p ∈ second, p < n) :
    ∃ out, booTensors n ngbs sph inside second = .ok out ∧ out.qlm.length = n ∧ out.sf.length = n ∧ out.cg.length = n ∧
      ∀ p, p < n → out.qlm[p]? = some (keptTensor ngbs sph inside p) ∧
        out.sf[p]? = some (if inside = [] ∨ p ∈ inside then mean (ownBonds ngbs sph p ++ outerBonds ngbs sph p) else 0) ∧
        out.cg[p]? = some (if second = [] ∨ p ∈ second then
          mean ((p :: rowOf ngbs p).map (keptTensor ngbs sph inside)) else 0) := by
  obtain ⟨b, s, e1, -, e2, e3, e4, e5⟩ := Boo.C57_surface h sph hs
  obtain ⟨b', f1, f2, f3⟩ := removeOutside_kept (F := fun p => mean ((rowOf ngbs p).map (fun q => sph p q))) hi hin e2 (by
    intro p hp
    obtain ⟨v, hv, hb⟩ := e4 p hp
    rw [(Boo.C57_getBOO h sph p hp).1] at hb
    cases hb
    exact hv)
  obtain ⟨s', g1, g2, g3⟩ := removeOutside_kept hi hin e3 e5
  have hsel : ∀ p ∈ (if second.isEmpty then List.range n else second), p < n := by
    intro p hp
    split at hp
    · simpa using hp
    · exact h2 p hp
  obtain ⟨cg, c1, c2, c3, c4⟩ := Boo.C57_coarse_grain_selection h _ hsel b' [] f2
  refine ⟨⟨b', s', cg⟩, ?_, f2, g2, c2, ?_⟩
  · unfold booTensors
    rw [e1, ok_bind]
    dsimp only
    rw [f1, ok_bind, g1, ok_bind, c1, ok_bind]
    rfl
  · intro p hp
    refine ⟨f3 p hp, g3 p hp, ?_⟩
    have hprev : ∀ q, q < n → prev b' q = keptTensor ngbs sph inside q := by
      intro q hq
      unfold prev
      rw [f3 q hq]
      rfl
    by_cases hps : second = [] ∨ p ∈ second
    · rw [if_pos hps]
      have hm : p ∈ (if second.isEmpty then List.range n else second) := by
        by_cases he : second = []
        · simp [he, hp]
        · rw [if_neg (by simpa using he)]
          exact hps.resolve_left he
      obtain ⟨v, hv, hc⟩ := c3 p hm
      rw [(Boo.C57_coarse_grain h b' f2 p hp).1] at hc
      cases hc
      rw [hv, List.map_cons, hprev p hp, List.map_congr_left (fun q hq => hprev q (h.lt hq).2)]
    · rw [if_neg hps]
      have hne : ¬ second = [] := fun e => hps (.inl e)
      have := c4 p hp (by rw [if_neg (by simpa using hne)]; exact fun hm => hps (.inr hm))
      simpa using this

/-- The coarse grained tensor is the mean of the tensors of the particle and of its neighbours if they all are in the
first selection. Missing: the margins do not ensure it, see `C130_null_counterexample`. -/
theorem C130_coarse_partial (h : GoodNgbs n ngbs) (hs : ∀ p q, sph p q = sph q p) {inside second : List Nat}
    (hi : inside.Pairwise (· < ·)) (hin : ∀ p ∈ inside, p < n) (h2 : ∀ p ∈ second, p < n) {p : Nat} (hp : p ∈ second)
    (hall : ∀ q, q = p ∨ Ngb ngbs p q → q ∈ inside) :
    ∃ out, booTensors n ngbs sph inside second = .ok out ∧ out.cg[p]? = some (mean ((p :: rowOf ngbs p).map fun q =>
      mean ((rowOf ngbs q).map (fun r => sph q r)))) := by
  obtain ⟨out, e1, -, -, -, e2⟩ := C130_tensors (sph := sph) h hs hi hin h2
  refine ⟨out, e1, ?_⟩
  rw [(e2 p (h2 p hp)).2.2, if_pos (.inr hp)]
  congr 2
  apply List.map_congr_left
  intro q hq
  have hq' : q = p ∨ Ngb ngbs p q := (List.mem_cons.1 hq).imp_right Boo.mem_rowOf.1
  unfold keptTensor
  rw [if_pos (.inr (hall q hq'))]

/-! ### The first run -/

/-- `lo` and `hi` are the smallest and largest coordinates. -/
def Extremes (ps : Particles ℝ) (lo hi : Coord ℝ) : Prop :=
  (∀ a, (∃ x ∈ ps.pos, x a = lo a) ∧ ∀ x ∈ ps.pos, lo a ≤ x a) ∧
    ∀ a, (∃ x ∈ ps.pos, x a = hi a) ∧ ∀ x ∈ ps.pos, x a ≤ hi a

theorem bounds_zero (x : Coord ℝ) : Particles.bounds x 0 = ⟨x, x⟩ := by
  unfold Particles.bounds; simp

theorem makeIndex_tight {P : RParams ℝ} {H : Heur 3 ℝ} (hP : P.Valid) (hH : H.Valid P) {ps : Particles ℝ} {lo hi : Coord ℝ}
    (he : Extremes ps lo hi) (hm : ∀ a, P.mn ≤ hi a ∧ lo a ≤ P.mx) :
    ∃ t, makeRTreeIndex P H ps = .ok { ps with index := some t } ∧ RTree.Reachable P H true t ∧
      t.content.Perm (pointLeaves ps.pos) ∧ t.getOverallBox = .ok ⟨lo, hi⟩ := by
  obtain ⟨hlo, hhi⟩ := he
  obtain ⟨⟨x0, hx0, -⟩, -⟩ := hlo 0
  have hmem : ∀ x ∈ ps.pos, ∃ i : Nat, (⟨⟨x, x⟩, i⟩ : Leaf 3 ℝ Nat) ∈ pointLeaves ps.pos := by
    intro x hx
    obtain ⟨i, hi⟩ := List.mem_iff_getElem?.1 hx
    exact ⟨i, Particles.mem_pointLeaves.2 ⟨x, hi, (bounds_zero x).symm⟩⟩
  have hmem' : ∀ l ∈ pointLeaves ps.pos, ∃ x ∈ ps.pos, l.bound = ⟨x, x⟩ := by
    intro l hl
    obtain ⟨x, hx, hb⟩ := Particles.mem_pointLeaves.1 hl
    exact ⟨x, List.mem_of_getElem? hx, by rw [hb, bounds_zero]⟩
  obtain ⟨t, B, h1, h2, h3⟩ := C17_tight_partial hP hH (pointLeaves ps.pos) (by
    obtain ⟨i, hi⟩ := hmem x0 hx0
    exact List.ne_nil_of_mem hi) (.inr (by
    intro a
    obtain ⟨⟨x, hx, hxa⟩, -⟩ := hhi a
    obtain ⟨⟨y, hy, hya⟩, -⟩ := hlo a
    obtain ⟨i, hi⟩ := hmem x hx
    obtain ⟨j, hj⟩ := hmem y hy
    exact ⟨⟨_, hi, by show P.mn ≤ x a; rw [hxa]; exact (hm a).1⟩, ⟨_, hj, by show y a ≤ P.mx; rw [hya]; exact (hm a).2⟩⟩))
  obtain ⟨t', k1, k2, -⟩ := C12_insertions hP hH (pointLeaves ps.pos)
  have ht : t' = t := by rw [h1] at k1; cases k1; rfl
  subst ht
  refine ⟨t', ?_, RTree.Reachable.insertAll _ .empty h1, k2, ?_⟩
  · unfold makeRTreeIndex RStarIndex.ofBoxes
    have : ((ps.pos.map fun x => Particles.bounds x 0).zipIdx.map fun b => (⟨b.1, b.2⟩ : Leaf 3 ℝ Nat)) =
        pointLeaves ps.pos := by
      unfold pointLeaves
      rw [List.zipIdx_map, List.map_map]; rfl
    rw [this, h1]; rfl
  · rw [h2]
    congr 1
    have hB := h3.2 ⟨lo, hi⟩ (by
      intro l hl a
      obtain ⟨x, hx, hb⟩ := hmem' l hl
      rw [hb]
      exact ⟨(hlo a).2 x hx, (hhi a).2 x hx⟩)
    have e1 : B.lo = lo := by
      funext a
      obtain ⟨⟨y, hy, hya⟩, -⟩ := hlo a
      obtain ⟨j, hj⟩ := hmem y hy
      exact le_antisymm (hya ▸ (h3.1 _ hj a).1) (hB a).1
    have e2 : B.hi = hi := by
      funext a
      obtain ⟨⟨y, hy, hya⟩, -⟩ := hhi a
      obtain ⟨j, hj⟩ := hmem y hy
      exact le_antisymm (hB a).2 (hya ▸ (h3.1 _ hj a).2)
    cases B
    simp only at e1 e2
    rw [e1, e2]

/-- The neighbours found by the first run. -/
theorem neighbours_good {P : RParams ℝ} {H : Heur 3 ℝ} (hP : P.Valid) (hH : H.Valid P) {ps : Particles ℝ}
    (hps : Indexed P H ps) (b : ℝ) :
    ∃ ngbs, makeNgbList Particles.geometry ps b = .ok ngbs ∧ GoodNgbs ps.pos.length ngbs ∧
      ∀ p q, Ngb ngbs p q ↔ p ≠ q ∧ ∃ x y, ps.pos[p]? = some x ∧ ps.pos[q]? = some y ∧
        NearerThan x y (2 * b * ps.radius) := by
  obtain ⟨ngbs, h1, h2, h3, h4⟩ := C20_exact hP hH hps b
  have hiff : ∀ p q, Ngb ngbs p q ↔ p ≠ q ∧ ∃ x y, ps.pos[p]? = some x ∧ ps.pos[q]? = some y ∧
        NearerThan x y (2 * b * ps.radius) := by
    intro p q
    constructor
    · rintro ⟨row, hr, hq⟩
      have hp : p < ps.pos.length := by rw [← h2]; exact (List.getElem?_eq_some_iff.1 hr).1
      have hx : ps.pos[p]? = some ps.pos[p] := by simp [hp]
      obtain ⟨a1, y, a2, a3⟩ := (h4 p _ row hx hr q).1 hq
      exact ⟨fun e => a1 e.symm, _, y, hx, a2, a3⟩
    · rintro ⟨hne, x, y, hx, hy, hn⟩
      have hp : p < ngbs.length := by rw [h2]; exact (List.getElem?_eq_some_iff.1 hx).1
      have hr : ngbs[p]? = some ngbs[p] := by simp [hp]
      exact ⟨_, hr, (h4 p x _ hx hr q).2 ⟨fun e => hne e.symm, y, hy, hn⟩⟩
  refine ⟨ngbs, h1, ⟨h2, h3, ?_, ?_⟩, hiff⟩
  · intro p q hpq
    rw [hiff] at hpq ⊢
    obtain ⟨hne, x, y, hx, hy, hn⟩ := hpq
    refine ⟨fun e => hne e.symm, y, x, hy, hx, hn.1, ?_⟩
    have : sqDist y x = sqDist x y := by unfold sqDist; ring
    rw [this]; exact hn.2
  · intro p hp
    exact ((hiff p p).1 hp).1 rfl

/-- The neighbours are recovered from the file of bonds. -/
theorem reload (h : GoodNgbs n ngbs) (hsz : n ≤ szMod) :
    ∃ bonds, loadBonds (some (writeBonds (ngb2bonds ngbs))) = .ok bonds ∧ makeNgbListFromBonds n bonds = .ok ngbs := by
  refine ⟨ngb2bonds ngbs, C10_file_roundtrip _ (ngb2bonds_sorted ngbs) ?_, ?_⟩
  · intro b hb
    rw [mem_ngb2bonds h.sorted] at hb
    obtain ⟨row, hr, hq⟩ := h.symm _ _ hb.2
    have := (List.getElem?_eq_some_iff.1 hr).1
    rw [h.len] at this
    exact ⟨by omega, by omega⟩
  · have := C11_ngb_roundtrip ngbs h.sorted h.symm h.irrefl
    rwa [h.len] at this

/-- Along the axes that are wider than twice the margin, `x` is further than the margin from the sides. -/
def FurtherThan (lo hi : Coord ℝ) (margin : ℝ) (noZ : Bool) (x : Coord ℝ) : Prop :=
  ∀ a : Fin 3, (noZ = true → a ≠ 2) → hi a - lo a > 2 * margin → lo a + margin ≤ x a ∧ x a ≤ hi a - margin

theorem selectInside_sound {P : RParams ℝ} {H : Heur 3 ℝ} (hP : P.Valid) (hH : H.Valid P) {ps : Particles ℝ}
    {t : RStarIndex ℝ} (hr : RTree.Reachable P H true t) (hc : t.content.Perm (pointLeaves ps.pos)) {lo hi : Coord ℝ}
    (hB : t.getOverallBox = .ok ⟨lo, hi⟩) (margin : ℝ) (noZ : Bool) :
    ∃ L, selectInside { ps with index := some t } margin noZ = .ok L ∧ L.Pairwise (· < ·) ∧
      ∀ j ∈ L, ∃ x, ps.pos[j]? = some x ∧ FurtherThan lo hi margin noZ x := by
  obtain ⟨L, h1, h2, h3⟩ := C18_sound hP hH hr _ hB margin noZ
  refine ⟨L, h1, h2, ?_⟩
  intro j hj
  obtain ⟨l, hl, e, hin⟩ := h3 j hj
  obtain ⟨x, hx, hb⟩ := Particles.mem_pointLeaves.1 (hc.mem_iff.1 hl)
  rw [e] at hx
  rw [bounds_zero] at hb
  refine ⟨x, hx, fun a h1 h2 => ?_⟩
  have := hin a h1 h2
  rw [hb] at this
  exact this

theorem selectInside_complete {P : RParams ℝ} {H : Heur 3 ℝ} (hP : P.Valid) (hH : H.Valid P) {ps : Particles ℝ}
    {t : RStarIndex ℝ} (hr : RTree.Reachable P H true t) (hc : t.content.Perm (pointLeaves ps.pos)) {lo hi : Coord ℝ}
    (hB : t.getOverallBox = .ok ⟨lo, hi⟩) {margin : ℝ} {noZ : Bool} {L : List Nat}
    (hL : selectInside { ps with index := some t } margin noZ = .ok L) {j : Nat} {x : Coord ℝ} (hx : ps.pos[j]? = some x)
    (hin : ∀ a, lo a < x a ∧ x a < hi a)
    (hm : ∀ a : Fin 3, (noZ = true → a ≠ 2) → hi a - lo a > 2 * margin → lo a + margin < x a ∧ x a < hi a - margin) :
    j ∈ L := by
  obtain ⟨L', h1, h2⟩ := C18_points_partial hP hH hr _ hB margin noZ x j
    (hc.mem_iff.2 (Particles.mem_pointLeaves.2 ⟨x, hx, (bounds_zero x).symm⟩)) hin hm
  have : L' = L := by
    unfold selectInside at hL
    dsimp only at hL
    rw [h1] at hL
    cases hL; rfl
  rwa [← this]

/-- The neighbours used by `boo`: the particles at less than 1.3 diameters. -/
def BooNgbs (ps : Particles ℝ) (ngbs : NgbList) : Prop :=
  GoodNgbs ps.pos.length ngbs ∧ ∀ p q, Ngb ngbs p q ↔ p ≠ q ∧ ∃ x y, ps.pos[p]? = some x ∧ ps.pos[q]? = some y ∧
    NearerThan x y (1.3 * (2 * ps.radius))

theorem firstRun {P : RParams ℝ} {H : Heur 3 ℝ} (hP : P.Valid) (hH : H.Valid P) (hs : ∀ p q, sph p q = sph q p)
    {ps : Particles ℝ} {lo hi : Coord ℝ} (he : Extremes ps lo hi) (hm : ∀ a, P.mn ≤ hi a ∧ lo a ≤ P.mx) (noZ : Bool) :
    ∃ (t : RStarIndex ℝ) (ngbs : NgbList) (inside second : List Nat) (out : BooTensors V),
      RTree.Reachable P H true t ∧ t.content.Perm (pointLeaves ps.pos) ∧ t.getOverallBox = .ok ⟨lo, hi⟩ ∧
      BooNgbs ps ngbs ∧ selectInside { ps with index := some t } (1.3 * ps.radius) noZ = .ok inside ∧
      selectInside { ps with index := some t } (2.0 * 1.3 * ps.radius) noZ = .ok second ∧
      booTensors ps.pos.length ngbs sph inside second = .ok out ∧
      calculateBoo P H sph ps noZ none = .ok (writeBonds (ngb2bonds ngbs), out) := by
  obtain ⟨t, t1, t2, t3, t4⟩ := makeIndex_tight hP hH he hm
  obtain ⟨ngbs, n1, n2, n3⟩ := neighbours_good hP hH (Indexed.make t1) 1.3
  obtain ⟨inside, i1, i2, i3⟩ := selectInside_sound hP hH t2 t3 t4 (1.3 * ps.radius) noZ
  obtain ⟨second, j1, -, j3⟩ := selectInside_sound hP hH t2 t3 t4 (2.0 * 1.3 * ps.radius) noZ
  obtain ⟨out, o1, -⟩ := C130_tensors (sph := sph) n2 hs i2
    (fun p hp => by obtain ⟨x, hx, -⟩ := i3 p hp; exact (List.getElem?_eq_some_iff.1 hx).1)
    (fun p hp => by obtain ⟨x, hx, -⟩ := j3 p hp; exact (List.getElem?_eq_some_iff.1 hx).1)
  refine ⟨t, ngbs, inside, second, out, t2, t3, t4, ⟨n2, fun p q => ?_⟩, i1, j1, o1, ?_⟩
  · rw [n3 p q, show 1.3 * (2 * ps.radius) = 2 * 1.3 * ps.radius by linarith]
  · unfold calculateBoo booSelections
    dsimp only
    rw [t1, ok_bind, n1, ok_bind]
    dsimp only
    rw [i1, ok_bind, j1, ok_bind, pure_eq_ok, ok_bind]
    dsimp only at o1 ⊢
    rw [o1, ok_bind]
    rfl

/-- The first run, when there is no file of bonds: the tensors are those of the neighbours at less than 1.3 diameters, the
selections are made of particles further from the sides of the smallest box that contains them than 0.65 and 1.3
diameters. The bonds are written in a file. `mn` is the smallest positive number, `mx` the largest. -/
theorem C130_first {P : RParams ℝ} {H : Heur 3 ℝ} (hP : P.Valid) (hH : H.Valid P) (hs : ∀ p q, sph p q = sph q p)
    {ps : Particles ℝ} {lo hi : Coord ℝ} (he : Extremes ps lo hi) (hm : ∀ a, P.mn ≤ hi a ∧ lo a ≤ P.mx) (noZ : Bool)
    (hsz : ps.pos.length ≤ szMod) :
    ∃ (text : List Char) (ngbs : NgbList) (inside second : List Nat) (out : BooTensors V),
      calculateBoo P H sph ps noZ none = .ok (text, out) ∧ BooNgbs ps ngbs ∧
      (∃ bonds, loadBonds (some text) = .ok bonds ∧ makeNgbListFromBonds ps.pos.length bonds = .ok ngbs) ∧
      (∀ p ∈ inside, ∃ x, ps.pos[p]? = some x ∧ FurtherThan lo hi (0.65 * (2 * ps.radius)) noZ x) ∧
      (∀ p ∈ second, ∃ x, ps.pos[p]? = some x ∧ FurtherThan lo hi (1.3 * (2 * ps.radius)) noZ x) ∧
      ∀ p, p < ps.pos.length → out.qlm[p]? = some (keptTensor ngbs sph inside p) ∧
        out.sf[p]? = some (if inside = [] ∨ p ∈ inside then mean (ownBonds ngbs sph p ++ outerBonds ngbs sph p) else 0) ∧
        out.cg[p]? = some (if second = [] ∨ p ∈ second then
          mean ((p :: rowOf ngbs p).map (keptTensor ngbs sph inside)) else 0) := by
  obtain ⟨t, ngbs, inside, second, out, t2, t3, t4, n1, i1, j1, o1, c1⟩ := firstRun (sph := sph) hP hH hs he hm noZ
  obtain ⟨inside', i1', i2, i3⟩ := selectInside_sound hP hH t2 t3 t4 (1.3 * ps.radius) noZ
  obtain ⟨second', j1', -, j3⟩ := selectInside_sound hP hH t2 t3 t4 (2.0 * 1.3 * ps.radius) noZ
  rw [i1] at i1'; rw [j1] at j1'
  cases i1'; cases j1'
  obtain ⟨out', o1', -, -, -, o2⟩ := C130_tensors (sph := sph) n1.1 hs i2
    (fun p hp => by obtain ⟨x, hx, -⟩ := i3 p hp; exact (List.getElem?_eq_some_iff.1 hx).1)
    (fun p hp => by obtain ⟨x, hx, -⟩ := j3 p hp; exact (List.getElem?_eq_some_iff.1 hx).1)
  rw [o1] at o1'
  cases o1'
  have hreload := reload n1.1 hsz
  refine ⟨_, ngbs, inside, second, out, c1, n1, hreload, ?_, ?_, o2⟩
  · rw [show 0.65 * (2 * ps.radius) = 1.3 * ps.radius by linarith]; exact i3
  · rw [show 1.3 * (2 * ps.radius) = 2.0 * 1.3 * ps.radius by linarith]; exact j3

/-! ### The next runs -/

theorem rerun_selection {ps : Particles ℝ} {lo hi : Coord ℝ} (he : Extremes ps lo hi) (h0 : ∀ a, 0 ≤ hi a) (margin : ℝ)
    (noZ : Bool) : ∃ L, selectInsideNoIndex ps margin noZ = .ok L ∧ L.Pairwise (· < ·) ∧
      ∀ j, j ∈ L ↔ ∃ x, ps.pos[j]? = some x ∧ ∀ a : Fin 3, (noZ = true → a ≠ 2) →
        lo a + margin ≤ x a ∧ x a ≤ hi a - margin :=
  C51_inside_partial ps margin noZ lo hi he.1 he.2 h0

/-- A run that finds the file of bonds of neighbours `ngbs`. -/
theorem secondRun {P : RParams ℝ} {H : Heur 3 ℝ} (hs : ∀ p q, sph p q = sph q p)
    {ps : Particles ℝ} {lo hi : Coord ℝ} (he : Extremes ps lo hi) (h0 : ∀ a, 0 ≤ hi a) (noZ : Bool)
    (h : GoodNgbs ps.pos.length ngbs) (hsz : ps.pos.length ≤ szMod) :
    ∃ (inside second : List Nat) (out : BooTensors V),
      selectInsideNoIndex ps (1.3 * ps.radius) noZ = .ok inside ∧
      selectInsideNoIndex ps (2.0 * 1.3 * ps.radius) noZ = .ok second ∧
      booTensors ps.pos.length ngbs sph inside second = .ok out ∧
      calculateBoo P H sph ps noZ (some (writeBonds (ngb2bonds ngbs))) = .ok (writeBonds (ngb2bonds ngbs), out) ∧
      ∀ p, p < ps.pos.length → out.qlm[p]? = some (keptTensor ngbs sph inside p) ∧
        out.cg[p]? = some (if second = [] ∨ p ∈ second then
          mean ((p :: rowOf ngbs p).map (keptTensor ngbs sph inside)) else 0) := by
  obtain ⟨inside, i1, i2, i3⟩ := rerun_selection he h0 (1.3 * ps.radius) noZ
  obtain ⟨second, j1, j2, j3⟩ := rerun_selection he h0 (2.0 * 1.3 * ps.radius) noZ
  obtain ⟨out, o1, -, -, -, o2⟩ := C130_tensors (sph := sph) h hs i2
    (fun p hp => by obtain ⟨x, hx, -⟩ := (i3 p).1 hp; exact (List.getElem?_eq_some_iff.1 hx).1)
    (fun p hp => by obtain ⟨x, hx, -⟩ := (j3 p).1 hp; exact (List.getElem?_eq_some_iff.1 hx).1)
  obtain ⟨bonds, b1, b2⟩ := reload h hsz
  refine ⟨inside, second, out, i1, j1, o1, ?_, fun p hp => ⟨(o2 p hp).1, (o2 p hp).2.2⟩⟩
  unfold calculateBoo booSelections
  dsimp only
  rw [b1, ok_bind, b2, ok_bind, i1, ok_bind, j1, ok_bind, pure_eq_ok, ok_bind, o1, ok_bind]
  rfl

theorem wide_selection {P : RParams ℝ} {H : Heur 3 ℝ} (hP : P.Valid) (hH : H.Valid P) {ps : Particles ℝ}
    {t : RStarIndex ℝ} (hr : RTree.Reachable P H true t) (hc : t.content.Perm (pointLeaves ps.pos)) {lo hi : Coord ℝ}
    (hB : t.getOverallBox = .ok ⟨lo, hi⟩) {margin : ℝ} (hmar : 0 < margin) (hw : ∀ a, hi a - lo a > 2 * margin)
    (hedge : ∀ x ∈ ps.pos, ∀ a, x a ≠ lo a + margin ∧ x a ≠ hi a - margin) {L L' : List Nat}
    (hL : selectInside { ps with index := some t } margin false = .ok L) (hs : L'.Pairwise (· < ·))
    (hL' : ∀ j, j ∈ L' ↔ ∃ x, ps.pos[j]? = some x ∧ ∀ a : Fin 3, (false = true → a ≠ 2) →
        lo a + margin ≤ x a ∧ x a ≤ hi a - margin) : L = L' := by
  obtain ⟨L₂, h1, h2, h3⟩ := selectInside_sound hP hH hr hc hB margin false
  rw [hL] at h1; cases h1
  refine Dyn.sorted_ext h2 hs fun j => ?_
  rw [hL']
  constructor
  · intro hj
    obtain ⟨x, hx, hf⟩ := h3 j hj
    exact ⟨x, hx, fun a ha => hf a ha (hw a)⟩
  · rintro ⟨x, hx, hin⟩
    have hst : ∀ a, lo a + margin < x a ∧ x a < hi a - margin := by
      intro a
      have h1 := hin a (by simp)
      have h2 := hedge x (List.mem_of_getElem? hx) a
      exact ⟨lt_of_le_of_ne h1.1 (Ne.symm h2.1), lt_of_le_of_ne h1.2 h2.2⟩
    exact selectInside_complete hP hH hr hc hB hL hx
      (fun a => ⟨by linarith [(hst a).1], by linarith [(hst a).2]⟩) (fun a _ _ => hst a)

/-- A second run gives the same results as the first if the sample is wider than 2.6 diameters along the three axes,
there is no wall, some coordinates are positive along each axis, and no particle is exactly at the margin. Missing: the
other samples, see `C130_thin_counterexample`. -/
theorem C130_rerun_partial {P : RParams ℝ} {H : Heur 3 ℝ} (hP : P.Valid) (hH : H.Valid P) (hs : ∀ p q, sph p q = sph q p)
    {ps : Particles ℝ} {lo hi : Coord ℝ} (he : Extremes ps lo hi) (hm : ∀ a, P.mn ≤ hi a ∧ lo a ≤ P.mx)
    (h0 : ∀ a, 0 ≤ hi a) (hsz : ps.pos.length ≤ szMod) (hrad : 0 < ps.radius)
    (hw : ∀ a, hi a - lo a > 2.6 * (2 * ps.radius))
    (hedge : ∀ x ∈ ps.pos, ∀ a, ∀ k : ℝ, k = 0.65 ∨ k = 1.3 →
      x a ≠ lo a + k * (2 * ps.radius) ∧ x a ≠ hi a - k * (2 * ps.radius)) :
    ∃ (text : List Char) (out : BooTensors V), calculateBoo P H sph ps false none = .ok (text, out) ∧
      calculateBoo P H sph ps false (some text) = .ok (text, out) := by
  obtain ⟨t, ngbs, inside, second, out, t2, t3, t4, n1, i1, j1, o1, c1⟩ := firstRun (sph := sph) hP hH hs he hm false
  obtain ⟨inside', second', out', i1', j1', o1', c1', -⟩ := secondRun (P := P) (H := H) hs he h0 false n1.1 hsz
  obtain ⟨N, k1, k2, k3⟩ := rerun_selection he h0 (1.3 * ps.radius) false
  obtain ⟨N2, l1, l2, l3⟩ := rerun_selection he h0 (2.0 * 1.3 * ps.radius) false
  rw [i1'] at k1; cases k1
  rw [j1'] at l1; cases l1
  have e1 : inside = inside' := by
    refine wide_selection hP hH t2 t3 t4 (by linarith) (fun a => by linarith [hw a]) ?_ i1 k2 k3
    intro x hx a
    have := hedge x hx a 0.65 (.inl rfl)
    rwa [show 0.65 * (2 * ps.radius) = 1.3 * ps.radius by linarith] at this
  have e2 : second = second' := by
    refine wide_selection hP hH t2 t3 t4 (by linarith) (fun a => by linarith [hw a]) ?_ j1 l2 l3
    intro x hx a
    have := hedge x hx a 1.3 (.inr rfl)
    rwa [show 1.3 * (2 * ps.radius) = 2.0 * 1.3 * ps.radius by linarith] at this
  subst e1; subst e2
  rw [o1] at o1'; cases o1'
  exact ⟨_, out, c1, c1'⟩

/-- In a sample thinner than 1.3 diameters along an axis, the first run ignores this axis and gives no tensor to the
particles at the other sides, and the second run, with the same arguments, gives one to all the particles. -/
theorem C130_thin_counterexample {P : RParams ℝ} {H : Heur 3 ℝ} (hP : P.Valid) (hH : H.Valid P)
    (hs : ∀ p q, sph p q = sph q p) {ps : Particles ℝ} {lo hi : Coord ℝ} (he : Extremes ps lo hi)
    (hm : ∀ a, P.mn ≤ hi a ∧ lo a ≤ P.mx) (h0 : ∀ a, 0 ≤ hi a) (hsz : ps.pos.length ≤ szMod) (hrad : 0 < ps.radius)
    {thin : Fin 3} (hthin : hi thin - lo thin < 1.3 * (2 * ps.radius)) {p q : Nat} {x y : Coord ℝ}
    (hp : ps.pos[p]? = some x) (hin : ∀ a, lo a < x a ∧ x a < hi a)
    (hmid : ∀ a, hi a - lo a > 1.3 * (2 * ps.radius) →
      lo a + 0.65 * (2 * ps.radius) < x a ∧ x a < hi a - 0.65 * (2 * ps.radius))
    (hq : ps.pos[q]? = some y) {side : Fin 3} (hwide : hi side - lo side > 1.3 * (2 * ps.radius)) (hy : y side = lo side) :
    ∃ (text : List Char) (ngbs : NgbList) (out out' : BooTensors V), BooNgbs ps ngbs ∧
      calculateBoo P H sph ps false none = .ok (text, out) ∧ out.qlm[q]? = some 0 ∧
      calculateBoo P H sph ps false (some text) = .ok (text, out') ∧
      out'.qlm[q]? = some (mean ((rowOf ngbs q).map (fun r => sph q r))) := by
  obtain ⟨t, ngbs, inside, second, out, t2, t3, t4, n1, i1, j1, o1, c1⟩ := firstRun (sph := sph) hP hH hs he hm false
  obtain ⟨inside', second', out', i1', j1', o1', c1', o2'⟩ := secondRun (P := P) (H := H) hs he h0 false n1.1 hsz
  obtain ⟨N, k1, k2, k3⟩ := rerun_selection he h0 (1.3 * ps.radius) false
  rw [i1'] at k1; cases k1
  obtain ⟨L, l1, l2, l3⟩ := selectInside_sound hP hH t2 t3 t4 (1.3 * ps.radius) false
  rw [i1] at l1; cases l1
  obtain ⟨L2, m1, -, m3⟩ := selectInside_sound hP hH t2 t3 t4 (2.0 * 1.3 * ps.radius) false
  rw [j1] at m1; cases m1
  have hql : q < ps.pos.length := (List.getElem?_eq_some_iff.1 hq).1
  refine ⟨_, ngbs, out, out', n1, c1, ?_, c1', ?_⟩
  · obtain ⟨out₂, o3, -, -, -, o4⟩ := C130_tensors (sph := sph) n1.1 hs l2
      (fun p hp => by obtain ⟨x, hx, -⟩ := l3 p hp; exact (List.getElem?_eq_some_iff.1 hx).1)
      (fun p hp => by obtain ⟨x, hx, -⟩ := m3 p hp; exact (List.getElem?_eq_some_iff.1 hx).1)
    rw [o1] at o3; cases o3
    rw [(o4 q hql).1]
    unfold keptTensor
    rw [if_neg]
    rintro (e | e)
    · have : p ∈ inside := selectInside_complete hP hH t2 t3 t4 i1 hp hin (fun a _ ha => by
        have := hmid a (by linarith)
        constructor <;> linarith [this.1, this.2])
      rw [e] at this
      cases this
    · obtain ⟨z, hz, hf⟩ := l3 q e
      rw [hq] at hz; cases hz
      have := (hf side (by simp) (by linarith)).1
      rw [hy] at this
      linarith
  · rw [(o2' q hql).1]
    have hnil : inside' = [] := by
      rw [List.eq_nil_iff_forall_not_mem]
      intro j hj
      obtain ⟨z, -, hz⟩ := (k3 j).1 hj
      have := hz thin (by simp)
      linarith [this.1, this.2]
    unfold keptTensor
    rw [if_pos (.inl hnil)]

/-! ### Witnesses -/

/-- Two particles, of radius 1 or 2. -/
def twoAt (r : ℝ) : Particles ℝ := ⟨[fun _ => 0, fun _ => 2], ⟨fun _ => 0, fun _ => 0⟩, r, none⟩

theorem twoAt_extremes (r : ℝ) : Extremes (twoAt r) (fun _ => 0) (fun _ => 2) := by
  constructor <;> intro a <;> simp [twoAt]

/-- A run with another radius keeps the bonds of the first: two particles of radius 2 at a distance of less than 1.3
diameters, bonded, have no tensor if the first run was with a radius of 1. -/
theorem C130_stale_counterexample {P : RParams ℝ} {H : Heur 3 ℝ} (hP : P.Valid) (hH : H.Valid P)
    (hm : P.mn ≤ 2 ∧ 0 ≤ P.mx) (hs : ∀ p q, sph p q = sph q p) :
    ∃ (text : List Char) (out out' : BooTensors V), calculateBoo P H sph (twoAt 1) false none = .ok (text, out) ∧
      calculateBoo P H sph (twoAt 2) false (some text) = .ok (text, out') ∧ out'.qlm[0]? = some 0 ∧
      BooNgbs (twoAt 2) [[1], [0]] := by
  obtain ⟨t, ngbs, inside, second, out, t2, t3, t4, n1, i1, j1, o1, c1⟩ := firstRun (sph := sph) hP hH hs
    (twoAt_extremes 1) (fun _ => hm) false
  have hgood : GoodNgbs (twoAt 2).pos.length ngbs := n1.1
  obtain ⟨inside', second', out', i1', j1', o1', c1', o2'⟩ := secondRun (P := P) (H := H) hs (twoAt_extremes 2)
    (fun _ => by norm_num) false hgood (by simp [twoAt, szMod])
  refine ⟨_, out, out', c1, c1', ?_, ?_⟩
  · rw [(o2' 0 (by simp [twoAt])).1]
    have : rowOf ngbs 0 = [] := by
      rw [List.eq_nil_iff_forall_not_mem]
      intro q hq
      obtain ⟨hne, x, y, hx, hy, hn⟩ := (n1.2 0 q).1 (Boo.mem_rowOf.1 hq)
      match q, hy with
      | 0, _ => exact hne rfl
      | 1, hy =>
        simp [twoAt] at hx hy
        subst hx; subst hy
        have := hn.2
        simp only [sqDist, twoAt] at this
        norm_num at this
      | q + 2, hy => simp [twoAt] at hy
    unfold keptTensor
    rw [this]
    simp [Boo.mean_nil]
  · have hN : ∀ p q, Ngb [[1], [0]] p q ↔ (p = 0 ∧ q = 1) ∨ (p = 1 ∧ q = 0) := by
      intro p q
      constructor
      · rintro ⟨row, hr, hq⟩
        match p, hr with
        | 0, hr => simp at hr; subst hr; simp at hq; exact .inl ⟨rfl, hq⟩
        | 1, hr => simp at hr; subst hr; simp at hq; exact .inr ⟨rfl, hq⟩
        | p + 2, hr => simp at hr
      · rintro (⟨rfl, rfl⟩ | ⟨rfl, rfl⟩)
        · exact ⟨[1], rfl, by simp⟩
        · exact ⟨[0], rfl, by simp⟩
    refine ⟨⟨rfl, by simp, ?_, ?_⟩, ?_⟩
    · intro p q h; rw [hN] at h ⊢; omega
    · intro p h; rw [hN] at h; omega
    · intro p q
      rw [hN]
      constructor
      · rintro (⟨rfl, rfl⟩ | ⟨rfl, rfl⟩)
        · refine ⟨by omega, _, _, rfl, rfl, ?_, ?_⟩ <;> norm_num [twoAt, sqDist]
        · refine ⟨by omega, _, _, rfl, rfl, ?_, ?_⟩ <;> norm_num [twoAt, sqDist]
      · rintro ⟨hne, x, y, hx, hy, -⟩
        have h1 : p < 2 := (List.getElem?_eq_some_iff.1 hx).1
        have h2 : q < 2 := (List.getElem?_eq_some_iff.1 hy).1
        omega

/-- Two particles in the corners of a box of 10 radii, and two bonded ones near a side. -/
noncomputable def nearSide : Particles ℝ :=
  ⟨[fun _ => 0, fun _ => 10, fun a => if a = 0 then 2.65 else 5, fun a => if a = 0 then 1.2 else 5],
    ⟨fun _ => 0, fun _ => 0⟩, 1, none⟩

theorem nearSide_extremes : Extremes nearSide (fun _ => 0) (fun _ => 10) := by
  constructor <;> intro a <;> simp only [nearSide, List.mem_cons, List.not_mem_nil, or_false, exists_eq_or_imp, forall_eq_or_imp,
    exists_eq_left, forall_eq] <;> (by_cases ha : a = 0) <;> simp [ha] <;> norm_num

/-- Particle 2 is far enough from the side, but its only neighbour is not: the null tensor of the neighbour is averaged
in, the coarse grained tensor is half of what it is for both particles. -/
theorem C130_null_counterexample {P : RParams ℝ} {H : Heur 3 ℝ} (hP : P.Valid) (hH : H.Valid P)
    (hm : P.mn ≤ 10 ∧ 0 ≤ P.mx) (hs : ∀ p q, sph p q = sph q p) :
    ∃ (text : List Char) (ngbs : NgbList) (out : BooTensors V), calculateBoo P H sph nearSide false none = .ok (text, out) ∧
      calculateBoo P H sph nearSide false (some text) = .ok (text, out) ∧
      BooNgbs nearSide ngbs ∧ rowOf ngbs 2 = [3] ∧ rowOf ngbs 3 = [2] ∧ out.cg[2]? = some ((1 / 2 : ℝ) • sph 2 3) := by
  obtain ⟨t, ngbs, inside, second, out, t2, t3, t4, n1, i1, j1, o1, c1⟩ := firstRun (sph := sph) hP hH hs
    nearSide_extremes (fun _ => hm) false
  obtain ⟨inside', second', out', i1', j1', o1', c1', o2'⟩ := secondRun (P := P) (H := H) hs nearSide_extremes
    (fun _ => by norm_num) false n1.1 (by simp [nearSide, szMod])
  obtain ⟨text, out₂, r1, r2⟩ := C130_rerun_partial (sph := sph) hP hH hs nearSide_extremes (fun _ => hm)
    (fun _ => by norm_num) (by simp [nearSide, szMod]) (by norm_num [nearSide]) (fun a => by norm_num [nearSide]) (by
      intro x hx a k hk
      simp only [nearSide, List.mem_cons, List.not_mem_nil, or_false] at hx
      rcases hk with rfl | rfl <;> rcases hx with rfl | rfl | rfl | rfl <;> (by_cases ha : a = 0) <;>
        norm_num [nearSide, ha])
  rw [c1] at r1
  cases r1
  rw [c1'] at r2
  cases r2
  obtain ⟨N, k1, k2, k3⟩ := rerun_selection nearSide_extremes (fun _ => by norm_num) (1.3 * nearSide.radius) false
  rw [i1'] at k1; cases k1
  obtain ⟨N2, l1, l2, l3⟩ := rerun_selection nearSide_extremes (fun _ => by norm_num) (2.0 * 1.3 * nearSide.radius) false
  rw [j1'] at l1; cases l1
  have hrow : ∀ p q, q ∈ rowOf ngbs p ↔ (p = 2 ∧ q = 3) ∨ (p = 3 ∧ q = 2) := by
    intro p q
    rw [Boo.mem_rowOf, n1.2]
    constructor
    · rintro ⟨hne, x, y, hx, hy, hn⟩
      have h1 : p < 4 := (List.getElem?_eq_some_iff.1 hx).1
      have h2 : q < 4 := (List.getElem?_eq_some_iff.1 hy).1
      by_contra hc
      have hd := hn.2
      match p, q, h1, h2 with
      | 0, 0, _, _ | 1, 1, _, _ | 2, 2, _, _ | 3, 3, _, _ => exact hne rfl
      | 2, 3, _, _ | 3, 2, _, _ => exact hc (by simp)
      | 0, 1, _, _ | 0, 2, _, _ | 0, 3, _, _ | 1, 0, _, _ | 1, 2, _, _ | 1, 3, _, _ | 2, 0, _, _ | 2, 1, _, _ | 3, 0, _, _
      | 3, 1, _, _ =>
        simp [nearSide] at hx hy
        subst hx; subst hy
        norm_num [sqDist, nearSide, show ¬ ((2 : Fin 3) = 0) by decide] at hd
    · rintro (⟨rfl, rfl⟩ | ⟨rfl, rfl⟩)
      · refine ⟨by omega, _, _, rfl, rfl, ?_, ?_⟩ <;> norm_num [nearSide, sqDist, show ¬ ((2 : Fin 3) = 0) by decide]
      · refine ⟨by omega, _, _, rfl, rfl, ?_, ?_⟩ <;> norm_num [nearSide, sqDist, show ¬ ((2 : Fin 3) = 0) by decide]
  have hsorted : ∀ p, (rowOf ngbs p).Pairwise (· < ·) := by
    intro p
    unfold rowOf
    cases h : ngbs[p]? with
    | none => simp
    | some row => exact n1.1.sorted row (List.mem_of_getElem? h)
  have e2 : rowOf ngbs 2 = [3] := Dyn.sorted_ext (hsorted 2) (by simp) (fun q => by rw [hrow]; simp)
  have e3 : rowOf ngbs 3 = [2] := Dyn.sorted_ext (hsorted 3) (by simp) (fun q => by rw [hrow]; simp)
  refine ⟨_, ngbs, out, c1, c1', n1, e2, e3, ?_⟩
  have m2 : 2 ∈ second' := (l3 2).2 ⟨_, rfl, fun a _ => by by_cases ha : a = 0 <;> norm_num [nearSide, ha]⟩
  have m2' : 2 ∈ inside' := (k3 2).2 ⟨_, rfl, fun a _ => by by_cases ha : a = 0 <;> norm_num [nearSide, ha]⟩
  have m3 : 3 ∉ inside' := by
    intro h
    obtain ⟨x, hx, h⟩ := (k3 3).1 h
    simp [nearSide] at hx
    subst hx
    have := (h 0 (by simp)).1
    norm_num [nearSide] at this
  rw [(o2' 2 (by simp [nearSide])).2, if_pos (.inr m2), e2]
  have q2 : keptTensor ngbs sph inside' 2 = sph 2 3 := by
    unfold keptTensor
    rw [if_pos (.inr m2'), e2]
    simp [mean]
  have q3 : keptTensor ngbs sph inside' 3 = 0 := by
    unfold keptTensor
    rw [if_neg]
    rintro (e | e)
    · rw [e] at m2'; cases m2'
    · exact m3 e
  simp [q2, q3, mean]

example : ∃ (P : RParams ℝ) (H : Heur 3 ℝ), P.Valid ∧ H.Valid P ∧ P.mn ≤ 2 ∧ 0 ≤ P.mx := by
  have hP := stdParams_valid (1000 : ℝ) (1 / 1000)
  exact ⟨_, _, hP, exHeur_valid (d := 3) hP, by norm_num [stdParams], by norm_num [stdParams]⟩

/-- The hypotheses of `C130_thin_counterexample` hold for three particles of radius 1 in a box of 10 by 10 by 2. -/
example : ∃ (ps : Particles ℝ) (lo hi x y : Coord ℝ), Extremes ps lo hi ∧ (∀ a, 2 ≤ hi a ∧ lo a = 0) ∧ ps.radius = 1 ∧
    hi 2 - lo 2 < 1.3 * (2 * ps.radius) ∧ ps.pos[2]? = some x ∧ (∀ a, lo a < x a ∧ x a < hi a) ∧
    (∀ a, hi a - lo a > 1.3 * (2 * ps.radius) →
      lo a + 0.65 * (2 * ps.radius) < x a ∧ x a < hi a - 0.65 * (2 * ps.radius)) ∧
    ps.pos[0]? = some y ∧ hi 0 - lo 0 > 1.3 * (2 * ps.radius) ∧ y 0 = lo 0 := by
  refine ⟨⟨[fun _ => 0, fun a => if a = 2 then 2 else 10, fun a => if a = 2 then 1 else 5], ⟨fun _ => 0, fun _ => 0⟩, 1, none⟩,
    fun _ => 0, fun a => if a = 2 then 2 else 10, _, _, ?_, ?_, rfl, ?_, rfl, ?_, ?_, rfl, ?_, rfl⟩
  · constructor <;> intro a <;> (by_cases ha : a = 2) <;> simp [ha] <;> norm_num
  · intro a; by_cases ha : a = 2 <;> norm_num [ha]
  · norm_num
  · intro a; by_cases ha : a = 2 <;> norm_num [ha]
  · intro a; by_cases ha : a = 2 <;> norm_num [ha]
  · norm_num [show ¬ ((0 : Fin 3) = 2) by decide]

/-! ### `linkboo` -/

theorem setDifferenceAux_spec : ∀ (fuel : Nat) (l l' : List Nat), l.length + l'.length ≤ fuel → l.Pairwise (· < ·) →
    l'.Pairwise (· < ·) → setDifferenceAux fuel l l' = l.filter (fun x => decide (x ∉ l')) := by
  intro fuel
  induction fuel with
  | zero =>
    intro l l' h _ _
    have : l = [] := List.eq_nil_of_length_eq_zero (by omega)
    subst this; simp [setDifferenceAux]
  | succ fuel ih =>
    intro l l' h hl hl'
    match l, l' with
    | [], _ => simp [setDifferenceAux]
    | a :: l, [] => simp [setDifferenceAux]
    | a :: l, b :: l' =>
      simp only [List.length_cons] at h
      have ha := List.pairwise_cons.1 hl
      have hb := List.pairwise_cons.1 hl'
      unfold setDifferenceAux
      by_cases h1 : a < b
      · rw [if_pos h1, ih l (b :: l') (by simp; omega) ha.2 hl', List.filter_cons_of_pos]
        simp only [List.mem_cons, not_or, decide_eq_true_eq]
        refine ⟨by omega, fun hm => ?_⟩
        have := hb.1 a hm
        omega
      · by_cases h2 : b < a
        · rw [if_neg h1, if_pos h2, ih (a :: l) l' (by simp; omega) hl hb.2]
          apply List.filter_congr
          intro x hx
          have hxb : x ≠ b := by
            rcases List.mem_cons.1 hx with rfl | hx
            · omega
            · have := ha.1 x hx; omega
          simp [hxb]
        · have : a = b := by omega
          subst this
          rw [if_neg h1, if_neg h2, ih l l' (by omega) ha.2 hb.2, List.filter_cons_of_neg (by simp)]
          apply List.filter_congr
          intro x hx
          have := ha.1 x hx
          have hxb : x ≠ a := by omega
          simp [hxb]

theorem setDifference_range {l : List Nat} (hl : l.Pairwise (· < ·)) :
    (setDifference (List.range n) l).Pairwise (· < ·) ∧ ∀ p, p ∈ setDifference (List.range n) l ↔ p < n ∧ p ∉ l := by
  unfold setDifference
  rw [setDifferenceAux_spec _ _ _ (le_refl _) List.pairwise_lt_range hl]
  exact ⟨List.pairwise_lt_range.filter _, fun p => by simp⟩

/-- The tensors of `linkboo` for given neighbours and selections. -/
theorem linkbooTensors_spec (h : GoodNgbs n ngbs) (hs : ∀ p q, sph p q = sph q p) {inside second : List Nat}
    (hi : inside.Pairwise (· < ·)) (hin : ∀ p ∈ inside, p < n) (h2 : ∀ p ∈ second, p < n) :
    ∃ out, linkbooTensors n ngbs sph inside second = .ok out ∧ out.qlm.length = n ∧ out.cg.length = n ∧
      ∀ p, p < n →
        out.qlm[p]? = some (if p ∈ inside then mean ((rowOf ngbs p).map (fun q => sph p q)) else 0) ∧
        out.cg[p]? = some (if p ∈ second then mean ((p :: rowOf ngbs p).map fun q =>
          if q ∈ inside then mean ((rowOf ngbs q).map (fun r => sph q r)) else 0) else 0) := by
  obtain ⟨b, s, e1, -, e2, e3, e4, -⟩ := Boo.C57_surface h sph hs
  obtain ⟨b', f1, f2, f3, f4⟩ := Rdf.C59_remove_outside (0 : V) n inside b hi hin e2
  obtain ⟨s', g1, -⟩ := Rdf.C59_remove_outside (0 : V) n inside s hi hin e3
  obtain ⟨cg, c1, c2, c3, c4⟩ := Boo.C57_coarse_grain_selection h _ h2 b' [] f2
  have hq : ∀ p, p < n → b'[p]? = some (if p ∈ inside then mean ((rowOf ngbs p).map (fun q => sph p q)) else 0) := by
    intro p hp
    by_cases hpi : p ∈ inside
    · rw [f3 p hpi, if_pos hpi]
      obtain ⟨v, hv, hb⟩ := e4 p hp
      rw [(Boo.C57_getBOO h sph p hp).1] at hb
      cases hb
      exact hv
    · rw [f4 p hp hpi, if_neg hpi]
  refine ⟨⟨b', s', cg⟩, ?_, f2, c2, ?_⟩
  · unfold linkbooTensors
    rw [e1, ok_bind]
    dsimp only
    rw [f1, ok_bind, g1, ok_bind, c1, ok_bind]
    rfl
  · intro p hp
    refine ⟨hq p hp, ?_⟩
    have hprev : ∀ q, q < n → prev b' q = if q ∈ inside then mean ((rowOf ngbs q).map (fun r => sph q r)) else 0 := by
      intro q hql
      unfold prev
      rw [hq q hql]
      rfl
    by_cases hps : p ∈ second
    · rw [if_pos hps]
      obtain ⟨v, hv, hc⟩ := c3 p hps
      rw [(Boo.C57_coarse_grain h b' f2 p hp).1] at hc
      cases hc
      rw [hv, List.map_cons, hprev p hp, List.map_congr_left (fun q hql => hprev q (h.lt hql).2)]
    · rw [if_neg hps]
      simpa using c4 p hp hps

/-- With the outsides that `cgVoro` finds and its neighbours, `linkboo` gives a tensor to the particles that do not touch a
wall, and a coarse grained one, the mean of the tensors of the particle and its neighbours, to those that moreover have no
neighbour at a wall. -/
theorem C131_voro {cells : List (List Int)} (hc : CellsOk cells) (hn : cells.length ≤ szMod)
    (hne : ∀ row ∈ cells, row ≠ []) (h : GoodNgbs cells.length ngbs) (hT : ∀ p q, Ngb ngbs p q ↔ Touch cells p q)
    (hs : ∀ p q, sph p q = sph q p) [DecidablePred (AtWall cells)]
    [DecidablePred fun p => AtWall cells p ∨ ∃ q, Touch cells p q ∧ AtWall cells q] :
    ∃ outside outside2 out, getOutsides cells = .ok (outside, outside2) ∧
      linkbooVoro cells.length ngbs sph outside outside2 = .ok out ∧
      ∀ p, p < cells.length →
        out.qlm[p]? = some (if AtWall cells p then 0 else mean ((rowOf ngbs p).map (fun q => sph p q))) ∧
        out.cg[p]? = some (if AtWall cells p ∨ ∃ q, Touch cells p q ∧ AtWall cells q then 0
          else mean ((p :: rowOf ngbs p).map fun q => mean ((rowOf ngbs q).map (fun r => sph q r)))) := by
  obtain ⟨o, s, e1, e2, e3, e4, e5⟩ := C109_outsides_partial hc hn hne
  obtain ⟨f1, f2⟩ := setDifference_range (n := cells.length) e2
  obtain ⟨g1, g2⟩ := setDifference_range (n := cells.length) e3
  obtain ⟨out, o1, -, -, o2⟩ := linkbooTensors_spec (sph := sph) h hs f1 (fun p hp => ((f2 p).1 hp).1)
    (fun p hp => ((g2 p).1 hp).1)
  refine ⟨o, s, out, e1, o1, ?_⟩
  intro p hp
  obtain ⟨a1, a2⟩ := o2 p hp
  constructor
  · rw [a1]
    by_cases hw : AtWall cells p
    · rw [if_pos hw, if_neg (fun hm => ((f2 p).1 hm).2 ((e4 p).2 hw))]
    · rw [if_neg hw, if_pos ((f2 p).2 ⟨hp, fun hm => hw ((e4 p).1 hm)⟩)]
  · rw [a2]
    by_cases hw : AtWall cells p ∨ ∃ q, Touch cells p q ∧ AtWall cells q
    · rw [if_pos hw, if_neg (fun hm => ((g2 p).1 hm).2 ((e5 p).2 hw))]
    · rw [if_neg hw, if_pos ((g2 p).2 ⟨hp, fun hm => hw ((e5 p).1 hm)⟩)]
      congr 2
      apply List.map_congr_left
      intro q hq
      have hq' : q < cells.length ∧ ¬ AtWall cells q := by
        rcases List.mem_cons.1 hq with rfl | hq
        · exact ⟨hp, fun hm => hw (.inl hm)⟩
        · refine ⟨(h.lt hq).2, fun hm => hw (.inr ⟨q, (hT p q).1 (Boo.mem_rowOf.1 hq), hm⟩)⟩
      rw [if_pos ((f2 q).2 ⟨hq'.1, fun hm => hq'.2 ((e4 q).1 hm)⟩)]

/-- The outsides must be sorted: from 1 0, the particles 0 and 1 of three, the particle 0 is kept. -/
theorem C131_unsorted_counterexample : setDifference (List.range 3) [1, 0] = [0, 2] := by decide

/-- Without outsides, in a sample whose particles all have the same coordinate along an axis (two dimensions), `linkboo`
gives no tensor at all. -/
theorem C131_flat_counterexample {P : RParams ℝ} {H : Heur 3 ℝ} (hP : P.Valid) (hH : H.Valid P)
    (hs : ∀ p q, sph p q = sph q p) {ps ps' : Particles ℝ} {lo hi : Coord ℝ} (he : Extremes ps lo hi)
    (hm : ∀ a, P.mn ≤ hi a ∧ lo a ≤ P.mx) (hmake : makeRTreeIndex P H ps = .ok ps') {bondLength : ℝ} (hb : 0 ≤ bondLength)
    {flat : Fin 3} (hflat : lo flat = hi flat) :
    ∃ out : BooTensors V, linkbooStep sph ps' bondLength = .ok out ∧
      ∀ p, p < ps.pos.length → out.qlm[p]? = some 0 ∧ out.cg[p]? = some 0 := by
  obtain ⟨t, t1, t2, t3, t4⟩ := makeIndex_tight hP hH he hm
  rw [hmake] at t1
  cases t1
  obtain ⟨ngbs, n1, n2, -⟩ := neighbours_good hP hH (Indexed.make hmake) bondLength
  have hsel : ∀ m : ℝ, 0 ≤ m → selectInside { ps with index := some t } m false = .ok [] := fun m h =>
    C18_flat_counterexample _ t4 flat hflat m h false
  obtain ⟨out, o1, -, -, o2⟩ := linkbooTensors_spec (sph := sph) (inside := []) (second := []) n2 hs (by simp) (by simp) (by simp)
  refine ⟨out, ?_, fun p hp => by simpa using o2 p hp⟩
  unfold linkbooStep
  rw [n1, ok_bind, hsel _ hb, ok_bind, hsel _ (by positivity), ok_bind, o1]

/-- The margin of `linkboo` is half the bond length, which is given in diameters: any particle between one and two times
`bondLength` from a side of the box is selected, though it may have neighbours on the other side, that are not seen. -/
theorem C131_margin_counterexample {P : RParams ℝ} {H : Heur 3 ℝ} (hP : P.Valid) (hH : H.Valid P)
    {ps ps' : Particles ℝ} {lo hi : Coord ℝ} (he : Extremes ps lo hi)
    (hm : ∀ a, P.mn ≤ hi a ∧ lo a ≤ P.mx) (hmake : makeRTreeIndex P H ps = .ok ps') (hrad : ps.radius = 1)
    {bondLength : ℝ} (hb : 0 < bondLength) {p : Nat} {x : Coord ℝ} (hp : ps.pos[p]? = some x)
    (hin : ∀ a, lo a + bondLength < x a ∧ x a < hi a - bondLength) (hnear : x 0 < lo 0 + 2 * bondLength) :
    ∃ inside, selectInside ps' bondLength false = .ok inside ∧ p ∈ inside ∧
      ∃ y : Coord ℝ, y 0 < lo 0 ∧ NearerThan x y (2 * bondLength * ps.radius) := by
  obtain ⟨t, t1, t2, t3, t4⟩ := makeIndex_tight hP hH he hm
  rw [hmake] at t1
  cases t1
  obtain ⟨L, l1, -, -⟩ := selectInside_sound hP hH t2 t3 t4 bondLength false
  refine ⟨L, l1, selectInside_complete hP hH t2 t3 t4 l1 hp
    (fun a => ⟨by linarith [(hin a).1], by linarith [(hin a).2]⟩) (fun a _ _ => hin a),
    fun a => if a = 0 then (x 0 - 2 * bondLength + lo 0) / 2 else x a, ?_, ?_, ?_⟩
  · simp only [if_true]; linarith
  · rw [hrad]; linarith
  · have := (hin 0).1
    simp only [sqDist, if_true, hrad, if_neg (show ¬ ((1 : Fin 3) = 0) by decide),
      if_neg (show ¬ ((2 : Fin 3) = 0) by decide), sub_self]
    nlinarith

example : ∃ (x : Coord ℝ), ∀ a, (0 : ℝ) + 1.3 < x a ∧ x a < 10 - 1.3 ∧ x a < 0 + 2 * 1.3 :=
  ⟨fun _ => 2, fun _ => by norm_num⟩

/-! ### Names of the files -/

/-- The output of `boo` is beside its input, `_space` being inserted before the time, when `_t` is in the name of the file.
`m` and `e` are what follows `_t`, before and after the last dot. Missing: the other names, see
`C130_directory_counterexample`. -/
theorem C130_names_partial (h m e : List Char) (he : '.' ∉ e)
    (hl : ¬ ['_', 't'] <:+: (h ++ ['_', 't'] ++ (m ++ ['.'] ++ e)).drop (h.length + 1)) :
    booOwnName (h ++ ['_', 't'] ++ (m ++ ['.'] ++ e)) = h ++ ['_', 't'] ++ m ++ ['.', 'q', 'l', 'm'] ∧
    booSpaceName (h ++ ['_', 't'] ++ (m ++ ['.'] ++ e)) =
      h ++ ['_', 's', 'p', 'a', 'c', 'e'] ++ ['_', 't'] ++ m ++ ['.', 'q', 'l', 'm'] := by
  have h1 := Files.rfind_last h ['_', 't'] (m ++ ['.'] ++ e) hl
  have e1 : h ++ ['_', 't'] ++ (m ++ ['.'] ++ e) = (h ++ ['_', 't'] ++ m) ++ ['.'] ++ e := by simp
  have h2 := Files.rfind_last (h ++ ['_', 't'] ++ m) ['.'] e (by
    rw [show (h ++ ['_', 't'] ++ m ++ ['.'] ++ e).drop ((h ++ ['_', 't'] ++ m).length + 1) = e by
      rw [List.drop_left' (by simp; omega)]]
    rintro ⟨a, b, hab⟩
    exact he (by rw [← hab]; simp))
  rw [← e1] at h2
  have h3 : booNames (h ++ ['_', 't'] ++ (m ++ ['.'] ++ e)) = (h ++ ['_', 't'] ++ m, h, ['_', 't'] ++ m) := by
    generalize hF : h ++ ['_', 't'] ++ (m ++ ['.'] ++ e) = F at h1 h2 e1
    have k1 : F.take h.length = h := by rw [← hF, List.append_assoc, List.take_left' rfl]
    have k2 : F.take (h ++ ['_', 't'] ++ m).length = h ++ ['_', 't'] ++ m := by
      rw [e1, List.append_assoc (h ++ ['_', 't'] ++ m), List.take_left' rfl]
    have k3 : F.drop h.length = (['_', 't'] ++ m) ++ (['.'] ++ e) := by
      rw [← hF, List.append_assoc, List.drop_left' rfl]; simp
    unfold booNames
    simp only [h1, h2, k1, k2, k3]
    rw [if_pos (by simp), List.take_left' (by simp)]
  unfold booOwnName booSpaceName
  rw [h3]
  exact ⟨rfl, by simp⟩

/-- When `_t` is in the name of a folder, the output is in another folder, that does not exist. Without `_t` at all the
extension is kept within the name. -/
theorem C130_directory_counterexample :
    booSpaceName ['r', 'u', 'n', '_', 't', 'e', 's', 't', '/', 'p', '.', 'd', 'a', 't'] =
      ['r', 'u', 'n', '_', 's', 'p', 'a', 'c', 'e', '_', 't', 'e', 's', 't', '/', 'p', '.', 'q', 'l', 'm'] ∧
    booSpaceName ['p', '.', 'd', 'a', 't'] = ['p', '.', 'd', 'a', 't', '_', 's', 'p', 'a', 'c', 'e', '.', 'q', 'l', 'm'] := by
  decide +kernel

example : ¬ ['_', 't'] <:+: (['p'] ++ ['_', 't'] ++ (['0', '1'] ++ ['.'] ++ ['d', 'a', 't'])).drop 2 := by decide

end Mains
end Colloids
