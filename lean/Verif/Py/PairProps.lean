import Verif.Py.PairModel
import Verif.RStar.Props
import Verif.RStar.Heur
import Verif.Index.Lemmas
import Verif.CommonLemmas
import Verif.Mains.LostProps
import Mathlib.Tactic

/-! # C218-C219: the pairs found by python/colloids/particles.py:430-610, 680-800 -/

namespace Colloids
namespace Py
namespace Pairs

open Bonds (sqd)
open Mains (mapM_spec)
variable {d : Nat}

theorem abs_le_sqrt_sqd (p q : Fin d → ℝ) (a : Fin d) : |p a - q a| ≤ Real.sqrt (sqd p q) := by
  refine Real.abs_le_sqrt ?_
  exact Finset.single_le_sum (f := fun a => (p a - q a) ^ 2) (fun a _ => sq_nonneg _) (Finset.mem_univ a)

theorem sqd_nonneg (p q : Fin d → ℝ) : 0 ≤ sqd p q := Finset.sum_nonneg fun a _ => sq_nonneg _

theorem sqd_comm (p q : Fin d → ℝ) : sqd p q = sqd q p := Finset.sum_congr rfl fun a _ => by ring

/-- What a query of the tree gives: the numbers of the boxes that overlap, in order. -/
theorem overlapping_eq {P : RParams ℝ} {H : Heur d ℝ} (hP : P.Valid) (hH : H.Valid P) (boxes : List (Box d ℝ)) :
    ∃ t, treeOf P H boxes = .ok t ∧ ∀ q : Box d ℝ, (overlapping t q).Pairwise (· < ·) ∧
      ∀ j, j ∈ overlapping t q ↔ ∃ b, boxes[j]? = some b ∧ q.overlaps b = true := by
  obtain ⟨t, h1, h2, -⟩ := C12_insertions hP hH (boxes.zipIdx.map fun x => (⟨x.1, x.2⟩ : Leaf d ℝ Nat))
  refine ⟨t, h1, fun q => ⟨sortUnique_sorted _, fun j => ?_⟩⟩
  have hr : RTree.Reachable P H false t := RTree.Reachable.insertAll _ .empty h1
  rw [overlapping, mem_sortUnique, C13_overlapping hP hH hr q, List.mem_map]
  constructor
  · rintro ⟨l, hl, rfl⟩
    rw [List.mem_filter, h2.mem_iff, List.mem_map] at hl
    obtain ⟨⟨x, hx, rfl⟩, ho⟩ := hl
    rw [List.mem_zipIdx_iff_getElem?] at hx
    exact ⟨x.1, hx, ho⟩
  · rintro ⟨b, hb, ho⟩
    refine ⟨⟨b, j⟩, ?_, rfl⟩
    rw [List.mem_filter, h2.mem_iff, List.mem_map]
    exact ⟨⟨(b, j), List.mem_zipIdx_iff_getElem?.2 hb, rfl⟩, ho⟩

theorem ballBoxes_eq {pos : List (Fin d → ℝ)} {radii : List ℝ} (hl : radii.length = pos.length) (maxdist : ℝ) :
    ∃ boxes, ballBoxes pos radii maxdist = .ok boxes ∧ boxes.length = pos.length ∧
      ∀ (i : Nat) (x : Fin d → ℝ) (r : ℝ), pos[i]? = some x → radii[i]? = some r → boxes[i]? = some (boxOf x (maxdist * r)) := by
  obtain ⟨out, h1, h2, h3⟩ := mapM_spec (f := fun x : (Fin d → ℝ) × Nat => (do let r ← getR radii x.2; .ok (boxOf x.1 (maxdist * r)) : R (Box d ℝ)))
    (P := fun x b => ∃ r, radii[x.2]? = some r ∧ b = boxOf x.1 (maxdist * r)) pos.zipIdx (by
      intro x hx
      rw [List.mem_zipIdx_iff_getElem?] at hx
      have hlt : x.2 < radii.length := hl ▸ (List.getElem?_eq_some_iff.1 hx).1
      refine ⟨_, by rw [getR_of_lt hlt]; rfl, radii[x.2], List.getElem?_eq_getElem hlt, rfl⟩)
  refine ⟨out, h1, by rw [h2, List.length_zipIdx], fun i x r hx hr => ?_⟩
  obtain ⟨b, hb, r', hr', rfl⟩ := h3 i (x, i) (by rw [List.getElem?_zipIdx, hx]; simp)
  simp only at hr'
  rw [hr] at hr'
  cases hr'
  exact hb

theorem overlaps_of_close {x y : Fin d → ℝ} {r s : ℝ} (h : ∀ a, |x a - y a| < r + s) : (boxOf x r).overlaps (boxOf y s) = true := by
  rw [Box.overlaps_iff]
  intro a
  have := abs_lt.1 (h a)
  simp only [boxOf]
  constructor <;> linarith [this.1, this.2]

/-! ## Links -/

theorem mapM_filterMap {α β : Type} (f : α → R (Option β)) (g : α → Option β) (l : List α) (h : ∀ x ∈ l, f x = .ok (g x)) :
    ∃ l', l.mapM f = .ok l' ∧ l'.filterMap id = l.filterMap g := by
  refine ⟨l.map g, ?_, by rw [List.filterMap_map]; rfl⟩
  induction l with
  | nil => rfl
  | cons x l ih =>
    rw [List.mapM_cons, h x List.mem_cons_self, ok_bind, ih fun y hy => h y (List.mem_cons_of_mem _ hy)]; rfl

/-- The pair `(q, p)` is a link. -/
def IsLink (pos0 : List (Fin d → ℝ)) (radii0 : List ℝ) (pos1 : List (Fin d → ℝ)) (radii1 : List ℝ) (maxdist : ℝ) (q p : Nat) (δ : ℝ) : Prop :=
  ∃ x0 r0 x1 r1, pos0[q]? = some x0 ∧ radii0[q]? = some r0 ∧ pos1[p]? = some x1 ∧ radii1[p]? = some r1 ∧
    δ = Real.sqrt (sqd x1 x0) ∧ δ < maxdist * (r1 + r0)

theorem links_ok {P : RParams ℝ} {H : Heur d ℝ} (hP : P.Valid) (hH : H.Valid P) {pos0 pos1 : List (Fin d → ℝ)} {radii0 radii1 : List ℝ}
    {maxdist : ℝ} (h0 : radii0.length = pos0.length) (h1 : radii1.length = pos1.length) (hm : 0 ≤ maxdist) (hr0 : ∀ r ∈ radii0, 0 ≤ r)
    (hr1 : ∀ r ∈ radii1, 0 ≤ r) :
    ∃ ls : List ((Nat × Nat) × ℝ), getLinks P H pos0 radii0 pos1 radii1 maxdist = .ok (ls.map (·.1), ls.map (·.2)) ∧
      ls.Pairwise (fun a b => a.1.2 < b.1.2 ∨ a.1.2 = b.1.2 ∧ a.1.1 < b.1.1) ∧
      ∀ q p δ, ((q, p), δ) ∈ ls ↔ IsLink pos0 radii0 pos1 radii1 maxdist q p δ := by
  obtain ⟨boxes, hb1, hb2, hb3⟩ := ballBoxes_eq (pos := pos0) h0 maxdist
  obtain ⟨t, ht1, ht2⟩ := overlapping_eq hP hH boxes
  have key : ∀ x ∈ pos1.zipIdx, ∃ l, linksOf t pos0 radii0 radii1 maxdist x = .ok l ∧
      (l.Pairwise (fun a b => a.1.1 < b.1.1) ∧ (∀ y ∈ l, y.1.2 = x.2) ∧ ∀ q δ, ((q, x.2), δ) ∈ l ↔ IsLink pos0 radii0 pos1 radii1 maxdist q x.2 δ) := by
    rintro ⟨x1, p⟩ hx
    rw [List.mem_zipIdx_iff_getElem?] at hx
    simp only at hx ⊢
    have hp : p < radii1.length := h1 ▸ (List.getElem?_eq_some_iff.1 hx).1
    have hr1p := hr1 _ (List.getElem_mem hp)
    obtain ⟨hs, hmem⟩ := ht2 (boxOf x1 (maxdist * radii1[p]))
    set r1 := radii1[p] with hr1e
    have hr1s : radii1[p]? = some r1 := List.getElem?_eq_getElem hp
    set g : Nat → Option ((Nat × Nat) × ℝ) := fun q => if h : q < pos0.length then
      (if sqd x1 pos0[q] < (maxdist * (r1 + radii0[q]'(h0 ▸ h))) ^ 2 then some ((q, p), Real.sqrt (sqd x1 pos0[q])) else none) else none with hg
    obtain ⟨l', hl1, hl2⟩ := mapM_filterMap (linkTest pos0 radii0 maxdist x1 r1 p) g (overlapping t (boxOf x1 (maxdist * r1))) (by
      intro q hq
      obtain ⟨b, hb, -⟩ := (hmem q).1 hq
      have hlt : q < pos0.length := hb2 ▸ (List.getElem?_eq_some_iff.1 hb).1
      have hlt' : q < radii0.length := h0 ▸ hlt
      simp only [linkTest, getR_of_lt hlt, getR_of_lt hlt', ok_bind, hg, dif_pos hlt])
    refine ⟨l'.filterMap id, ?_, ?_, ?_, ?_⟩
    · simp only [linksOf]
      rw [getR_of_lt hp, ok_bind, ← hr1e, hl1, ok_bind]
    · rw [hl2]
      refine hs.filterMap _ ?_
      intro a a' haa b hb b' hb'
      simp only [hg] at hb hb'
      split_ifs at hb hb' <;> simp_all
      subst hb hb'
      exact haa
    · intro y hy
      rw [hl2, List.mem_filterMap] at hy
      obtain ⟨q, -, hq⟩ := hy
      simp only [hg] at hq
      split_ifs at hq <;> simp_all
      subst hq; rfl
    · intro q δ
      rw [hl2, List.mem_filterMap]
      constructor
      · rintro ⟨q', hq', hq⟩
        simp only [hg] at hq
        split_ifs at hq with c1 c2
        cases hq
        have hq0 := hr0 _ (List.getElem_mem (h0 ▸ c1 : q < radii0.length))
        refine ⟨pos0[q], radii0[q]'(h0 ▸ c1), x1, r1, List.getElem?_eq_getElem _, List.getElem?_eq_getElem _, hx, hr1s, rfl, ?_⟩
        exact (Real.sqrt_lt' (lt_of_le_of_ne (by positivity) (by
          intro h; rw [← h] at c2; simp at c2; linarith [sqd_nonneg x1 pos0[q]]))).2 c2
      · rintro ⟨x0, s0, y1, s1, e1, e2, e3, e4, e5, e6⟩
        rw [hx] at e3; cases e3
        rw [hr1s] at e4; cases e4
        obtain ⟨hlt, rfl⟩ := List.getElem?_eq_some_iff.1 e1
        obtain ⟨hlt', rfl⟩ := List.getElem?_eq_some_iff.1 e2
        refine ⟨q, (hmem q).2 ⟨_, hb3 q _ _ e1 e2, overlaps_of_close fun a => ?_⟩, ?_⟩
        · refine lt_of_le_of_lt (abs_le_sqrt_sqd x1 pos0[q] a) ?_
          rw [← e5]; linarith
        · simp only [hg]
          rw [dif_pos hlt, if_pos, e5]
          rw [e5] at e6
          exact (Real.sqrt_lt' (lt_of_le_of_lt (Real.sqrt_nonneg _) e6)).1 e6
  obtain ⟨out, ho1, ho2, ho3⟩ := mapM_spec pos1.zipIdx key
  refine ⟨out.flatten, ?_, ?_, ?_⟩
  · simp only [getLinks]
    rw [hb1, ok_bind, ht1, ok_bind, ho1, ok_bind]
  · have hat : ∀ (i : Nat) (l : List ((Nat × Nat) × ℝ)), out[i]? = some l → l.Pairwise (fun a b => a.1.1 < b.1.1) ∧ (∀ y ∈ l, y.1.2 = i) := by
      intro i l hl
      have hi : i < pos1.zipIdx.length := ho2 ▸ (List.getElem?_eq_some_iff.1 hl).1
      obtain ⟨l', hl', h⟩ := ho3 i _ (List.getElem?_eq_getElem hi)
      rw [hl] at hl'; cases hl'
      have : (pos1.zipIdx[i]).2 = i := by simp
      rw [this] at h
      exact ⟨h.1, h.2.1⟩
    rw [List.pairwise_flatten]
    constructor
    · intro l hl
      obtain ⟨i, hi, rfl⟩ := List.mem_iff_getElem.1 hl
      obtain ⟨h, h'⟩ := hat i _ (List.getElem?_eq_getElem hi)
      exact h.imp_of_mem fun {a b} ha hb hab => Or.inr ⟨by rw [h' a ha, h' b hb], hab⟩
    · rw [List.pairwise_iff_getElem]
      intro i j hi hj hij a ha b hb
      left
      rw [(hat i _ (List.getElem?_eq_getElem hi)).2 a ha, (hat j _ (List.getElem?_eq_getElem hj)).2 b hb]
      exact hij
  · intro q p δ
    rw [List.mem_flatten]
    constructor
    · rintro ⟨l, hl, hm⟩
      obtain ⟨i, hi, rfl⟩ := List.mem_iff_getElem.1 hl
      have hi' : i < pos1.zipIdx.length := ho2 ▸ hi
      obtain ⟨l', hl', h⟩ := ho3 i _ (List.getElem?_eq_getElem hi')
      rw [List.getElem?_eq_getElem hi] at hl'; cases hl'
      have : (pos1.zipIdx[i]).2 = i := by simp
      rw [this] at h
      have hp : p = i := h.2.1 _ hm
      subst hp
      exact (h.2.2 q δ).1 hm
    · rintro hlk
      obtain ⟨x0, s0, x1, s1, e1, e2, e3, e4, e5, e6⟩ := hlk
      obtain ⟨l, hl, h⟩ := ho3 p (x1, p) (by rw [List.getElem?_zipIdx, e3]; simp)
      exact ⟨l, List.mem_of_getElem? hl, (h.2.2 q δ).2 ⟨x0, s0, x1, s1, e1, e2, e3, e4, e5, e6⟩⟩

/-- C218: `get_links` never reads out of its arrays; the pairs are exactly those of a particle `q` of the first configuration and a particle `p` of the
second whose distance is less than `maxdist` times the sum of the radii, each once, with their distance. -/
theorem C218_links {P : RParams ℝ} {H : Heur d ℝ} (hP : P.Valid) (hH : H.Valid P) {pos0 pos1 : List (Fin d → ℝ)} {radii0 radii1 : List ℝ}
    {maxdist : ℝ} (h0 : radii0.length = pos0.length) (h1 : radii1.length = pos1.length) (hm : 0 ≤ maxdist) (hr0 : ∀ r ∈ radii0, 0 ≤ r)
    (hr1 : ∀ r ∈ radii1, 0 ≤ r) :
    ∃ pairs dists, getLinks P H pos0 radii0 pos1 radii1 maxdist = .ok (pairs, dists) ∧ pairs.length = dists.length ∧ pairs.Nodup ∧
      ∀ (q p : Nat) (δ : ℝ), (∃ k : Nat, pairs[k]? = some (q, p) ∧ dists[k]? = some δ) ↔
        ∃ x0 r0 x1 r1, pos0[q]? = some x0 ∧ radii0[q]? = some r0 ∧ pos1[p]? = some x1 ∧ radii1[p]? = some r1 ∧
          δ = Real.sqrt (∑ a, (x1 a - x0 a) ^ 2) ∧ δ < maxdist * (r1 + r0) := by
  obtain ⟨ls, e, hs, hi⟩ := links_ok (P := P) (H := H) hP hH h0 h1 hm hr0 hr1
  refine ⟨_, _, e, by simp, ?_, fun q p δ => ?_⟩
  · rw [List.Nodup, List.pairwise_map]
    refine hs.imp ?_
    intro a b h hab
    rw [hab] at h; omega
  · rw [show (∃ x0 r0 x1 r1, pos0[q]? = some x0 ∧ radii0[q]? = some r0 ∧ pos1[p]? = some x1 ∧ radii1[p]? = some r1 ∧
          δ = Real.sqrt (∑ a, (x1 a - x0 a) ^ 2) ∧ δ < maxdist * (r1 + r0)) = IsLink pos0 radii0 pos1 radii1 maxdist q p δ from rfl, ← hi,
      List.mem_iff_getElem?]
    constructor
    · rintro ⟨k, hk1, hk2⟩
      rw [List.getElem?_map, Option.map_eq_some_iff] at hk1 hk2
      obtain ⟨y, hy, hy1⟩ := hk1
      obtain ⟨y', hy', hy2⟩ := hk2
      rw [hy] at hy'; cases hy'
      exact ⟨k, by rw [hy, ← hy1, ← hy2]⟩
    · rintro ⟨k, hk⟩
      exact ⟨k, by rw [List.getElem?_map, hk]; rfl, by rw [List.getElem?_map, hk]; rfl⟩

/-- C218: not "the pairs of particles closer than maxdist" of the description (line 722): with unit radii, as in `link_save`, two particles at any distance
less than twice `maxdist` are linked. -/
theorem C218_range_counterexample {P : RParams ℝ} {H : Heur d ℝ} (hP : P.Valid) (hH : H.Valid P) (x y : Fin d → ℝ) (maxdist : ℝ) (hm : 0 ≤ maxdist)
    (h1 : maxdist < Real.sqrt (∑ a, (y a - x a) ^ 2)) (h2 : Real.sqrt (∑ a, (y a - x a) ^ 2) < 2 * maxdist) :
    getLinks P H [x] [1] [y] [1] maxdist = .ok ([(0, 0)], [Real.sqrt (∑ a, (y a - x a) ^ 2)]) := by
  obtain ⟨ls, e, hs, hi⟩ := links_ok (P := P) (H := H) hP hH (pos0 := [x]) (pos1 := [y]) (radii0 := [1]) (radii1 := [1]) rfl rfl hm (by simp) (by simp)
  have hmem : ∀ z, z ∈ ls ↔ z = ((0, 0), Real.sqrt (∑ a, (y a - x a) ^ 2)) := by
    rintro ⟨⟨q, p⟩, δ⟩
    rw [hi]
    constructor
    · rintro ⟨x0, s0, x1, s1, e1, e2, e3, e4, e5, e6⟩
      have hq : q = 0 := by simpa using (List.getElem?_eq_some_iff.1 e1).1
      have hp : p = 0 := by simpa using (List.getElem?_eq_some_iff.1 e3).1
      subst hq hp
      simp at e1 e3
      subst e1 e3
      rw [e5]; rfl
    · intro h
      simp only [Prod.mk.injEq] at h
      obtain ⟨⟨rfl, rfl⟩, rfl⟩ := h
      exact ⟨x, 1, y, 1, rfl, rfl, rfl, rfl, rfl, by linarith⟩
  have hnd : ls.Nodup := hs.imp fun {a b} h hab => by rw [hab] at h; omega
  have : ls = [((0, 0), Real.sqrt (∑ a, (y a - x a) ^ 2))] := by
    refine List.perm_singleton.1 ((List.perm_ext_iff_of_nodup hnd (List.nodup_singleton _)).2 fun z => ?_)
    rw [hmem, List.mem_singleton]
  rw [e, this]
  rfl

/-- C218: `get_links_size` keeps the pairs, but adds the square of a difference of radii to a distance that is not squared: in other units of length the
result is not the same length (two particles at distance 1, of radii 1 and 2: 2 instead of 1; all lengths doubled: 6 instead of 4). -/
theorem C218_size_counterexample {P : RParams ℝ} {H : Heur 1 ℝ} (hP : P.Valid) (hH : H.Valid P) :
    getLinksSize P H [fun _ => 0] [1] [fun _ => 1] [2] 1 = .ok ([(0, 0)], [2]) ∧
      getLinksSize P H [fun _ => 0] [2] [fun _ => 2] [4] 1 = .ok ([(0, 0)], [6]) := by
  have key : ∀ c : ℝ, 0 < c → getLinks P H [fun _ => 0] [c] [fun _ => c] [2 * c] 1 = .ok ([(0, 0)], [c]) := by
    intro c hc
    obtain ⟨ls, e, hs, hi⟩ := links_ok (P := P) (H := H) hP hH (pos0 := [fun _ => 0]) (pos1 := [fun _ => c]) (radii0 := [c]) (radii1 := [2 * c])
      rfl rfl zero_le_one (by simp [hc.le]) (by simp [hc.le])
    have hd : Real.sqrt (sqd (d := 1) (fun _ => c) (fun _ => 0)) = c := by
      simp [sqd, Real.sqrt_sq hc.le]
    have hmem : ∀ z, z ∈ ls ↔ z = ((0, 0), c) := by
      rintro ⟨⟨q, p⟩, δ⟩
      rw [hi]
      constructor
      · rintro ⟨x0, s0, x1, s1, e1, e2, e3, e4, e5, e6⟩
        have hq : q = 0 := by simpa using (List.getElem?_eq_some_iff.1 e1).1
        have hp : p = 0 := by simpa using (List.getElem?_eq_some_iff.1 e3).1
        subst hq hp
        simp at e1 e3
        subst e1 e3
        rw [e5, hd]
      · intro h
        simp only [Prod.mk.injEq] at h
        obtain ⟨⟨rfl, rfl⟩, h⟩ := h
        exact ⟨_, c, _, 2 * c, rfl, rfl, rfl, rfl, by rw [h, hd], by rw [h]; linarith⟩
    have hnd : ls.Nodup := hs.imp fun {a b} h hab => by rw [hab] at h; omega
    have : ls = [((0, 0), c)] := by
      refine List.perm_singleton.1 ((List.perm_ext_iff_of_nodup hnd (List.nodup_singleton _)).2 fun z => ?_)
      rw [hmem, List.mem_singleton]
    rw [e, this]
    rfl
  have k1 := key 1 one_pos
  have k2 := key 2 two_pos
  norm_num at k1 k2
  constructor
  · simp only [getLinksSize]
    rw [k1]
    simp [ok_bind, sizeDist, getR, pure_eq_ok]
    norm_num
  · simp only [getLinksSize]
    rw [k2]
    simp [ok_bind, sizeDist, getR, pure_eq_ok]
    norm_num

/-- Valid parameters and heuristics exist. -/
theorem exTree : ∃ (P : RParams ℝ) (H : Heur d ℝ), P.Valid ∧ H.Valid P :=
  ⟨_, _, stdParams_valid 1000 (-1000), exHeur_valid (stdParams_valid 1000 (-1000))⟩

example : ∃ (P : RParams ℝ) (H : Heur 3 ℝ) (pairs : List (Nat × Nat)) (dists : List ℝ), getLinks P H [0, 1] [1, 1] [1] [1] 1 = .ok (pairs, dists) ∧
    pairs.length = dists.length ∧ ∃ k : Nat, pairs[k]? = some (0, 0) ∧ dists[k]? = some (Real.sqrt 3) := by
  obtain ⟨P, H, hP, hH⟩ := exTree (d := 3)
  obtain ⟨a, b, h, h1, -, h3⟩ := C218_links hP hH (pos0 := [0, 1]) (pos1 := [1]) (radii0 := [1, 1]) (radii1 := [1]) rfl rfl zero_le_one (by simp) (by simp)
  refine ⟨P, H, a, b, h, h1, (h3 0 0 _).2 ⟨0, 1, 1, 1, rfl, rfl, rfl, rfl, by simp, ?_⟩⟩
  rw [Real.sqrt_lt' (by norm_num)]; norm_num

end Pairs
end Py
end Colloids
