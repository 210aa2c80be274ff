import Verif.Traj.QueryLemmas
import Verif.Traj.IOLemmas
import Mathlib.Data.Rat.Defs
import Mathlib.Tactic.NormNum

/-! # Properties C01-C05: linking trajectories, trajectory index, trajectory files

Specification vocabulary used in the statements:
`Linked tm t p tr` — the map says that position `p` of frame `t` belongs to trajectory `tr`. -/

namespace Colloids

/-- Position `p` of frame `t` is linked to trajectory `tr`. -/
def Linked (tm : TrajMap) (t p tr : Nat) : Prop := ∃ f, tm.bm[t]? = some f ∧ (p, tr) ∈ f

/-- `fol` declares that position `q` of the new frame may follow position `p` of the previous
one, at distance `d`. -/
def Candidate {D : Type} (fol : Followers D) (p : Nat) (d : D) (q : Nat) : Prop :=
  ∃ row, fol[p]? = some row ∧ (d, q) ∈ row

/-- A history is well-formed when each candidate table has a row for every position of the
previous frame and proposes only positions of the new frame. -/
def ValidHist {D : Type} : Nat → List (Followers D × Nat) → Prop
  | _, [] => True
  | n, (fol, m) :: rest =>
      n ≤ fol.length ∧ (∀ p d q, Candidate fol p d q → q < m) ∧ ValidHist m rest

/-- A concrete history used in the non-vacuity examples: two particles, then two, then one;
conflicts and a birth. -/
def demoHist : List (Followers ℚ × Nat) :=
  [ ([[(1, 0), (2, 1)], [(1, 0)]], 2), ([[(3, 0)], [(2, 0)]], 1) ]

theorem linked_iff {tm : TrajMap} {t p tr : Nat} :
    Linked tm t p tr ↔ ∃ h : t < tm.bm.length, (p, tr) ∈ tm.bm[t] := by
  unfold Linked
  constructor
  · rintro ⟨f, h1, h2⟩
    obtain ⟨h, rfl⟩ := List.getElem?_eq_some_iff.1 h1
    exact ⟨h, h2⟩
  · rintro ⟨h, h2⟩
    exact ⟨_, by simp [h], h2⟩

/-! ## C01 -/

/-- C01. After any successful history, each position of each frame belongs to exactly one
trajectory, a trajectory owns at most one position per frame, the numbers in use are exactly
`0..nbTraj-1`, and the frame sizes are those given by the caller. -/
theorem C01_one_to_one {D : Type} [LinearOrder D] (n : Nat) (hist : List (Followers D × Nat))
    (tm : TrajMap) (h : TrajMap.run n hist = .ok tm) :
    tm.getFrameSizes = n :: hist.map Prod.snd ∧
    (∀ t size, (n :: hist.map Prod.snd)[t]? = some size → ∀ p, p < size → ∃! tr, Linked tm t p tr) ∧
    (∀ t p tr, Linked tm t p tr → ∃ size, (n :: hist.map Prod.snd)[t]? = some size ∧ p < size) ∧
    (∀ t p p' tr, Linked tm t p tr → Linked tm t p' tr → p = p') ∧
    (∀ tr, tr < tm.nbTraj ↔ ∃ t p, Linked tm t p tr) := by
  have hi := TrajMap.run_inv h
  refine ⟨?_, ?_, ?_, ?_, ?_⟩
  · apply List.ext_getElem
    · simp [TrajMap.getFrameSizes, hi.len]
    · intro t h1 h2
      simp only [TrajMap.getFrameSizes, List.getElem_map]
      exact (hi.frame t (by simpa [TrajMap.getFrameSizes] using h1)).length
  · intro t size hs p hp
    obtain ⟨ht, rfl⟩ := List.getElem?_eq_some_iff.1 hs
    have ht' : t < tm.bm.length := by rw [hi.len]; exact ht
    have hf := hi.frame t ht'
    obtain ⟨⟨p', tr⟩, hm, rfl⟩ := List.mem_map.1 ((hf.pos p).2 hp)
    refine ⟨tr, linked_iff.2 ⟨ht', hm⟩, ?_⟩
    intro tr' h'
    obtain ⟨_, hm'⟩ := linked_iff.1 h'
    exact congrArg Prod.snd (List.inj_on_of_nodup_map hf.inj.1 hm' hm rfl)
  · intro t p tr h'
    obtain ⟨ht, hm⟩ := linked_iff.1 h'
    have hf := hi.frame t ht
    refine ⟨_, List.getElem?_eq_getElem (by rw [← hi.len]; exact ht), ?_⟩
    exact (hf.pos p).1 (List.mem_map.2 ⟨_, hm, rfl⟩)
  · intro t p p' tr h1 h2
    obtain ⟨ht, m1⟩ := linked_iff.1 h1
    obtain ⟨_, m2⟩ := linked_iff.1 h2
    exact congrArg Prod.fst (List.inj_on_of_nodup_map (hi.frame t ht).inj.2 m1 m2 rfl)
  · intro tr
    constructor
    · intro htr
      obtain ⟨t, ht, hm⟩ := hi.used tr htr
      obtain ⟨⟨p, tr'⟩, hm', rfl⟩ := List.mem_map.1 hm
      exact ⟨t, p, linked_iff.2 ⟨ht, hm'⟩⟩
    · rintro ⟨t, p, h'⟩
      obtain ⟨ht, hm⟩ := linked_iff.1 h'
      exact (hi.frame t ht).traj _ hm

theorem validHist_concat {D : Type} {n : Nat} {hist : List (Followers D × Nat)} {x} :
    ValidHist n (hist ++ [x]) ↔ ValidHist n hist ∧
      (n :: hist.map Prod.snd).getLast (by simp) ≤ x.1.length ∧
      (∀ p d q, Candidate x.1 p d q → q < x.2) := by
  induction hist generalizing n with
  | nil => obtain ⟨fol, m⟩ := x; simp [ValidHist]
  | cons y ys ih =>
    obtain ⟨fol, m⟩ := y
    simp only [List.cons_append, ValidHist, ih, List.map_cons]
    rw [List.getLast_cons (a := n) (l := m :: ys.map Prod.snd) (by simp)]
    tauto

/-- C01 (no failure). Every well-formed history is accepted. -/
theorem C01_total {D : Type} [LinearOrder D] (n : Nat) (hist : List (Followers D × Nat))
    (hv : ValidHist n hist) : ∃ tm, TrajMap.run n hist = .ok tm := by
  induction hist using List.reverseRecOn with
  | nil => exact ⟨_, rfl⟩
  | append_singleton l x ih =>
    obtain ⟨hv1, hv2, hv3⟩ := validHist_concat.1 hv
    obtain ⟨tm, htm⟩ := ih hv1
    have hi := TrajMap.run_inv htm
    have hpos := hi.pos
    have hidx : tm.bm.length - 1 < tm.bm.length := by omega
    have hback : backR tm.bm = .ok (tm.bm[tm.bm.length - 1]) := by
      rw [backR_ok, List.getLast?_eq_getElem?]; simp [hpos]
    have hsz : (n :: l.map Prod.snd)[tm.bm.length - 1]'(by rw [← hi.len]; exact hidx) =
        (n :: l.map Prod.snd).getLast (by simp) := by
      rw [List.getLast_eq_getElem]; congr 1; rw [hi.len]
    have hfr := hi.frame _ hidx
    obtain ⟨pot, hpot⟩ := TrajMap.potentialLinks_total (last := tm.bm[tm.bm.length - 1]) (fol := x.1)
      (by
        intro y hy
        have := (hfr.pos y.1).1 (List.mem_map.2 ⟨y, hy, rfl⟩)
        omega)
    obtain ⟨-, hmem, -⟩ := TrajMap.potentialLinks_ok hpot
    obtain ⟨flags, hflags⟩ := TrajMap.linkedFlags_total
      (frame := pot.foldl (fun f dl => Frame.link f dl.2) []) (n := x.2)
      (by
        intro y hy
        obtain ⟨d, hd⟩ := TrajMap.greedy_sub pot (l := y) hy
        obtain ⟨p, row, -, h2, h3⟩ := (hmem d y.1 y.2).1 hd
        exact hv3 p d y.1 ⟨row, h2, h3⟩)
    refine ⟨⟨tm.bm ++ [(TrajMap.startNew flags (pot.foldl (fun f dl => Frame.link f dl.2) []) tm.nbTraj).1],
      (TrajMap.startNew flags (pot.foldl (fun f dl => Frame.link f dl.2) []) tm.nbTraj).2⟩,
      TrajMap.run_concat.2 ⟨tm, htm, ?_⟩⟩
    unfold TrajMap.pushBack
    rw [hback, ok_bind, hpot, ok_bind]
    simp only
    rw [hflags, ok_bind]
    rfl

/-- Non-vacuity: a history with a conflict between candidates and a birth is well-formed. -/
example : ValidHist 2 demoHist := by
  refine ⟨by simp, ?_, by simp, ?_, trivial⟩
  · rintro p d q ⟨row, h1, h2⟩
    match p, h1 with
    | 0, h1 => simp at h1; subst h1; simp at h2; omega
    | 1, h1 => simp at h1; subst h1; simp at h2; omega
  · rintro p d q ⟨row, h1, h2⟩
    match p, h1 with
    | 0, h1 => simp at h1; subst h1; simp at h2; omega
    | 1, h1 => simp at h1; subst h1; simp at h2; omega

/-! ## C02 -/

/-- C02. What one `push_back` adds: the new frame links (i) prolong a trajectory only through a
declared candidate, (ii) are stable: every declared candidate lost to (or is) a link at smaller or
equal distance sharing its trajectory or its position, and (iii) the remaining positions start
trajectories numbered in increasing position order from the previous number of trajectories. -/
theorem C02_stable_greedy {D : Type} [LinearOrder D] (n : Nat) (hist : List (Followers D × Nat))
    (tm tm' : TrajMap) (fol : Followers D) (m : Nat) (h : TrajMap.run n hist = .ok tm)
    (hp : tm.pushBack fol m = .ok tm') :
    let t := tm.bm.length
    (∀ s p tr, s < t → (Linked tm' s p tr ↔ Linked tm s p tr)) ∧ tm'.bm.length = t + 1 ∧
    tm.nbTraj ≤ tm'.nbTraj ∧
    (∀ q tr, Linked tm' t q tr → tr < tm.nbTraj →
      ∃ p d, Linked tm (t - 1) p tr ∧ Candidate fol p d q) ∧
    (∀ p tr d q, Linked tm (t - 1) p tr → Candidate fol p d q →
      ∃ p' tr' d' q', Linked tm (t - 1) p' tr' ∧ Candidate fol p' d' q' ∧ Linked tm' t q' tr' ∧
        d' ≤ d ∧ (q' = q ∨ tr' = tr)) ∧
    (∀ tr, tm.nbTraj ≤ tr → tr < tm'.nbTraj → ∃ q, Linked tm' t q tr) ∧
    (∀ q q' tr tr', Linked tm' t q tr → Linked tm' t q' tr' → tm.nbTraj ≤ tr → tm.nbTraj ≤ tr' →
      (q < q' ↔ tr < tr')) := by
  intro t
  have hi := TrajMap.run_inv h
  obtain ⟨last, pot, hl, hpot, g1, g2, g3, htm⟩ := TrajMap.pushBack_spec hp hi.last_traj
  simp only at htm
  obtain ⟨p1, p2, p3⟩ := TrajMap.potentialLinks_ok hpot
  rw [backR_ok, List.getLast?_eq_getElem?] at hl
  have hpos := hi.pos
  have hlast : ∀ p tr, Linked tm (t - 1) p tr ↔ (p, tr) ∈ last := by
    intro p tr
    unfold Linked
    rw [show tm.bm[t - 1]? = some last from hl]
    simp
  set unl := (List.range m).filter (fun p => p ∉ (TrajMap.greedy pot).map Prod.fst) with hunl
  have hnew : ∀ q tr, Linked tm' t q tr ↔ (q, tr) ∈ TrajMap.greedy pot ++ unl.zipIdx tm.nbTraj := by
    intro q tr
    unfold Linked
    rw [htm]
    simp only [t]
    rw [List.getElem?_concat_length]
    simp
  have hzip : ∀ q tr, (q, tr) ∈ unl.zipIdx tm.nbTraj → tm.nbTraj ≤ tr ∧ unl[tr - tm.nbTraj]? = some q := by
    intro q tr hq
    exact ⟨List.le_snd_of_mem_zipIdx hq, (List.mk_mem_zipIdx_iff_le_and_getElem?_sub.1 hq).2⟩
  have hsorted : unl.Pairwise (· < ·) := List.pairwise_lt_range.sublist List.filter_sublist
  refine ⟨?_, by rw [htm]; simp [t], by rw [htm]; simp, ?_, ?_, ?_, ?_⟩
  · intro s p tr hs
    unfold Linked
    rw [htm]
    simp only
    rw [List.getElem?_append_left hs]
  · intro q tr hq htr
    rcases List.mem_append.1 ((hnew q tr).1 hq) with hq | hq
    · obtain ⟨d, hd⟩ := TrajMap.greedy_sub pot hq
      obtain ⟨p, row, h1, h2, h3⟩ := (p2 d q tr).1 hd
      exact ⟨p, d, (hlast p tr).2 h1, row, h2, h3⟩
    · have := (hzip q tr hq).1; omega
  · rintro p tr d q hl' ⟨row, h2, h3⟩
    obtain ⟨d', ⟨q', tr'⟩, k1, k2, k3, k4⟩ :=
      TrajMap.greedy_stable pot p1 ((p2 d q tr).2 ⟨p, row, (hlast p tr).1 hl', h2, h3⟩)
    obtain ⟨p', row', m1, m2, m3⟩ := (p2 d' q' tr').1 k1
    exact ⟨p', tr', d', q', (hlast _ _).2 m1, ⟨row', m2, m3⟩,
      (hnew _ _).2 (List.mem_append_left _ k2), k3, k4⟩
  · intro tr h1 h2
    rw [htm] at h2
    simp only at h2
    refine ⟨unl[tr - tm.nbTraj]'(by omega), (hnew _ _).2 (List.mem_append_right _ ?_)⟩
    rw [List.mk_mem_zipIdx_iff_le_and_getElem?_sub]
    exact ⟨h1, by simp [show tr - tm.nbTraj < unl.length by omega]⟩
  · intro q q' tr tr' hq hq' htr htr'
    have a1 : (q, tr) ∈ unl.zipIdx tm.nbTraj := by
      rcases List.mem_append.1 ((hnew q tr).1 hq) with h | h
      · have := g2 _ h; simp only at this; omega
      · exact h
    have a2 : (q', tr') ∈ unl.zipIdx tm.nbTraj := by
      rcases List.mem_append.1 ((hnew q' tr').1 hq') with h | h
      · have := g2 _ h; simp only at this; omega
      · exact h
    obtain ⟨-, b1⟩ := hzip _ _ a1
    obtain ⟨-, b2⟩ := hzip _ _ a2
    obtain ⟨c1, d1⟩ := List.getElem?_eq_some_iff.1 b1
    obtain ⟨c2, d2⟩ := List.getElem?_eq_some_iff.1 b2
    rw [List.pairwise_iff_getElem] at hsorted
    constructor
    · intro hlt
      by_contra hc
      by_cases he : tr = tr'
      · subst he; omega
      · have := hsorted _ _ c2 c1 (by omega); omega
    · intro hlt
      have := hsorted _ _ c1 c2 (by omega); omega

/-- Non-vacuity of C02: the first step of the demo history succeeds. -/
example : ∃ tm', (TrajMap.init 2).pushBack ([[(1, 0), (2, 1)], [(1, 0)]] : Followers ℚ) 2 = .ok tm' := by
  have := C01_total 2 [(([[(1, 0), (2, 1)], [(1, 0)]] : Followers ℚ), 2)] (by
    refine ⟨by simp, ?_, trivial⟩
    rintro p d q ⟨row, h1, h2⟩
    match p, h1 with
    | 0, h1 => simp at h1; subst h1; simp at h2; omega
    | 1, h1 => simp at h1; subst h1; simp at h2; omega)
  obtain ⟨tm, h⟩ := this
  obtain ⟨tm0, h0, h1⟩ := (TrajMap.run_concat (hist := [])).1 h
  simp [TrajMap.run] at h0
  subst h0
  exact ⟨tm, h1⟩

/-! ## C03 -/

/-- Index facts gathered once for the theorems below. -/
theorem index_facts {D : Type} [LinearOrder D] {n : Nat} {hist : List (Followers D × Nat)}
    {tm : TrajMap} (h : TrajMap.run n hist = .ok tm) (hlen : hist.length + 1 ≤ szMod) :
    ∃ ti, TrajIndex.ofMap tm = .ok ti ∧ ti.trajs.length = tm.nbTraj ∧ Agree tm.bm ti.trajs ∧
      ti.inverse.map List.length = tm.getFrameSizes ∧
      (∀ t p tr, (ti.inverse[t]?.bind (fun (r : List Nat) => r[p]?)) = some tr ↔ Linked tm t p tr) ∧
      tm.bm.length ≤ szMod ∧
      (∀ tr, tr < ti.trajs.length → ∃ t, ∃ h : t < tm.bm.length, tr ∈ (tm.bm[t]).map Prod.snd) := by
  have hi := TrajMap.run_inv h
  obtain ⟨ts, b1, b2, b3⟩ := build_run h
  have hu : ∀ tr, tr < ts.length → ∃ t, ∃ h : t < tm.bm.length, tr ∈ (tm.bm[t]).map Prod.snd :=
    fun tr htr => hi.used tr (b2 ▸ htr)
  have hbl : tm.bm.length ≤ szMod := by
    have := hi.len; simp at this; omega
  have hs : (n :: hist.map Prod.snd).length = tm.bm.length := hi.len.symm
  obtain ⟨inv, i1, i2, i3⟩ := makeInverse_ok b3 hu hbl hs hi.frame
  have hfs := (C01_one_to_one n hist tm h).1
  refine ⟨⟨ts, inv⟩, ?_, b2, b3, by rw [hfs]; exact i2, ?_, hbl, hu⟩
  · unfold TrajIndex.ofMap
    rw [show tm.bm.zipIdx.foldlM (fun ts ft => TrajIndex.addFrame ts ft.2 ft.1) [] = .ok ts from b1,
      ok_bind, hfs, i1, ok_bind]
    rfl
  · intro t p tr
    rw [i3, linked_iff]

/-- C03. The index built from a map of trajectories says exactly what the map says, in both
directions (trajectory → position with `Converter`, position → trajectory with `Inverser`), there
are `nbTraj` trajectories, and a trajectory exists at `t` iff the map links it at `t`. -/
theorem C03_index_inverse {D : Type} [LinearOrder D] (n : Nat) (hist : List (Followers D × Nat))
    (tm : TrajMap) (h : TrajMap.run n hist = .ok tm) (hlen : hist.length + 1 ≤ szMod) :
    ∃ ti, TrajIndex.ofMap tm = .ok ti ∧ ti.trajs.length = tm.nbTraj ∧
      (∀ t p tr, ti.convert t tr = .ok p ↔ Linked tm t p tr) ∧
      (∀ t p tr, ti.invert t p = .ok tr ↔ Linked tm t p tr) ∧
      (∀ t tr T, ti.trajs[tr]? = some T → (T.exist t = true ↔ ∃ p, Linked tm t p tr)) := by
  obtain ⟨ti, h1, h2, hA, -, h4, h5, h6⟩ := index_facts h hlen
  have hT : ∀ tr T, ti.trajs[tr]? = some T → T.steps ≠ [] ∧ T.start + T.steps.length ≤ szMod ∧
      ∀ t p, (T.start ≤ t ∧ T.steps[t - T.start]? = some p) ↔ Linked tm t p tr := by
    intro tr T hT
    obtain ⟨k1, k2, k3⟩ := agree_traj hA h6 hT
    exact ⟨k1, le_trans k2 h5, fun t p => by rw [k3, linked_iff]⟩
  refine ⟨ti, h1, h2, ?_, ?_, ?_⟩
  · intro t p tr
    unfold TrajIndex.convert
    rw [bind_ok]
    constructor
    · rintro ⟨T, k1, k2⟩
      obtain ⟨j1, j2, j3⟩ := hT tr T (getR_ok.1 k1)
      exact (j3 t p).1 ((at_eq j1 j2).1 k2)
    · intro hl
      have htr : tr < ti.trajs.length := by
        rw [h2]; exact ((C01_one_to_one n hist tm h).2.2.2.2 tr).2 ⟨t, p, hl⟩
      refine ⟨_, getR_of_lt htr, ?_⟩
      obtain ⟨j1, j2, j3⟩ := hT tr ti.trajs[tr] (by simp [htr])
      exact (at_eq j1 j2).2 ((j3 t p).2 hl)
  · intro t p tr
    rw [← h4]
    unfold TrajIndex.invert
    rw [bind_ok]
    constructor
    · rintro ⟨row, k1, k2⟩
      rw [getR_ok] at k1 k2
      rw [k1]; exact k2
    · intro hb
      cases hr : ti.inverse[t]? with
      | none => rw [hr] at hb; cases hb
      | some row =>
        rw [hr] at hb
        exact ⟨row, getR_ok.2 hr, getR_ok.2 hb⟩
  · intro t tr T hTr
    obtain ⟨j1, j2, j3⟩ := hT tr T hTr
    rw [exist_iff j1 j2]
    constructor
    · rintro ⟨a, b⟩
      exact ⟨_, (j3 t _).1 ⟨a, List.getElem?_eq_getElem (by omega)⟩⟩
    · rintro ⟨p, hp⟩
      obtain ⟨a, b⟩ := (j3 t p).2 hp
      obtain ⟨c, -⟩ := List.getElem?_eq_some_iff.1 b
      omega

/-- C03 (contiguity). A trajectory linked at two times is linked at every time in between. -/
theorem C03_contiguous {D : Type} [LinearOrder D] (n : Nat) (hist : List (Followers D × Nat))
    (tm : TrajMap) (h : TrajMap.run n hist = .ok tm) {t1 t2 t3 p1 p3 tr : Nat}
    (h12 : t1 ≤ t2) (h23 : t2 ≤ t3) (h1 : Linked tm t1 p1 tr) (h3 : Linked tm t3 p3 tr) :
    ∃ p2, Linked tm t2 p2 tr := by
  obtain ⟨ts, -, -, hA⟩ := build_run h
  have a1 := (hA tr t1 p1).2 (linked_iff.1 h1)
  have a3 := (hA tr t3 p3).2 (linked_iff.1 h3)
  have : ∃ p2, posAt ts tr t2 = some p2 := by
    unfold posAt at a1 a3 ⊢
    cases hT : ts[tr]? with
    | none => rw [hT] at a1; cases a1
    | some T =>
      rw [hT] at a1 a3
      simp only at a1 a3 ⊢
      split at a1
      · split at a3
        · obtain ⟨c, -⟩ := List.getElem?_eq_some_iff.1 a3
          rw [if_pos (by omega)]
          exact ⟨_, List.getElem?_eq_getElem (by omega)⟩
        · cases a3
      · cases a1
  obtain ⟨p2, hp2⟩ := this
  exact ⟨p2, linked_iff.2 ((hA tr t2 p2).1 hp2)⟩

/-- C03 (summaries). `getFrameSizes` recovers the frame sizes; `getMaxTime` is the last time at
which any trajectory is linked; `longest_span` is the largest number of frames in which one
trajectory is linked. -/
theorem C03_summaries {D : Type} [LinearOrder D] (n : Nat) (hist : List (Followers D × Nat))
    (tm : TrajMap) (h : TrajMap.run n hist = .ok tm) (hlen : hist.length + 1 ≤ szMod) :
    ∃ ti, TrajIndex.ofMap tm = .ok ti ∧
      ti.getFrameSizes (hist.length + 1) = .ok (n :: hist.map Prod.snd) ∧
      (∀ t p tr, Linked tm t p tr → t ≤ ti.getMaxTime) ∧
      (0 < tm.nbTraj → ∃ p tr, Linked tm ti.getMaxTime p tr) ∧
      (0 < tm.nbTraj → ∃ L, ti.longestSpan = .ok L ∧
        (∀ tr, tr < tm.nbTraj → tm.bm.countP (fun f => decide (tr ∈ f.map Prod.snd)) ≤ L) ∧
        (∃ tr, tr < tm.nbTraj ∧ tm.bm.countP (fun f => decide (tr ∈ f.map Prod.snd)) = L)) := by
  obtain ⟨ti, h1, h2, hA, -, h4, h5, h6⟩ := index_facts h hlen
  have hi := TrajMap.run_inv h
  have hT : ∀ tr T, ti.trajs[tr]? = some T → T.steps ≠ [] ∧ T.start + T.steps.length ≤ tm.bm.length ∧
      ∀ t p, (T.start ≤ t ∧ T.steps[t - T.start]? = some p) ↔ Linked tm t p tr := by
    intro tr T hT
    obtain ⟨k1, k2, k3⟩ := agree_traj hA h6 hT
    exact ⟨k1, k2, fun t p => by rw [k3, linked_iff]⟩
  have hTm : ∀ T ∈ ti.trajs, ∃ tr, ti.trajs[tr]? = some T := fun T hT => List.mem_iff_getElem?.1 hT
  have hbl : tm.bm.length = hist.length + 1 := by have := hi.len; simpa using this
  refine ⟨ti, h1, ?_, ?_, ?_, ?_⟩
  · unfold TrajIndex.getFrameSizes
    rw [if_pos (by omega)]
    obtain ⟨s', k1, k2, k3⟩ := bump_all (hist.length + 1) (by omega) ti.trajs
      (by
        intro T hTT
        obtain ⟨tr, htr⟩ := hTm T hTT
        obtain ⟨a, b, -⟩ := hT tr T htr
        exact ⟨a, by omega⟩) (List.replicate (hist.length + 1) 0) (by simp)
    rw [k1]
    congr 1
    apply List.ext_getElem?
    intro t
    rw [k3 t]
    by_cases ht : t < hist.length + 1
    · have ht' : t < tm.bm.length := by omega
      rw [List.getElem?_replicate, if_pos ht, Option.map_some, Nat.zero_add,
        countP_covers hA ht' (hi.frame t ht'), (hi.frame t ht').length]
      rw [List.getElem?_eq_getElem]
    · rw [List.getElem?_replicate, if_neg ht, List.getElem?_eq_none (by simp; omega)]
      rfl
  · intro t p tr hl
    have htr : tr < ti.trajs.length := by
      rw [h2]; exact ((C01_one_to_one n hist tm h).2.2.2.2 tr).2 ⟨t, p, hl⟩
    obtain ⟨j1, j2, j3⟩ := hT tr ti.trajs[tr] (by simp [htr])
    have hmax := (foldl_max_spec Traj.lastTime ti.trajs 0).1 ti.trajs[tr] (List.getElem_mem htr)
    rw [lastTime_eq j1 (by omega)] at hmax
    obtain ⟨a, b⟩ := (j3 t p).2 hl
    obtain ⟨c, -⟩ := List.getElem?_eq_some_iff.1 b
    unfold TrajIndex.getMaxTime
    omega
  · intro hnb
    have key : ∀ T ∈ ti.trajs, ∃ p tr, Linked tm T.lastTime p tr := by
      intro T hTT
      obtain ⟨tr, htr⟩ := hTm T hTT
      obtain ⟨a, b, c⟩ := hT tr T htr
      have : 0 < T.steps.length := List.length_pos_iff.2 a
      rw [lastTime_eq a (by omega)]
      exact ⟨_, tr, (c _ _).1 ⟨by omega, List.getElem?_eq_getElem (by omega)⟩⟩
    obtain ⟨m1, -, m3⟩ := foldl_max_spec Traj.lastTime ti.trajs 0
    unfold TrajIndex.getMaxTime
    rcases m3 with m3 | ⟨T, hTT, m3⟩
    · have h0 : 0 < ti.trajs.length := by omega
      have := m1 ti.trajs[0] (List.getElem_mem h0)
      rw [m3] at this ⊢
      obtain ⟨p, tr, hk⟩ := key ti.trajs[0] (List.getElem_mem h0)
      rw [show (ti.trajs[0]).lastTime = 0 by omega] at hk
      exact ⟨p, tr, hk⟩
    · rw [m3]; exact key T hTT
  · intro hnb
    have hcount : ∀ tr T, ti.trajs[tr]? = some T →
        tm.bm.countP (fun f => decide (tr ∈ f.map Prod.snd)) = T.steps.length := by
      intro tr T hTT
      obtain ⟨a, b, c⟩ := hT tr T hTT
      rw [countP_eq_range_filter, ← List.length_range' (s := T.start) (n := T.steps.length) (step := 1)]
      apply List.Perm.length_eq
      rw [List.perm_ext_iff_of_nodup (List.nodup_range.filter _) List.nodup_range']
      intro t
      rw [List.mem_filter, List.mem_range, List.mem_range'_1]
      constructor
      · rintro ⟨ht, hany⟩
        rw [List.getElem?_eq_getElem ht] at hany
        simp only [Option.any_some, decide_eq_true_eq] at hany
        obtain ⟨⟨p, tr'⟩, hm, rfl⟩ := List.mem_map.1 hany
        obtain ⟨e, f⟩ := (c t p).2 (linked_iff.2 ⟨ht, hm⟩)
        obtain ⟨g, -⟩ := List.getElem?_eq_some_iff.1 f
        omega
      · rintro ⟨e, f⟩
        have hl := (c t _).1 ⟨e, List.getElem?_eq_getElem (by omega)⟩
        obtain ⟨ht, hm⟩ := linked_iff.1 hl
        refine ⟨ht, ?_⟩
        rw [List.getElem?_eq_getElem ht]
        simp only [Option.any_some, decide_eq_true_eq]
        exact List.mem_map.2 ⟨_, hm, rfl⟩
    cases hts : ti.trajs with
    | nil => rw [hts] at h2; simp at h2; omega
    | cons T0 Ts =>
      have hL : ti.longestSpan = .ok ((Ts.map (fun tr => tr.steps.length)).foldl
          (fun m y => if m < y then y else m) T0.steps.length) := by
        unfold TrajIndex.longestSpan; rw [hts]; rfl
      obtain ⟨m1, m2, m3⟩ := foldl_max_spec id (Ts.map (fun tr => tr.steps.length)) T0.steps.length
      simp only [id] at m1 m2 m3
      refine ⟨_, hL, ?_, ?_⟩
      · intro tr htr
        have htr' : tr < ti.trajs.length := by omega
        rw [hcount tr ti.trajs[tr] (by simp [htr'])]
        have hmem : ti.trajs[tr] ∈ T0 :: Ts := by rw [← hts]; exact List.getElem_mem htr'
        rcases List.mem_cons.1 hmem with he | he
        · rw [he]; exact m2
        · exact m1 _ (List.mem_map.2 ⟨_, he, rfl⟩)
      · rcases m3 with m3 | ⟨y, hy, m3⟩
        · exact ⟨0, hnb, by rw [hcount 0 T0 (by rw [hts]; rfl), m3]⟩
        · obtain ⟨T, hTT, rfl⟩ := List.mem_map.1 hy
          obtain ⟨i, hi'⟩ := List.mem_iff_getElem?.1 hTT
          have hi2 : ti.trajs[i + 1]? = some T := by rw [hts]; simpa using hi'
          obtain ⟨g, -⟩ := List.getElem?_eq_some_iff.1 hi2
          exact ⟨i + 1, by omega, by rw [hcount (i + 1) T hi2, m3]⟩

/-- A value map, as a `std::map`: strictly increasing keys. -/
def IsMap {V : Type} (m : List (Nat × V)) : Prop := m.Pairwise (fun a b => a.1 < b.1)

/-- C03 (value maps). Converting a map from trajectory numbers to values into positions at time `t`
keeps exactly the trajectories that exist at `t`; converting back gives the original restricted to
them. -/
theorem C03_trajToPos_posToTraj {D V : Type} [LinearOrder D] (n : Nat)
    (hist : List (Followers D × Nat))
    (tm : TrajMap) (h : TrajMap.run n hist = .ok tm) (hlen : hist.length + 1 ≤ szMod)
    (t : Nat) (ht : t < tm.bm.length) (m : List (Nat × V)) (hm : IsMap m)
    (hk : ∀ x ∈ m, x.1 < tm.nbTraj) :
    ∃ ti m1 m2, TrajIndex.ofMap tm = .ok ti ∧
      ti.trajToPos t m [] = .ok m1 ∧ IsMap m1 ∧
      (∀ p v, (p, v) ∈ m1 ↔ ∃ tr, (tr, v) ∈ m ∧ Linked tm t p tr) ∧
      ti.posToTraj t m1 [] = .ok m2 ∧ IsMap m2 ∧
      (∀ tr v, (tr, v) ∈ m2 ↔ (tr, v) ∈ m ∧ ∃ p, Linked tm t p tr) := by
  obtain ⟨ti, e1, h2, hA, -, h4, h5, h6⟩ := index_facts h hlen
  obtain ⟨ti', e2, -, hconv, hinv, hex⟩ := C03_index_inverse n hist tm h hlen
  have : ti' = ti := by rw [e1] at e2; exact (Except.ok.inj e2).symm
  subst this
  obtain ⟨-, c1, -, c3, c4⟩ := C01_one_to_one n hist tm h
  have hpA : ∀ tr p, posAt ti'.trajs tr t = some p ↔ Linked tm t p tr := by
    intro tr p; rw [hA tr t p, linked_iff]
  -- trajectory → position
  set f : Nat → Option Nat := fun tr => posAt ti'.trajs tr t with hf
  have hstep : ∀ acc, ∀ kv ∈ m, (do
      let tr ← getR ti'.trajs kv.1
      if tr.exist t then return TrajIndex.mapInsert (← tr.at_ t) kv.2 acc else return acc) =
      (.ok (match f kv.1 with | some k => TrajIndex.mapInsert k kv.2 acc | none => acc) : R _) := by
    intro acc kv hkv
    have htr : kv.1 < ti'.trajs.length := by rw [h2]; exact hk kv hkv
    have hT : ti'.trajs[kv.1]? = some ti'.trajs[kv.1] := by simp [htr]
    rw [getR_of_lt htr, ok_bind]
    cases hfk : f kv.1 with
    | none =>
      have : ¬ (ti'.trajs[kv.1]).exist t = true := by
        rw [hex t kv.1 _ hT]
        rintro ⟨p, hp⟩
        have := (hpA kv.1 p).2 hp
        rw [hf] at hfk; simp only at hfk; rw [this] at hfk; cases hfk
      rw [if_neg this]; rfl
    | some p =>
      have hl : Linked tm t p kv.1 := (hpA kv.1 p).1 hfk
      rw [if_pos ((hex t kv.1 _ hT).2 ⟨p, hl⟩)]
      have := (hconv t p kv.1).2 hl
      unfold TrajIndex.convert at this
      rw [getR_of_lt htr, ok_bind] at this
      rw [this, ok_bind]; rfl
  have finj : ∀ a b c, f a = some c → f b = some c → a = b := by
    intro a b c ha hb
    have la := (hpA a c).1 ha
    have lb := (hpA b c).1 hb
    have hi := TrajMap.run_inv h
    obtain ⟨_, ma⟩ := linked_iff.1 la
    obtain ⟨_, mb⟩ := linked_iff.1 lb
    exact congrArg Prod.snd (List.inj_on_of_nodup_map (hi.frame t ht).inj.1 ma mb rfl)
  obtain ⟨s1, s2⟩ := filterMap_conv f finj m hm
  set m1 := (m.filterMap (fun kv => (f kv.1).map (fun k => (k, kv.2)))).foldl
      (fun acc kv => TrajIndex.mapInsert kv.1 kv.2 acc) [] with hm1
  -- position → trajectory
  set g : Nat → Option Nat := fun p => (ti'.inverse[t]?.bind (fun (r : List Nat) => r[p]?)) with hg
  have ginj : ∀ a b c, g a = some c → g b = some c → a = b := by
    intro a b c ha hb
    exact c3 t a b c ((h4 t a c).1 ha) ((h4 t b c).1 hb)
  have hstep2 : ∀ acc, ∀ kv ∈ m1, (do return TrajIndex.mapInsert (← ti'.invert t kv.1) kv.2 acc) =
      (.ok (match g kv.1 with | some k => TrajIndex.mapInsert k kv.2 acc | none => acc) : R _) := by
    intro acc kv hkv
    obtain ⟨tr, -, hl⟩ := (s2 kv.1 kv.2).1 hkv
    have hl' : Linked tm t kv.1 tr := (hpA tr kv.1).1 hl
    have hgk : g kv.1 = some tr := (h4 t kv.1 tr).2 hl'
    rw [(hinv t kv.1 tr).2 hl', hgk, ok_bind]
    rfl
  obtain ⟨r1, r2⟩ := filterMap_conv g ginj m1 s1
  refine ⟨ti', m1, _, e1, foldlM_conv f _ m hstep [], s1, ?_, foldlM_conv g _ m1 hstep2 [], r1, ?_⟩
  · intro p v
    rw [s2]
    constructor
    · rintro ⟨a, k1, k2⟩; exact ⟨a, k1, (hpA a p).1 k2⟩
    · rintro ⟨a, k1, k2⟩; exact ⟨a, k1, (hpA a p).2 k2⟩
  · intro tr v
    rw [r2]
    constructor
    · rintro ⟨p, k1, k2⟩
      obtain ⟨tr', k3, k4⟩ := (s2 p v).1 k1
      have l1 := (hpA tr' p).1 k4
      have l2 := (h4 t p tr).1 k2
      have hi := TrajMap.run_inv h
      obtain ⟨_, ma⟩ := linked_iff.1 l1
      obtain ⟨_, mb⟩ := linked_iff.1 l2
      have : tr' = tr :=
        congrArg Prod.snd (List.inj_on_of_nodup_map (hi.frame t ht).inj.1 ma mb rfl)
      subst this
      exact ⟨k3, p, l1⟩
    · rintro ⟨k1, p, hl⟩
      exact ⟨p, (s2 p v).2 ⟨tr, k1, (hpA tr p).2 hl⟩, (h4 t p tr).2 hl⟩

/-- C03 (round trip). On maps whose trajectories all exist at `t` the conversion is invertible. -/
theorem C03_value_round_trip {D V : Type} [LinearOrder D] (n : Nat)
    (hist : List (Followers D × Nat))
    (tm : TrajMap) (h : TrajMap.run n hist = .ok tm) (hlen : hist.length + 1 ≤ szMod)
    (t : Nat) (m : List (Nat × V)) (hm : IsMap m) (ht : t < tm.bm.length)
    (hk : ∀ x ∈ m, ∃ p, Linked tm t p x.1) :
    ∃ ti m1, TrajIndex.ofMap tm = .ok ti ∧ ti.trajToPos t m [] = .ok m1 ∧
      ti.posToTraj t m1 [] = .ok m := by
  obtain ⟨ti, m1, m2, k1, k2, -, -, k3, k4, k5⟩ := C03_trajToPos_posToTraj n hist tm h hlen t ht m hm
    (by
      intro x hx
      obtain ⟨p, hp⟩ := hk x hx
      exact ((C01_one_to_one n hist tm h).2.2.2.2 x.1).2 ⟨t, p, hp⟩)
  refine ⟨ti, m1, k1, k2, ?_⟩
  rw [k3]
  congr 1
  apply sorted_ext k4 hm
  intro c v
  rw [k5]
  constructor
  · exact fun h => h.1
  · exact fun h => ⟨h, hk _ h⟩

/-- Non-vacuity for C03: the demo history has 3 frames, far fewer than `2^64`, and trajectory 1 is
linked at time 0. -/
example : ∃ tm, TrajMap.run 2 ([] : List (Followers ℚ × Nat)) = .ok tm ∧ Linked tm 0 1 1 ∧
    demoHist.length + 1 ≤ szMod :=
  ⟨_, rfl, linked_iff.2 ⟨by simp [TrajMap.init], by simp [TrajMap.init, TrajMap.init_frame]⟩,
    by simp [demoHist, szMod]⟩

/-! ## C04 -/

/-- A trajectory that the writer can print and whose numbers fit a `size_t`. -/
def Writable (tr : Traj) : Prop := tr.steps ≠ [] ∧ tr.start < 2 ^ 64 ∧ ∀ s ∈ tr.steps, s < 2 ^ 64

/-- C04. Any list of non-empty trajectories survives a write followed by a read. -/
theorem C04_round_trip (trajs : List Traj) (h : ∀ tr ∈ trajs, Writable tr) :
    ∃ text, TrajIndex.write trajs = .ok text ∧ TrajIndex.read text = .ok trajs := by
  -- put the list in (start, first, others) form
  have hl : ∃ l : List (Nat × Nat × List Nat),
      trajs = l.map (fun x => (⟨x.1, x.2.1 :: x.2.2⟩ : Traj)) := by
    induction trajs with
    | nil => exact ⟨[], rfl⟩
    | cons T Ts ih =>
      obtain ⟨l, hl⟩ := ih (fun tr htr => h tr (by simp [htr]))
      obtain ⟨start, steps⟩ := T
      cases steps with
      | nil => exact absurd rfl (h _ (List.mem_cons_self ..)).1
      | cons s ss => exact ⟨(start, s, ss) :: l, by simp [hl]⟩
  obtain ⟨l, rfl⟩ := hl
  have hb : ∀ x ∈ l, x.1 < szMod ∧ x.2.1 < szMod ∧ ∀ s ∈ x.2.2, s < szMod := by
    intro x hx
    obtain ⟨-, h2, h3⟩ := h _ (List.mem_map.2 ⟨x, hx, rfl⟩)
    simp only [szMod]
    exact ⟨h2, h3 _ (by simp), fun s hs => h3 s (by simp [hs])⟩
  refine ⟨filesText l, ?_, ?_⟩
  · have := write_all l []
    simpa [TrajIndex.write] using this
  · have hlen : l.length ≤ (filesText l).length := by
      clear * -
      induction l with
      | nil => simp
      | cons x xs ih =>
        simp only [filesText, List.map_cons, List.flatten_cons, List.length_append,
          List.length_cons, List.length_nil] at *
        omega
    have := readLoop_all l ((filesText l).length + 1) (by omega) hb 0 []
    simpa [TrajIndex.read] using this

/-- Non-vacuity of C04. -/
example : ∀ tr ∈ [(⟨0, [3, 14, 15]⟩ : Traj), ⟨7, [92]⟩], Writable tr := by
  simp [Writable]

/-- C04, the missing case: a list holding an empty trajectory cannot be written (the writer reads
`steps[0]`). -/
theorem C04_empty_trajectory_is_ub (pre post : List Traj) (start : Nat)
    (h : ∀ tr ∈ pre, tr.steps ≠ []) :
    TrajIndex.write (pre ++ ⟨start, []⟩ :: post) = .error .ub := by
  unfold TrajIndex.write
  have key : ∀ out, (pre ++ (⟨start, []⟩ : Traj) :: post).foldlM
      (fun (out : List Char) tr => do return out ++ (← Traj.write tr) ++ ['\n']) out = .error .ub := by
    induction pre with
    | nil => intro out; simp [Traj.write, getR]
    | cons T Ts ih =>
      intro out
      obtain ⟨st, steps⟩ := T
      cases steps with
      | nil => exact absurd rfl (h _ (List.mem_cons_self ..))
      | cons s ss =>
        rw [List.cons_append, List.foldlM_cons, write_traj]
        simp only [ok_bind, pure_eq_ok]
        exact ih (fun tr htr => h tr (by simp [htr])) _
  exact key []

/-- Reader quirk recorded beside C04: a line that ends with a tabulation (a format other writers
use) is read with its last position duplicated. -/
theorem C04_trailing_tab_duplicates (s : Nat) (hs : s < 2 ^ 64) (tr : Traj) :
    Traj.read (showNat s ++ ['\t']) tr = .ok { tr with steps := tr.steps ++ [s, s] } := by
  have hs' : s < szMod := by simpa [szMod] using hs
  unfold Traj.read
  rw [Traj.readLoop]
  simp only [Bool.false_eq_true, if_false]
  have hr := readNat_show [] (by simp) s hs' ['\t'] (by simp) 0
  rw [List.nil_append] at hr
  rw [hr]
  simp only [Bool.false_and, Bool.false_eq_true, if_false, List.isEmpty_cons]
  rw [show (showNat s ++ ['\t']).length + 1 = (showNat s).length + 1 + 1 by simp]
  rw [Traj.readLoop]
  simp only [Bool.false_eq_true, if_false]
  rw [show ({ rest := ['\t'], eof := false, fail := false } : IStream).readNat s =
    ({ rest := [], eof := true, fail := true }, s) by
      simp [IStream.readNat, IStream.good, isSpace]]
  simp only [Bool.not_true, Bool.and_false, Bool.false_eq_true, if_false]
  rw [Traj.readLoop]
  simp [Traj.pushBack]

/-! ## C05 -/

/-- C05. For a trajectory with at least one step, whose last time fits a `size_t`: existence,
access, span and push_back agree. -/
theorem C05_queries_partial (tr : Traj) (hne : tr.steps ≠ [])
    (hb : tr.start + tr.steps.length ≤ 2 ^ 64) :
    (∀ t, tr.exist t = true ↔ ∃ p, tr.at_ t = .ok p) ∧
    (∀ t, tr.exist t = true ↔ tr.start ≤ t ∧ t < tr.start + tr.steps.length) ∧
    (∀ i, i < tr.steps.length → tr.at_ (tr.start + i) = getR tr.steps i) ∧
    (∀ t0 t1, t0 ≤ t1 → (tr.span t0 t1 = true ↔ ∀ t, t0 ≤ t → t ≤ t1 → tr.exist t = true)) := by
  have hb' : tr.start + tr.steps.length ≤ szMod := by simpa [szMod] using hb
  have hx := exist_iff hne hb'
  refine ⟨?_, hx, ?_, ?_⟩
  · intro t
    constructor
    · intro he
      obtain ⟨h1, h2⟩ := (hx t).1 he
      exact ⟨_, (at_eq hne hb').2 ⟨h1, List.getElem?_eq_getElem (by omega)⟩⟩
    · rintro ⟨p, hp⟩
      obtain ⟨h1, h2⟩ := (at_eq hne hb').1 hp
      obtain ⟨h3, -⟩ := List.getElem?_eq_some_iff.1 h2
      exact (hx t).2 ⟨h1, by omega⟩
  · intro i hi
    rw [getR_of_lt hi, at_eq hne hb']
    exact ⟨by omega, by simp [hi]⟩
  · intro t0 t1 h01
    have hpos : 0 < tr.steps.length := List.length_pos_iff.2 hne
    have hsp : tr.span t0 t1 = true ↔ tr.start ≤ t0 ∧ t1 < tr.start + tr.steps.length := by
      unfold Traj.span
      rw [lastTime_eq hne hb']
      split
      · rename_i hc; simp at hc; simp; omega
      · rename_i hc; simp at hc; simp; omega
    rw [hsp]
    constructor
    · rintro ⟨a, b⟩ t h1 h2
      exact (hx t).2 ⟨by omega, by omega⟩
    · intro hall
      have h1 := (hx t0).1 (hall t0 (le_refl _) h01)
      have h2 := (hx t1).1 (hall t1 h01 (le_refl _))
      omega

/-- C05 (push_back). Appending prolongs the trajectory by exactly the next time step. -/
theorem C05_pushBack (tr : Traj) (p : Nat) (hne : tr.steps ≠ [])
    (hb : tr.start + tr.steps.length + 1 ≤ 2 ^ 64) :
    (∀ t, (tr.pushBack p).exist t = true ↔ tr.exist t = true ∨ t = tr.start + tr.steps.length) ∧
    (tr.pushBack p).at_ (tr.start + tr.steps.length) = .ok p ∧
    (∀ t, tr.exist t = true → (tr.pushBack p).at_ t = tr.at_ t) := by
  have hb1 : tr.start + tr.steps.length ≤ szMod := by simp only [szMod]; omega
  have hne2 : (tr.pushBack p).steps ≠ [] := by simp [Traj.pushBack]
  have hb2 : (tr.pushBack p).start + (tr.pushBack p).steps.length ≤ szMod := by
    simp only [szMod, Traj.pushBack, List.length_append, List.length_singleton]; omega
  refine ⟨?_, ?_, ?_⟩
  · intro t
    have := List.length_pos_iff.2 hne
    rw [exist_iff hne2 hb2, exist_iff hne hb1]
    simp only [Traj.pushBack, List.length_append, List.length_singleton]
    omega
  · rw [at_eq hne2 hb2]
    simp [Traj.pushBack]
  · intro t ht
    obtain ⟨h1, h2⟩ := (exist_iff hne hb1 t).1 ht
    have h3 : t - tr.start < tr.steps.length := by omega
    rw [(at_eq hne hb1).2 ⟨h1, List.getElem?_eq_getElem h3⟩, at_eq hne2 hb2]
    refine ⟨h1, ?_⟩
    simp only [Traj.pushBack]
    rw [List.getElem?_append_left h3, List.getElem?_eq_getElem h3]

/-- C05 (subtraj). When the trajectory spans `[t0,t1]`, `subtraj` succeeds, starts at `t0`, has
`t1-t0+1` steps and holds the same position at each of these times. -/
theorem C05_subtraj (tr : Traj) (hne : tr.steps ≠ []) (hb : tr.start + tr.steps.length ≤ 2 ^ 64)
    (t0 t1 : Nat) (h01 : t0 ≤ t1) (hs : tr.span t0 t1 = true) :
    ∃ sub, tr.subtraj t0 t1 = .ok sub ∧ sub.start = t0 ∧ sub.steps.length = t1 - t0 + 1 ∧
      ∀ t, t0 ≤ t → t ≤ t1 → sub.at_ t = tr.at_ t := by
  obtain ⟨-, hx, -, hsp⟩ := C05_queries_partial tr hne hb
  have hb' : tr.start + tr.steps.length ≤ szMod := by simpa [szMod] using hb
  have hall := (hsp t0 t1 h01).1 hs
  obtain ⟨a0, -⟩ := (hx t0).1 (hall t0 (le_refl _) h01)
  obtain ⟨-, a1⟩ := (hx t1).1 (hall t1 h01 (le_refl _))
  have loop : ∀ k, k ≤ t1 + 1 - t0 →
      (List.range' t0 k).foldlM (fun acc t => do return acc.pushBack (← tr.at_ t)) (Traj.empty t0) =
        (.ok ⟨t0, (tr.steps.drop (t0 - tr.start)).take k⟩ : R Traj) := by
    intro k
    induction k with
    | zero => intro _; simp [Traj.empty]
    | succ k ih =>
      intro hk
      rw [List.range'_concat, foldlM_append_ok]
      refine ⟨_, ih (by omega), ?_⟩
      have h3 : t0 + k - tr.start < tr.steps.length := by omega
      have hat : tr.at_ (t0 + 1 * k) = .ok tr.steps[t0 + k - tr.start] := by
        rw [Nat.one_mul, at_eq hne hb']
        exact ⟨by omega, List.getElem?_eq_getElem h3⟩
      rw [List.foldlM_cons, hat]
      simp only [ok_bind, pure_eq_ok, List.foldlM_nil, Traj.pushBack]
      congr 2
      rw [List.take_add_one, List.getElem?_drop]
      rw [show t0 - tr.start + k = t0 + k - tr.start by omega, List.getElem?_eq_getElem h3]
      rfl
  have hlen : ((tr.steps.drop (t0 - tr.start)).take (t1 + 1 - t0)).length = t1 - t0 + 1 := by
    rw [List.length_take, List.length_drop]; omega
  refine ⟨_, loop (t1 + 1 - t0) (le_refl _), rfl, hlen, ?_⟩
  intro t ht0 ht1
  have h3 : t - tr.start < tr.steps.length := by omega
  rw [(at_eq hne hb').2 ⟨by omega, List.getElem?_eq_getElem h3⟩]
  rw [at_eq (by intro hc; simp only at hc; rw [hc] at hlen; simp at hlen) (by simp only [szMod, hlen]; omega)]
  refine ⟨ht0, ?_⟩
  simp only
  rw [List.getElem?_take_of_lt (by omega), List.getElem?_drop]
  rw [show t0 - tr.start + (t - t0) = t - tr.start by omega, List.getElem?_eq_getElem h3]

/-- Non-vacuity of C05: a trajectory with three steps spanning [5,7]. -/
example : (⟨5, [10, 11, 12]⟩ : Traj).steps ≠ [] ∧ 5 + 3 ≤ 2 ^ 64 ∧
    (⟨5, [10, 11, 12]⟩ : Traj).span 5 7 = true := by
  refine ⟨by simp, by norm_num, ?_⟩
  simp [Traj.span, Traj.lastTime, szMod]

/-- C05, disagreement with the code: a trajectory without any step starting at time 0 pretends to
exist at every time (its last time wraps to `2^64-1`), and its access is then out of range. -/
theorem C05_empty_counterexample (t : Nat) (ht : t < 2 ^ 64) :
    (Traj.empty 0).exist t = true ∧ (Traj.empty 0).at_ t = .error .ub := by
  have h1 : (Traj.empty 0).lastTime = 2 ^ 64 - 1 := by simp [Traj.lastTime, Traj.empty, szMod]
  have h2 : (Traj.empty 0).exist t = true := by
    unfold Traj.exist
    rw [h1]
    rw [if_neg]
    simp [Traj.empty]; omega
  refine ⟨h2, ?_⟩
  unfold Traj.at_
  rw [h2]
  simp [Traj.empty, getR]

/-- C05 (empty trajectories starting later). A trajectory without step that starts at a positive
time exists at no time. -/
theorem C05_empty_positive (s t : Nat) (hs : 0 < s) (hb : s < 2 ^ 64) :
    (Traj.empty s).exist t = false := by
  have h1 : (Traj.empty s).lastTime = s - 1 := by
    simp only [Traj.lastTime, Traj.empty, szMod, List.length_nil]
    omega
  unfold Traj.exist
  rw [h1]
  rw [if_pos]
  have : t < s ∨ s - 1 < t := by omega
  rcases this with h | h <;> simp [Traj.empty, h]

end Colloids
