import Verif.Mains.PercolationModel
import Verif.Mains.BooProps
import Verif.DynClusters.IOProps
import Verif.Mains.SeriesProps

/-! # C141: the program `percolation` -/

namespace Colloids
namespace Mains

open Dyn DynClusters
open Boo (GoodNgbs)
open Clusters (Ngb)

/-- The file of clusters of a frame lists the groups of at least two particles joined by a chain of `bond`, each
particle at most once. -/
def ListsGroups (text : List Char) (bond : Nat → Nat → Prop) : Prop :=
  ∃ es : List (Nat × List Nat), readFile text = some es ∧ (∀ e ∈ es, 2 ≤ e.2.length ∧ e.2.Nodup) ∧
    es.Pairwise (fun e e' => ∀ p ∈ e.2, p ∉ e'.2) ∧
    ∀ p q, p ≠ q → ((∃ e ∈ es, p ∈ e.2 ∧ q ∈ e.2) ↔ Relation.ReflTransGen bond p q)

theorem ListsGroups.congr {text : List Char} {b b' : Nat → Nat → Prop} (h : ListsGroups text b) (hb : ∀ p q, b p q ↔ b' p q) :
    ListsGroups text b' := by
  have : b = b' := by
    funext p q
    exact propext (hb p q)
  rwa [← this]

variable {D : DynParts ℝ}

/-- The trajectory of a position. -/
theorem traj_of_place (hw : Wf D) {t p : Nat} {ps : Particles ℝ} (hps : D.positions[t]? = some ps) (hp : p < ps.pos.length) :
    ∃ tr, D.trajectories.convert t tr = .ok p ∧ tr < D.trajectories.trajs.length := by
  obtain ⟨row, hr, hl⟩ := hw.row hps
  have h1 : row[p]? = some (row[p]'(by omega)) := by simp
  refine ⟨row[p]'(by omega), (hw.inverse _ _ _).1 (invert_ok.2 ⟨row, hr, h1⟩), ?_⟩
  obtain ⟨T, hT, -⟩ := (convert_ok hw).1 ((hw.inverse _ _ _).1 (invert_ok.2 ⟨row, hr, h1⟩))
  exact (List.getElem?_eq_some_iff.1 hT).1

theorem good_ngbs (hw : Wf D) {ngbs : List NgbList} (hl : ngbs.length = D.positions.length)
    (hg : ∀ (t : Nat) N (ps : Particles ℝ), ngbs[t]? = some N → D.positions[t]? = some ps → GoodNgbs ps.pos.length N) :
    Good { D with ngbs := ngbs } (List.range D.trajectories.trajs.length) := by
  refine ⟨⟨hw.nonempty, hw.fits, hw.size, hw.frames, hw.inverse⟩, ?_, ?_, List.pairwise_lt_range, ?_⟩
  · intro t ht
    have ht : t < D.positions.length := ht
    have hN : ngbs[t]? = some (ngbs[t]'(by omega)) := by simp
    have hps : D.positions[t]? = some D.positions[t] := by simp
    have g := hg t _ _ hN hps
    refine ⟨_, _, hN, hps, g.len, ?_⟩
    intro row hrow q hq
    obtain ⟨p, hp⟩ := List.mem_iff_getElem?.1 hrow
    obtain ⟨row', hr', -⟩ := g.symm p q ⟨row, hp, hq⟩
    have := (List.getElem?_eq_some_iff.1 hr').1
    rw [g.len] at this
    exact this
  · rintro t a b ⟨N, p, row, q, h1, h2, h3, h4, h5⟩
    have h1 : ngbs[t]? = some N := h1
    have htl := (List.getElem?_eq_some_iff.1 h1).1
    have hps : D.positions[t]? = some (D.positions[t]'(by omega)) := by simp
    obtain ⟨row', hr', hm⟩ := (hg t _ _ h1 hps).symm p q ⟨row, h3, h4⟩
    exact ⟨N, q, row', p, h1, h5, hr', hm, h2⟩
  · intro tr h
    exact List.mem_range.1 h

/-- The files of clusters, from the neighbours of each frame. -/
theorem clusters_of_ngbs (hw : Wf D) (hn : D.positions ≠ [])
    (hN : (D.positions.map (fun ps => ps.pos.length)).sum < szMod) {ngbs : List NgbList} (hl : ngbs.length = D.positions.length)
    (hg : ∀ (t : Nat) N (ps : Particles ℝ), ngbs[t]? = some N → D.positions[t]? = some ps → GoodNgbs ps.pos.length N) :
    ∃ members ti texts,
      assign { D with ngbs := ngbs } (List.range D.trajectories.trajs.length) [] = .ok (members, ti) ∧
      save { D with ngbs := ngbs } members ti = .ok texts ∧ texts.length = D.positions.length ∧
      ∀ (t : Nat) text N, texts[t]? = some text → ngbs[t]? = some N → ListsGroups text (Ngb N) := by
  have G := good_ngbs hw hl hg
  obtain ⟨members, ti, h1, h2, h3⟩ := C90_members G hn
  obtain ⟨texts, h4, h5, h6⟩ := C94_save G members ti h1 hN
  refine ⟨members, ti, texts, h1, h4, h5, ?_⟩
  intro t text N ht hNt
  have htl : t < D.positions.length := by rw [← hl]; exact (List.getElem?_eq_some_iff.1 hNt).1
  have hps : D.positions[t]? = some D.positions[t] := by simp
  have hms : members[t]? = some (members[t]'(by rw [h2]; exact htl)) := by simp
  generalize members[t]'(by rw [h2]; exact htl) = ms at hms
  generalize D.positions[t] = ps at hps
  obtain ⟨es, e1, e2, e3⟩ := h6 t text ms ht hms
  obtain ⟨m1, m2, m3⟩ := h3 t ms hms
  have gN := hg t N ps hNt hps
  -- the positions of the members
  have hex : ∀ k ∈ ms, ∀ tr ∈ k, ∃ p, D.trajectories.convert t tr = .ok p := fun k hk tr htr =>
    (exists_iff_convert hw).1 (C90_exist G members ti h1 t ms k tr hms hk htr).2
  have hmem : ∀ (K : Nat) (k : List Nat), ms[K]? = some k → ∃ (label : Nat) (l : List Nat), es[K]? = some (label, l) ∧
      l.length = k.length ∧ (∀ (i : Nat) tr, k[i]? = some tr → ∃ p, l[i]? = some p ∧ D.trajectories.convert t tr = .ok p) ∧
      ∀ p tr, D.trajectories.convert t tr = .ok p → (p ∈ l ↔ tr ∈ k) := by
    intro K k hK
    obtain ⟨label, l, a1, -, a2, a3⟩ := e3 K k hK
    refine ⟨label, l, a1, a2, a3, ?_⟩
    intro p tr hp
    constructor
    · intro hm
      obtain ⟨i, hi⟩ := List.mem_iff_getElem?.1 hm
      have hil := (List.getElem?_eq_some_iff.1 hi).1
      obtain ⟨p', b1, b2⟩ := a3 i (k[i]'(by omega)) (by simp)
      rw [hi] at b1
      cases b1
      rw [DynClusters.convert_inj (D := D) hw hp b2]
      exact List.getElem_mem _
    · intro hm
      obtain ⟨i, hi⟩ := List.mem_iff_getElem?.1 hm
      obtain ⟨p', b1, b2⟩ := a3 i tr hi
      have b2 : D.trajectories.convert t tr = .ok p' := b2
      rw [hp] at b2
      cases b2
      exact List.mem_of_getElem? b1
  have hback : ∀ (K : Nat) e, es[K]? = some e → ∃ k, ms[K]? = some k ∧ e.2.length = k.length ∧
      (∀ (i : Nat) tr, k[i]? = some tr → ∃ p, e.2[i]? = some p ∧ D.trajectories.convert t tr = .ok p) ∧
      ∀ p tr, D.trajectories.convert t tr = .ok p → (p ∈ e.2 ↔ tr ∈ k) := by
    intro K e hK
    have hKl := (List.getElem?_eq_some_iff.1 hK).1
    rw [e2] at hKl
    have hk : ms[K]? = some ms[K] := by simp
    obtain ⟨label, l, a1, a2, a3, a4⟩ := hmem K _ hk
    rw [hK] at a1
    cases a1
    exact ⟨_, hk, a2, a3, a4⟩
  have htr : ∀ e ∈ es, ∀ p ∈ e.2, ∃ tr, D.trajectories.convert t tr = .ok p := by
    intro e he p hp
    obtain ⟨K, hK⟩ := List.mem_iff_getElem?.1 he
    obtain ⟨k, hk, c1, c2, c3⟩ := hback K e hK
    obtain ⟨i, hi⟩ := List.mem_iff_getElem?.1 hp
    have hil := (List.getElem?_eq_some_iff.1 hi).1
    obtain ⟨p', b1, b2⟩ := c2 i (k[i]'(by omega)) (by simp)
    rw [hi] at b1
    cases b1
    exact ⟨_, b2⟩
  -- chains
  have hbond : ∀ a b, PopBond { D with ngbs := ngbs } (List.range D.trajectories.trajs.length) t a b ↔
      ∃ p q, D.trajectories.convert t a = .ok p ∧ D.trajectories.convert t b = .ok q ∧ Ngb N p q := by
    intro a b
    constructor
    · rintro ⟨-, -, N', p, row, q, b1, b2, b3, b4, b5⟩
      have b1 : ngbs[t]? = some N' := b1
      rw [hNt] at b1
      cases b1
      exact ⟨p, q, b2, b5, row, b3, b4⟩
    · rintro ⟨p, q, b1, b2, row, b3, b4⟩
      have lt : ∀ tr p, D.trajectories.convert t tr = .ok p → tr < D.trajectories.trajs.length := by
        intro tr p h
        obtain ⟨T, hT, -⟩ := (convert_ok hw).1 h
        exact (List.getElem?_eq_some_iff.1 hT).1
      exact ⟨List.mem_range.2 (lt _ _ b1), List.mem_range.2 (lt _ _ b2), N, p, row, q, hNt, b1, b3, b4, b2⟩
  have c1 : ∀ a b, Relation.ReflTransGen (PopBond { D with ngbs := ngbs } (List.range D.trajectories.trajs.length) t) a b →
      ∀ p q, D.trajectories.convert t a = .ok p → D.trajectories.convert t b = .ok q → Relation.ReflTransGen (Ngb N) p q := by
    intro a b h
    induction h with
    | refl =>
      intro p q hp hq
      rw [hp] at hq
      cases hq
      exact .refl
    | tail h hlast ih =>
      intro p q hp hq
      obtain ⟨r, q', r1, r2, r3⟩ := (hbond _ _).1 hlast
      rw [hq] at r2
      cases r2
      exact (ih p r hp r1).tail r3
  have c2 : ∀ p q, Relation.ReflTransGen (Ngb N) p q → ∀ a, D.trajectories.convert t a = .ok p →
      ∃ b, D.trajectories.convert t b = .ok q ∧
        Relation.ReflTransGen (PopBond { D with ngbs := ngbs } (List.range D.trajectories.trajs.length) t) a b := by
    intro p q h a ha
    induction h with
    | refl => exact ⟨a, ha, .refl⟩
    | @tail r q h hlast ih =>
      obtain ⟨b, hb, hc⟩ := ih
      have hq : q < ps.pos.length := by
        obtain ⟨row', hr', -⟩ := gN.symm r q hlast
        have := (List.getElem?_eq_some_iff.1 hr').1
        rwa [gN.len] at this
      obtain ⟨c, hc1, -⟩ := traj_of_place hw hps hq
      exact ⟨c, hc1, hc.tail ((hbond _ _).2 ⟨r, q, hb, hc1, hlast⟩)⟩
  refine ⟨es, e1, ?_, ?_, ?_⟩
  · intro e he
    obtain ⟨K, hK⟩ := List.mem_iff_getElem?.1 he
    obtain ⟨k, hk, d1, d2, d3⟩ := hback K e hK
    have hkm := m1 k (List.mem_of_getElem? hk)
    refine ⟨by rw [d1]; exact hkm.2, ?_⟩
    rw [List.nodup_iff_pairwise_ne, List.pairwise_iff_getElem]
    intro i j hi hj hij heq
    obtain ⟨p, b1, b2⟩ := d2 i (k[i]'(by omega)) (by simp)
    obtain ⟨p', b3, b4⟩ := d2 j (k[j]'(by omega)) (by simp)
    have f1 : e.2[i]? = some e.2[i] := by simp
    have f2 : e.2[j]? = some e.2[j] := by simp
    rw [f1] at b1
    rw [f2] at b3
    cases b1
    cases b3
    rw [← heq] at b4
    have := DynClusters.convert_inj (D := D) hw b2 b4
    have hlt := List.pairwise_iff_getElem.1 hkm.1 i j (by omega) (by omega) hij
    omega
  · rw [List.pairwise_iff_getElem]
    intro i j hi hj hij p hp hp'
    obtain ⟨tr, htr1⟩ := htr _ (List.getElem_mem hi) p hp
    obtain ⟨k, hk, -, -, d3⟩ := hback i es[i] (by simp)
    obtain ⟨k', hk', -, -, d3'⟩ := hback j es[j] (by simp)
    have q1 := (d3 p tr htr1).1 hp
    have q2 := (d3' p tr htr1).1 hp'
    have hi' := (List.getElem?_eq_some_iff.1 hk)
    have hj' := (List.getElem?_eq_some_iff.1 hk')
    have := List.pairwise_iff_getElem.1 m2 i j hi'.1 hj'.1 hij tr (by rw [hi'.2]; exact q1)
    exact this (by rw [hj'.2]; exact q2)
  · intro p q hpq
    constructor
    · rintro ⟨e, he, hp, hq⟩
      obtain ⟨K, hK⟩ := List.mem_iff_getElem?.1 he
      obtain ⟨k, hk, -, -, d3⟩ := hback K e hK
      obtain ⟨a, ha⟩ := htr e he p hp
      obtain ⟨b, hb⟩ := htr e he q hq
      have hab : a ≠ b := by
        intro h
        rw [h, hb] at ha
        cases ha
        exact hpq rfl
      exact c1 a b ((m3 a b hab).1 ⟨k, List.mem_of_getElem? hk, (d3 p a ha).1 hp, (d3 q b hb).1 hq⟩) p q ha hb
    · intro h
      have hp : p < ps.pos.length := by
        rcases Relation.ReflTransGen.cases_head h with e | ⟨r, ⟨row, hr, -⟩, -⟩
        · exact absurd e hpq
        · have := (List.getElem?_eq_some_iff.1 hr).1
          rwa [gN.len] at this
      obtain ⟨a, ha, -⟩ := traj_of_place hw hps hp
      obtain ⟨b, hb, hc⟩ := c2 p q h a ha
      have hab : a ≠ b := by
        intro h
        rw [h, hb] at ha
        cases ha
        exact hpq rfl
      obtain ⟨C, hC, ca, cb⟩ := (m3 a b hab).2 hc
      obtain ⟨K, hK⟩ := List.mem_iff_getElem?.1 hC
      obtain ⟨label, l, g1, -, -, g4⟩ := hmem K C hK
      exact ⟨(label, l), List.mem_of_getElem? g1, (g4 p a ha).2 ca, (g4 q b hb).2 cb⟩

/-- Two particles are bonded in a set of bonds. -/
def InBonds (bonds : List Bond) (p q : Nat) : Prop := p ≠ q ∧ Bond.mk' p q ∈ bonds

/-- Two particles of a frame are nearer than `b` diameters. -/
def Within (ps : Particles ℝ) (b : ℝ) (p q : Nat) : Prop :=
  p ≠ q ∧ ∃ x y, ps.pos[p]? = some x ∧ ps.pos[q]? = some y ∧ NearerThan x y (b * (2 * ps.radius))

theorem file_good {ps : Particles ℝ} {bonds : List Bond} (hsz : ps.pos.length < szMod) (hs : IsBondSet bonds)
    (hb : ∀ b ∈ bonds, b.low < b.high ∧ b.high < ps.pos.length) :
    ∃ N, ngbsOfFile ps (some (writeBonds bonds)) = .ok N ∧ GoodNgbs ps.pos.length N ∧ ∀ p q, Ngb N p q ↔ InBonds bonds p q := by
  obtain ⟨N, n1, n2, n3, n4, -⟩ := C11_bond_roundtrip ps.pos.length bonds hs hb
  refine ⟨N, ?_, ⟨n2, n3, ?_, ?_⟩, n4⟩
  · unfold ngbsOfFile
    rw [C10_file_roundtrip bonds hs (fun b hbb => ⟨by have := hb b hbb; omega, by have := hb b hbb; omega⟩), ok_bind, n1]
  · intro p q h
    rw [n4] at h ⊢
    rw [(C10_unordered q p 0 0).1]
    exact ⟨fun e => h.1 e.symm, h.2⟩
  · intro p h
    exact ((n4 p p).1 h).1 rfl

theorem positions_good {P : RParams ℝ} {H : Heur 3 ℝ} (hP : P.Valid) (hH : H.Valid P) (ps : Particles ℝ) :
    ∃ N, ngbsOfPositions P H ps = .ok N ∧ GoodNgbs ps.pos.length N ∧ ∀ p q, Ngb N p q ↔ Within ps 1.3 p q := by
  obtain ⟨ps', h1, -, h2, -, h4⟩ := Particles.makeRTreeIndex_ok hP hH ps
  obtain ⟨N, n1, n2, n3⟩ := neighbours_good hP hH (.make h1) 1.3
  refine ⟨N, ?_, by rwa [h2] at n2, ?_⟩
  · unfold ngbsOfPositions
    rw [h1, ok_bind, n1]
  · intro p q
    rw [n3, h2, h4, mul_comm (2 : ℝ) 1.3, mul_assoc]
    rfl

theorem size_lt (hN : (D.positions.map (fun ps => ps.pos.length)).sum < szMod) {ps : Particles ℝ} (h : ps ∈ D.positions) :
    ps.pos.length < szMod :=
  lt_of_le_of_lt (List.le_sum_of_mem (List.mem_map.2 ⟨_, h, rfl⟩)) hN

theorem percolation_of {P : RParams ℝ} {H : Heur 3 ℝ} {range : ℝ} {files : List (Option (List Char))} (hw : Wf D) (hn : D.positions ≠ [])
    (hN : (D.positions.map (fun ps => ps.pos.length)).sum < szMod) {ngbs : List NgbList} {bf : Option (List Char)}
    (hp : percolationNgbs P H D.positions files = .ok (ngbs, bf)) (hl : ngbs.length = D.positions.length)
    (hg : ∀ (t : Nat) N (ps : Particles ℝ), ngbs[t]? = some N → D.positions[t]? = some ps → GoodNgbs ps.pos.length N) :
    ∃ texts, percolation P H D range files = .ok (texts, bf) ∧ texts.length = D.positions.length ∧
      ∀ (t : Nat) text N, texts[t]? = some text → ngbs[t]? = some N → ListsGroups text (Ngb N) := by
  obtain ⟨members, ti, texts, h1, h2, h3, h4⟩ := clusters_of_ngbs hw hn hN hl hg
  refine ⟨texts, ?_, h3, h4⟩
  unfold percolation
  simp only [hp, ok_bind, h1, h2, pure_eq_ok]

/-- C141. When each frame has its file of bonds, the file of clusters of a frame lists the groups of particles joined by the bonds
of this file; no file of bonds is written. -/
theorem C141_bond_files (P : RParams ℝ) (H : Heur 3 ℝ) (hw : Wf D) (hn : D.positions ≠ [])
    (hN : (D.positions.map (fun ps => ps.pos.length)).sum < szMod) (range : ℝ) (sets : List (List Bond))
    (hl : sets.length = D.positions.length) (hs : ∀ bonds ∈ sets, IsBondSet bonds)
    (hb : ∀ (t : Nat) (ps : Particles ℝ) bonds, D.positions[t]? = some ps → sets[t]? = some bonds →
      ∀ b ∈ bonds, b.low < b.high ∧ b.high < ps.pos.length) :
    ∃ texts, percolation P H D range (sets.map (fun s => some (writeBonds s))) = .ok (texts, none) ∧
      texts.length = D.positions.length ∧
      ∀ (t : Nat) text bonds, texts[t]? = some text → sets[t]? = some bonds → ListsGroups text (InBonds bonds) := by
  have hp : ∀ x ∈ D.positions.zip (sets.map (fun s => some (writeBonds s))), ∃ N, ngbsOfFile x.1 x.2 = .ok N ∧
      (GoodNgbs x.1.pos.length N ∧ ∀ bonds ∈ sets, IsBondSet bonds → (∀ b ∈ bonds, b.low < b.high ∧ b.high < x.1.pos.length) →
        x.2 = some (writeBonds bonds) → ∀ p q, Ngb N p q ↔ InBonds bonds p q) := by
    intro x hx
    obtain ⟨t, ht⟩ := List.mem_iff_getElem?.1 hx
    obtain ⟨h1, h2⟩ := List.getElem?_zip_eq_some.1 ht
    rw [List.getElem?_map] at h2
    obtain ⟨bonds, h3, h4⟩ := Option.map_eq_some_iff.1 h2
    have hsz := size_lt hN (List.mem_of_getElem? h1)
    obtain ⟨N, n1, n2, n3⟩ := file_good hsz (hs _ (List.mem_of_getElem? h3)) (hb t _ _ h1 h3)
    refine ⟨N, by rw [← h4, n1], n2, ?_⟩
    intro bonds' _ hs' hb' he p q
    obtain ⟨N', m1, -, m3⟩ := file_good hsz hs' hb'
    rw [← he, ← h4, n1] at m1
    cases m1
    exact m3 p q
  obtain ⟨ngbs, k1, k2, k3⟩ := mapM_exists (fun x : Particles ℝ × Option (List Char) => ngbsOfFile x.1 x.2) _ _ hp
  have hz : ∀ (t : Nat) (ps : Particles ℝ) bonds, D.positions[t]? = some ps → sets[t]? = some bonds →
      (D.positions.zip (sets.map (fun s => some (writeBonds s))))[t]? = some (ps, some (writeBonds bonds)) := by
    intro t ps bonds h1 h2
    rw [List.getElem?_zip_eq_some, List.getElem?_map, h2]
    exact ⟨h1, rfl⟩
  have hl' : ngbs.length = D.positions.length := by rw [k2, List.length_zip, List.length_map, hl, Nat.min_self]
  obtain ⟨texts, t1, t2, t3⟩ := percolation_of (range := range) (P := P) (H := H) hw hn hN
    (files := sets.map (fun s => some (writeBonds s))) (ngbs := ngbs) (bf := none)
    (by unfold percolationNgbs; rw [k1]) hl' (by
      intro t N ps h1 h2
      have ht := (List.getElem?_eq_some_iff.1 h2).1
      have h3 : sets[t]? = some (sets[t]'(by omega)) := by simp
      exact (k3 t _ N (hz t ps _ h2 h3) h1).1)
  refine ⟨texts, t1, t2, ?_⟩
  intro t text bonds ht hbt
  have htl := (List.getElem?_eq_some_iff.1 hbt).1
  have h1 : D.positions[t]? = some (D.positions[t]'(by omega)) := by simp
  have h2 : ngbs[t]? = some (ngbs[t]'(by omega)) := by simp
  exact (t3 t text _ ht h2).congr ((k3 t _ _ (hz t _ _ h1 hbt) h2).2 bonds (List.mem_of_getElem? hbt)
    (hs _ (List.mem_of_getElem? hbt)) (hb t _ _ h1 hbt) rfl)

theorem missing_file : ∀ {positions : List (Particles ℝ)} {sets : List (Option (List Bond))}, sets.length = positions.length → none ∈ sets →
    (∀ ps ∈ positions, ps.pos.length < szMod) → (∀ bonds, some bonds ∈ sets → IsBondSet bonds) →
    (∀ (t : Nat) (ps : Particles ℝ) bonds, positions[t]? = some ps → sets[t]? = some (some bonds) →
      ∀ b ∈ bonds, b.low < b.high ∧ b.high < ps.pos.length) →
    (positions.zip (sets.map (fun s => s.map writeBonds))).mapM (fun x => ngbsOfFile x.1 x.2) = .error .invalidArgument
  | [], sets, hl, hm, _, _, _ => by
    rw [List.length_nil, List.length_eq_zero_iff] at hl
    rw [hl] at hm
    cases hm
  | ps :: positions, [], hl, _, _, _, _ => by simp at hl
  | ps :: positions, none :: sets, _, _, _, _, _ => by
    rw [List.map_cons, List.zip_cons_cons, List.mapM_cons]
    rfl
  | ps :: positions, some bonds :: sets, hl, hm, hz, hs, hb => by
    rw [List.map_cons, List.zip_cons_cons, List.mapM_cons]
    obtain ⟨N, n1, -⟩ := file_good (hz ps (by simp)) (hs bonds (by simp)) (hb 0 ps bonds rfl rfl)
    have := missing_file (positions := positions) (sets := sets) (by simpa using hl) (by simpa using hm)
      (fun ps h => hz ps (by simp [h])) (fun b h => hs b (by simp [h]))
      (fun t ps b h1 h2 => hb (t + 1) ps b h1 h2)
    simp only [Option.map_some, n1, ok_bind, this, error_bind]

/-- C141. When one frame has no file of bonds, the bonds of all the files are forgotten: the clusters are the groups of
particles joined by chains of distances less than 1.3 diameters, and the file of bonds that is written holds the bonds of the last
frame. -/
theorem C141_no_bond_file {P : RParams ℝ} {H : Heur 3 ℝ} (hP : P.Valid) (hH : H.Valid P) (hw : Wf D) (hn : D.positions ≠ [])
    (hN : (D.positions.map (fun ps => ps.pos.length)).sum < szMod) (range : ℝ) (sets : List (Option (List Bond)))
    (hl : sets.length = D.positions.length) (hm : none ∈ sets) (hs : ∀ bonds, some bonds ∈ sets → IsBondSet bonds)
    (hb : ∀ (t : Nat) (ps : Particles ℝ) bonds, D.positions[t]? = some ps → sets[t]? = some (some bonds) →
      ∀ b ∈ bonds, b.low < b.high ∧ b.high < ps.pos.length) :
    ∃ texts last, percolation P H D range (sets.map (fun s => s.map writeBonds)) = .ok (texts, some (writeBonds last)) ∧
      texts.length = D.positions.length ∧
      (∀ (t : Nat) text ps, texts[t]? = some text → D.positions[t]? = some ps → ListsGroups text (Within ps 1.3)) ∧
      IsBondSet last ∧ (∀ b ∈ last, b.low < b.high) ∧ ∀ p q, InBonds last p q ↔ Within (D.positions.getLast hn) 1.3 p q := by
  have hmis := missing_file hl hm (fun ps h => size_lt hN h) hs hb
  obtain ⟨ngbs, k1, k2, k3⟩ := mapM_exists (ngbsOfPositions P H) D.positions
    (fun ps N => GoodNgbs ps.pos.length N ∧ ∀ p q, Ngb N p q ↔ Within ps 1.3 p q)
    (fun ps _ => positions_good hP hH ps)
  have hne : ngbs ≠ [] := by
    intro h
    rw [h, List.length_nil] at k2
    exact hn (List.length_eq_zero_iff.1 k2.symm)
  have hlast := k3 (D.positions.length - 1) (D.positions.getLast hn) (ngbs.getLast hne)
    (by rw [← List.getLast?_eq_getElem?, List.getLast?_eq_some_getLast hn])
    (by rw [← k2, ← List.getLast?_eq_getElem?, List.getLast?_eq_some_getLast hne])
  obtain ⟨texts, t1, t2, t3⟩ := percolation_of (range := range) (P := P) (H := H) hw hn hN
    (files := sets.map (fun s => s.map writeBonds)) (ngbs := ngbs) (bf := some (writeBonds (ngb2bonds (ngbs.getLast hne))))
    (by
      unfold percolationNgbs
      rw [hmis]
      simp only [k1, ok_bind, List.getLast?_eq_some_getLast hne, Option.map_some, pure_eq_ok]) k2
    (fun t N ps h1 h2 => (k3 t ps N h2 h1).1)
  refine ⟨texts, ngb2bonds (ngbs.getLast hne), t1, t2, ?_, ngb2bonds_sorted _, ?_, ?_⟩
  · intro t text ps ht hps
    have htl := (List.getElem?_eq_some_iff.1 hps).1
    have h2 : ngbs[t]? = some (ngbs[t]'(by omega)) := by simp
    exact (t3 t text _ ht h2).congr (k3 t ps _ hps h2).2
  · intro b h
    rw [mem_ngb2bonds hlast.1.sorted] at h
    exact h.1
  · intro p q
    rw [← hlast.2]
    have hc := C11_bonds (ngbs.getLast hne) hlast.1.sorted hlast.1.symm p q
    constructor
    · rintro ⟨h1, h2⟩
      have := List.count_pos_iff.2 h2
      rw [hc] at this
      by_contra h
      rw [if_neg (fun e => h e.2)] at this
      omega
    · intro h
      have hpq : p ≠ q := by
        rintro rfl
        exact hlast.1.irrefl p h
      refine ⟨hpq, List.count_pos_iff.1 ?_⟩
      rw [hc, if_pos ⟨hpq, h⟩]
      exact Nat.one_pos

/-- C141 does not hold with the range of the command line: without files of bonds, two particles nearer than 1.3 diameters are in the same
cluster for any range, even when it is less than their distance. -/
theorem C141_range_counterexample {P : RParams ℝ} {H : Heur 3 ℝ} (hP : P.Valid) (hH : H.Valid P) (hw : Wf D)
    (hN : (D.positions.map (fun ps => ps.pos.length)).sum < szMod) (range : ℝ) {t p q : Nat} {ps : Particles ℝ}
    (hps : D.positions[t]? = some ps) (h : Within ps 1.3 p q) :
    ∃ texts bf text es, percolation P H D range (List.replicate D.positions.length none) = .ok (texts, bf) ∧
      texts[t]? = some text ∧ readFile text = some es ∧ ∃ e ∈ es, p ∈ e.2 ∧ q ∈ e.2 := by
  have htl := (List.getElem?_eq_some_iff.1 hps).1
  have hn : D.positions ≠ [] := by
    intro h
    rw [h] at htl
    simp at htl
  obtain ⟨texts, last, h1, h2, h3, -⟩ := C141_no_bond_file hP hH hw hn hN range (List.replicate D.positions.length none)
    (by simp) (List.mem_replicate.2 ⟨by omega, rfl⟩) (fun b hb => by simp at hb) (fun t ps b _ hb => by
      have := List.mem_of_getElem? hb
      simp at this)
  rw [List.map_replicate, Option.map_none] at h1
  have ht : texts[t]? = some (texts[t]'(by omega)) := by simp
  obtain ⟨es, e1, -, -, e2⟩ := h3 t _ ps ht hps
  exact ⟨texts, _, _, es, h1, ht, e1, (e2 p q h.1).2 (.single h)⟩

/-- C141 does not hold with a second run: when the last frame has no bonds the file of bonds that the program writes is empty, whatever
the bonds of the other frames. -/
theorem C141_written_bonds_counterexample {P : RParams ℝ} {H : Heur 3 ℝ} (hP : P.Valid) (hH : H.Valid P) (hw : Wf D) (hn : D.positions ≠ [])
    (hN : (D.positions.map (fun ps => ps.pos.length)).sum < szMod) (range : ℝ)
    (hlast : ∀ p q, ¬ Within (D.positions.getLast hn) 1.3 p q) :
    ∃ texts, percolation P H D range (List.replicate D.positions.length none) = .ok (texts, some []) := by
  have hpos := List.length_pos_iff.2 hn
  obtain ⟨texts, last, h1, -, -, -, h4, h5⟩ := C141_no_bond_file hP hH hw hn hN range (List.replicate D.positions.length none)
    (by simp) (List.mem_replicate.2 ⟨by omega, rfl⟩) (fun b hb => by simp at hb) (fun t ps b _ hb => by
      have := List.mem_of_getElem? hb
      simp at this)
  rw [List.map_replicate, Option.map_none] at h1
  refine ⟨texts, ?_⟩
  rw [h1]
  have : last = [] := by
    refine List.eq_nil_iff_forall_not_mem.2 (fun b hb => ?_)
    have hlt := h4 b hb
    refine hlast b.low b.high ((h5 _ _).1 ⟨by omega, ?_⟩)
    have : Bond.mk' b.low b.high = b := by
      unfold Bond.mk'
      rw [if_pos hlt]
      rfl
    rwa [this]
  rw [this]
  rfl

/-! ### A concrete case -/

/-- Two times with two particles, distant from 1.2 diameters then from 2. -/
noncomputable def exPair : DynParts ℝ :=
  { positions := [⟨[![0, 0, 0], ![6 / 5, 0, 0]], ⟨fun _ => 0, fun _ => 2⟩, 1 / 2, none⟩,
      ⟨[![0, 0, 0], ![2, 0, 0]], ⟨fun _ => 0, fun _ => 2⟩, 1 / 2, none⟩]
    trajectories := ⟨[⟨0, [0, 0]⟩, ⟨0, [1, 1]⟩], [[0, 1], [0, 1]]⟩
    radius := 1 / 2, index := none, ngbs := [] }

theorem exPair_wf : Wf exPair := by
  refine ⟨by simp [exPair], by simp [exPair], by simp [exPair], rfl, ?_⟩
  intro t p tr
  rw [invert_ok]
  unfold TrajIndex.convert
  rw [bind_ok]
  simp only [getR_ok]
  match tr with
  | 0 =>
    simp only [exPair, List.getElem?_cons_zero, Option.some.injEq, exists_eq_left']
    rw [at_eq (by simp) (by simp [szMod])]
    match t with
    | 0 | 1 | _ + 2 =>
      match p with
      | 0 | 1 | _ + 2 => simp
  | 1 =>
    simp only [exPair, List.getElem?_cons_zero, List.getElem?_cons_succ, Option.some.injEq, exists_eq_left']
    rw [at_eq (by simp) (by simp [szMod])]
    match t with
    | 0 | 1 | _ + 2 =>
      match p with
      | 0 | 1 | _ + 2 => simp
  | tr + 2 =>
    match t with
    | 0 | 1 | _ + 2 =>
      match p with
      | 0 | 1 | _ + 2 => simp [exPair]

theorem exPair_sum : (exPair.positions.map (fun ps => ps.pos.length)).sum < szMod := by
  simp [exPair, szMod]

theorem flat (a b : ℝ) : (![a, 0, 0] : Coord ℝ) 2 - (![b, 0, 0] : Coord ℝ) 2 = 0 := sub_zero (0 : ℝ)

theorem exPair_near : Within (exPair.positions.head (by simp [exPair])) 1.3 0 1 ∧
    ¬ Within (exPair.positions.head (by simp [exPair])) 1 0 1 := by
  constructor
  · refine ⟨by decide, ![0, 0, 0], ![6 / 5, 0, 0], rfl, rfl, ?_, ?_⟩
    · norm_num [exPair]
    · norm_num [exPair, sqDist, flat]
  · rintro ⟨-, x, y, hx, hy, -, h⟩
    have hx : ![0, 0, 0] = x := Option.some.inj hx
    have hy : ![6 / 5, 0, 0] = y := Option.some.inj hy
    subst hx hy
    norm_num [exPair, sqDist, flat] at h

theorem exPair_last : ∀ p q, ¬ Within (exPair.positions.getLast (by simp [exPair])) 1.3 p q := by
  rintro p q ⟨hpq, x, y, hx, hy, -, h⟩
  match p, q with
  | 0, 0 | 1, 1 => exact hpq rfl
  | 0, 1 =>
    have hx : ![0, 0, 0] = x := Option.some.inj hx
    have hy : ![2, 0, 0] = y := Option.some.inj hy
    subst hx hy
    norm_num [exPair, sqDist, flat] at h
  | 1, 0 =>
    have hx : ![2, 0, 0] = x := Option.some.inj hx
    have hy : ![0, 0, 0] = y := Option.some.inj hy
    subst hx hy
    norm_num [exPair, sqDist, flat] at h
  | 0, q + 2 | 1, q + 2 => simp [exPair] at hy
  | p + 2, _ => simp [exPair] at hx

/-- The hypotheses of `C141_bond_files`: the particles are bonded in the file of the second time, where they are far apart. -/
example (P : RParams ℝ) (H : Heur 3 ℝ) (range : ℝ) : ∃ texts text es,
    percolation P H exPair range [some (writeBonds []), some (writeBonds [⟨0, 1⟩])] = .ok (texts, none) ∧
      texts[1]? = some text ∧ readFile text = some es ∧ ∃ e ∈ es, 0 ∈ e.2 ∧ 1 ∈ e.2 := by
  obtain ⟨texts, h1, h2, h3⟩ := C141_bond_files P H exPair_wf (by simp [exPair]) exPair_sum range [[], [⟨0, 1⟩]] rfl
    (by intro b hb; simp at hb; rcases hb with rfl | rfl <;> simp [IsBondSet])
    (by
      intro t ps bonds hps hb b hbb
      match t with
      | 0 => simp at hb; subst hb; simp at hbb
      | 1 =>
        simp at hb
        subst hb
        simp at hbb
        subst hbb
        simp [exPair] at hps
        subst hps
        simp [Bond.low, Bond.high]
      | t + 2 => simp at hb)
  have h2 : texts.length = 2 := h2
  have ht : texts[1]? = some (texts[1]'(by omega)) := by simp
  obtain ⟨es, e1, -, -, e2⟩ := h3 1 _ [⟨0, 1⟩] ht rfl
  refine ⟨texts, _, es, h1, ht, e1, (e2 0 1 (by decide)).2 (.single ⟨by decide, ?_⟩)⟩
  decide

/-- The hypotheses of `C141_range_counterexample` and `C141_written_bonds_counterexample`: with a range of one diameter the two particles,
distant from 1.2, are in the same cluster at the first time, and their bond is not in the file that is written. -/
example : ∃ (P : RParams ℝ) (H : Heur 3 ℝ) (texts : List (List Char)) (text : List Char) (es : List (Nat × List Nat)),
    percolation P H exPair 1 [none, none] = .ok (texts, some []) ∧
      texts[0]? = some text ∧ readFile text = some es ∧ ∃ e ∈ es, 0 ∈ e.2 ∧ 1 ∈ e.2 := by
  have hP := stdParams_valid (1000 : ℝ) (1 / 1000)
  have hH := exHeur_valid (d := 3) hP
  obtain ⟨texts, bf, text, es, h1, h2, h3, h4⟩ := C141_range_counterexample hP hH exPair_wf exPair_sum 1 (t := 0) rfl exPair_near.1
  obtain ⟨texts', k1⟩ := C141_written_bonds_counterexample hP hH exPair_wf (by simp [exPair]) exPair_sum 1 exPair_last
  rw [h1] at k1
  cases k1
  exact ⟨_, _, _, _, _, h1, h2, h3, h4⟩

end Mains
end Colloids
