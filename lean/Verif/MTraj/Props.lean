import Verif.MTraj.ExplicitLemmas
import Mathlib.Data.Rat.Defs
import Mathlib.Tactic.NormNum
import Mathlib.SetTheory.Cardinal.Finite

/-! # Properties C06-C08: trajectory index of the multiscale tracker

Vocabulary: `ti.getTraj t p = .ok tr` is the accessor of the library (position `p` of frame `t`
belongs to trajectory `tr`); `T.at_ t = .ok p` is `operator[]` of a trajectory. -/

namespace Colloids

/-- What a user means by a valid index: the two directions agree, trajectories exist at
consecutive frames (by definition of `exist`) and are never empty. -/
structure MIndex.Valid (ti : MIndex) : Prop where
  traj : ∀ t p tr, ti.getTraj t p = .ok tr →
    ∃ T, ti.tr2pos[tr]? = some T ∧ T.at_ (t : Int) = .ok p
  pos : ∀ (tr : Nat) (T : MTraj) (t : Int), ti.tr2pos[tr]? = some T → T.exist t = true →
    ∃ s p : Nat, t = s ∧ T.at_ t = .ok p ∧ ti.getTraj s p = .ok tr
  nonempty : ∀ T ∈ ti.tr2pos, T.exist T.start = true

/-- The two ways of adding a frame. -/
inductive MCall (D : Type) where
  | links (size : Nat) (distances : List D) (pFrom pTo : List Nat)
  | explicit (trajs : List Nat)

/-- Number of positions of the frame added by a call. -/
def MCall.size {D : Type} : MCall D → Nat
  | .links n _ _ _ => n
  | .explicit l => l.length

/-- Run one call. -/
def MCall.run {D : Type} [LinearOrder D] : MCall D → MIndexM Unit
  | .links n ds pf pt => MIndex.addFrameLinks n ds pf pt
  | .explicit l => MIndex.addFrameExplicit l

/-- Run a history of calls from a freshly constructed index. -/
def MIndex.history {D : Type} [LinearOrder D] (n : Nat) (calls : List (MCall D)) :
    Except Fault Unit × MIndex :=
  MIndex.forAll (fun _ c => c.run) calls () (MIndex.init n)

namespace MIndex
open MIndexM

theorem getTraj_ok {ti : MIndex} {t p tr : Nat} :
    ti.getTraj t p = .ok tr ↔ ∃ row, ti.pos2tr[t]? = some row ∧ row[p]? = some tr := by
  unfold getTraj
  rw [bind_ok]
  simp only [getR_ok]

theorem exist_iff {T : MTraj} {t : Int} :
    T.exist t = true ↔ T.start ≤ t ∧ t < T.start + (T.steps.length : Int) := by
  simp only [MTraj.exist, Bool.and_eq_true, decide_eq_true_eq]; rfl

theorem at_ok {T : MTraj} {t : Int} {p : Nat} :
    T.at_ t = .ok p ↔ T.start ≤ t ∧ T.steps[(t - T.start).toNat]? = some p := by
  unfold MTraj.at_
  split
  · rename_i h
    rw [exist_iff] at h
    rw [getR_ok]
    simp [h.1]
  · rename_i h
    rw [exist_iff] at h
    simp only [reduceCtorEq, false_iff, not_and]
    intro h1
    rw [List.getElem?_eq_none (by omega)]
    simp

theorem Good.valid {ti : MIndex} (h : ti.Good) : ti.Valid := by
  refine ⟨?_, ?_, ?_⟩
  · intro t p tr htr
    have hp := h.pos_iff.2 (getTraj_ok.1 htr)
    have hlt : tr < ti.tr2pos.length := by
      by_contra hc
      unfold posAt at hp
      rw [List.getElem?_eq_none (by simpa using hc)] at hp
      cases hp
    have hT : ti.tr2pos[tr]? = some ti.tr2pos[tr] := List.getElem?_eq_getElem hlt
    refine ⟨_, hT, at_ok.2 ?_⟩
    rw [posAt_iff (T := ti.tr2pos[tr].toTraj) (by rw [List.getElem?_map, hT]; rfl)] at hp
    have h0 := h.start _ (List.getElem_mem hlt)
    simp only [MTraj.toTraj] at hp
    refine ⟨by omega, ?_⟩
    rw [show ((t : Int) - ti.tr2pos[tr].start).toNat = t - ti.tr2pos[tr].start.toNat by omega]
    exact hp.2
  · intro tr T t hT hex
    have h0 := h.start T (List.mem_of_getElem? hT)
    rw [exist_iff] at hex
    have hlt : (t - T.start).toNat < T.steps.length := by omega
    refine ⟨t.toNat, T.steps[(t - T.start).toNat], by omega, at_ok.2 ⟨hex.1, List.getElem?_eq_getElem hlt⟩, ?_⟩
    rw [getTraj_ok, ← h.pos_iff, posAt_iff (T := T.toTraj) (by rw [List.getElem?_map, hT]; rfl)]
    simp only [MTraj.toTraj]
    refine ⟨by omega, ?_⟩
    rw [show t.toNat - T.start.toNat = (t - T.start).toNat by omega]
    exact List.getElem?_eq_getElem hlt
  · intro T hT
    have := List.length_pos_iff.2 (h.nonempty T hT)
    rw [exist_iff]
    omega

theorem explicit_none {ti : MIndex} {input : List Nat} (hnb : ti.tr2pos.length = 0)
    (hin : input.Nodup) (hne : input ≠ []) : (addFrameExplicit input ti) = (.error .ub, ti) := by
  unfold addFrameExplicit
  rw [show uniq (input.mergeSort (fun a b => decide (a ≤ b))) = srt input from rfl]
  dsimp only
  rw [if_neg ((srt_length input).2 hin), run_bind_ok (a := ti) (s' := ti) (by rfl)]
  simp only [hnb, true_or, decide_true]
  have htw : ∀ l : List Nat, l.takeWhile (fun _ => true) = l := by
    intro l; induction l with
    | nil => rfl
    | cons a l ih => rw [List.takeWhile_cons_of_pos rfl, ih]
  rw [htw]
  have hs : srt input ≠ [] := by
    obtain ⟨x, hx⟩ := List.exists_mem_of_ne_nil _ hne
    exact List.ne_nil_of_mem ((mem_srt _ _).2 hx)
  cases hc : srt input with
  | nil => exact absurd hc hs
  | cons a l =>
    apply run_bind_error
    simp only [checkOld, forAll]
    apply run_bind_error
    rw [run_bind_ok (a := ti) (s' := ti) (by rfl)]
    apply run_bind_error
    rw [run_lift, getR_eq_ub (by omega)]

/-- Any accepted call from a good index gives a good index with one more frame. -/
theorem call_good {D : Type} [LinearOrder D] {ti ti' : MIndex} (hg : ti.Good) {c : MCall D}
    (h : c.run ti = (.ok (), ti')) :
    ti'.Good ∧ ∃ row, ti'.pos2tr = ti.pos2tr ++ [row] ∧ row.length = c.size := by
  obtain ⟨last, hlast⟩ : ∃ last, ti.pos2tr.getLast? = some last := by
    have := hg.frames
    cases hc : ti.pos2tr.getLast? with
    | none => rw [List.getLast?_eq_none_iff] at hc; rw [hc] at this; simp at this
    | some l => exact ⟨l, rfl⟩
  cases c with
  | links n ds pf pt =>
    simp only [MCall.run] at h
    obtain ⟨row, trs, h1, h2, h3, -⟩ := addFrameLinks_ok hg hlast (addFrameLinks_args hlast h)
    rw [h1] at h
    simp only [Prod.mk.injEq, true_and] at h
    subst h
    exact ⟨h3, row, rfl, h2⟩
  | explicit input =>
    simp only [MCall.run] at h
    rcases Nat.eq_zero_or_pos ti.tr2pos.length with hnb | hnb
    · by_cases hin : input = []
      · subst hin
        have : addFrameExplicit [] ti = (.ok (), ⟨ti.tr2pos ++ [], ti.pos2tr ++ [[]]⟩) := by
          simp only [addFrameExplicit, List.mergeSort_nil]; rfl
        rw [this] at h
        simp only [Prod.mk.injEq, true_and, List.append_nil] at h
        subst h
        refine ⟨?_, [], rfl, rfl⟩
        apply hg.extend List.nodup_nil
        · simp
        · simp
        · intro tr htr; omega
        · simp
        · intro tr htr _; exact List.getElem?_eq_none htr
      · by_cases hnd : input.Nodup
        · rw [explicit_none hnb hnd hin] at h; cases h
        · exfalso
          unfold addFrameExplicit at h
          rw [show uniq (input.mergeSort (fun a b => decide (a ≤ b))) = srt input from rfl] at h
          dsimp only at h
          rw [if_pos (by by_contra h'; exact hnd ((srt_length input).1 h'))] at h
          cases h
    · by_cases ha : ExplicitArgs ti last input
      · by_cases hf : (∀ tr ∈ input, tr < ti.tr2pos.length) ∨ ti.tr2pos.length ∈ input
        · obtain ⟨trs, h1, h2, -⟩ := explicit_ok hg hnb hlast ha hf
          rw [h1] at h
          simp only [Prod.mk.injEq, true_and] at h
          subst h
          exact ⟨h2, input, rfl, rfl⟩
        · have := explicit_skip hg hnb hlast ha hf
          rw [h] at this; cases this
      · rw [(explicit_unfold hg hnb hlast).1 ha] at h; cases h

theorem history_concat {D : Type} [LinearOrder D] {n : Nat} {calls : List (MCall D)} {c : MCall D}
    {ti : MIndex} :
    history n (calls ++ [c]) = (.ok (), ti) ↔
      ∃ ti0, history n calls = (.ok (), ti0) ∧ c.run ti0 = (.ok (), ti) := by
  unfold history
  rw [forAll_append]
  cases hc : forAll (fun _ (c : MCall D) => c.run) calls () (init n) with
  | mk r s =>
    cases r with
    | ok u => simp [forAll_singleton]
    | error e => simp

theorem history_good {D : Type} [LinearOrder D] {n : Nat} {calls : List (MCall D)} {ti : MIndex}
    (h : history n calls = (.ok (), ti)) :
    ti.Good ∧ ti.pos2tr.map List.length = n :: calls.map MCall.size := by
  induction calls using List.reverseRecOn generalizing ti with
  | nil =>
    have : ti = init n := by cases h; rfl
    subst this
    exact ⟨init_good n, by simp [init]⟩
  | append_singleton l c ih =>
    obtain ⟨ti0, h0, h1⟩ := history_concat.1 h
    obtain ⟨g1, g2⟩ := ih h0
    obtain ⟨k1, row, k2, k3⟩ := call_good g1 h1
    refine ⟨k1, ?_⟩
    rw [k2, List.map_append, g2]
    simp [k3]

end MIndex

/-! ## C06 -/

/-- C06. After any history of accepted `add_Frame` calls (both kinds, in any order) the frame sizes
are those asked for, every position of every frame belongs to exactly one trajectory, a trajectory
has at most one position per frame, the numbers in use are exactly `0..size-1`, and the inverse
index and the trajectories agree. -/
theorem C06_bijection {D : Type} [LinearOrder D] (n : Nat) (calls : List (MCall D)) (ti : MIndex)
    (h : MIndex.history n calls = (.ok (), ti)) :
    ti.pos2tr.map List.length = n :: calls.map MCall.size ∧
    (∀ t size, (n :: calls.map MCall.size)[t]? = some size →
      ∀ p, p < size → ∃! tr, ti.getTraj t p = .ok tr) ∧
    (∀ t p p' tr, ti.getTraj t p = .ok tr → ti.getTraj t p' = .ok tr → p = p') ∧
    (∀ tr, tr < ti.tr2pos.length ↔ ∃ t p, ti.getTraj t p = .ok tr) ∧
    ti.Valid := by
  obtain ⟨hg, hs⟩ := MIndex.history_good h
  have hv := hg.valid
  refine ⟨hs, ?_, ?_, ?_, hv⟩
  · intro t size hsz p hp
    rw [← hs, List.getElem?_map] at hsz
    cases hc : ti.pos2tr[t]? with
    | none => rw [hc] at hsz; cases hsz
    | some row =>
      rw [hc] at hsz
      simp only [Option.map_some, Option.some.injEq] at hsz
      subst hsz
      refine ⟨row[p], MIndex.getTraj_ok.2 ⟨row, hc, List.getElem?_eq_getElem hp⟩, ?_⟩
      intro tr htr
      obtain ⟨row', h1, h2⟩ := MIndex.getTraj_ok.1 htr
      rw [hc] at h1; cases h1
      rw [List.getElem?_eq_getElem hp] at h2
      exact (Option.some.inj h2).symm
  · intro t p p' tr h1 h2
    obtain ⟨T, hT, ha⟩ := hv.traj t p tr h1
    obtain ⟨T', hT', ha'⟩ := hv.traj t p' tr h2
    rw [hT] at hT'; cases hT'
    rw [ha] at ha'; cases ha'; rfl
  · intro tr
    constructor
    · intro hlt
      have hT : ti.tr2pos[tr]? = some ti.tr2pos[tr] := List.getElem?_eq_getElem hlt
      obtain ⟨s, p, -, -, hp⟩ := hv.pos tr _ _ hT (hv.nonempty _ (List.getElem_mem hlt))
      exact ⟨s, p, hp⟩
    · rintro ⟨t, p, hp⟩
      obtain ⟨T, hT, -⟩ := hv.traj t p tr hp
      exact (List.getElem?_eq_some_iff.1 hT).1

/-- Well-formed link arguments: three lists of equal length, existing positions on both sides. -/
def LinksWf {D : Type} (prevSize size : Nat) (ds : List D) (pf pt : List Nat) : Prop :=
  ds.length = pf.length ∧ pf.length = pt.length ∧ (∀ p ∈ pt, p < size) ∧ (∀ p ∈ pf, p < prevSize)

/-- C06 (no failure). From any index obtained by accepted calls, well-formed link arguments are
accepted. -/
theorem C06_total {D : Type} [LinearOrder D] (n : Nat) (calls : List (MCall D)) (ti : MIndex)
    (h : MIndex.history n calls = (.ok (), ti)) (size : Nat) (ds : List D) (pf pt : List Nat)
    (hw : LinksWf ((n :: calls.map MCall.size).getLast (by simp)) size ds pf pt) :
    ∃ ti', MIndex.addFrameLinks size ds pf pt ti = (.ok (), ti') := by
  obtain ⟨hg, hs⟩ := MIndex.history_good h
  have hne : ti.pos2tr ≠ [] := List.length_pos_iff.1 hg.frames
  have hlast := List.getLast?_eq_some_getLast hne
  obtain ⟨w1, w2, w3, w4⟩ := hw
  have hl : (ti.pos2tr.getLast hne).length = (n :: calls.map MCall.size).getLast (by simp) := by
    simp only [← hs, List.getLast_map]
  obtain ⟨row, trs, h1, -⟩ := MIndex.addFrameLinks_ok hg hlast
    (n := size) (ds := ds) (pf := pf) (pt := pt) ⟨w1, w2, w3, by rw [hl]; exact w4⟩
  exact ⟨_, h1⟩

/-- The pair `(a, b)` is declared at distance `d`. -/
def Declared {D : Type} (ds : List D) (pf pt : List Nat) (d : D) (a b : Nat) : Prop :=
  ∃ i : Nat, ds[i]? = some d ∧ pf[i]? = some a ∧ pt[i]? = some b

/-- `a` in the frame before last and `b` in the last frame belong to the same trajectory. -/
def MIndex.Joined (ti : MIndex) (a b : Nat) : Prop :=
  ∃ tr, ti.getTraj (ti.pos2tr.length - 2) a = .ok tr ∧ ti.getTraj (ti.pos2tr.length - 1) b = .ok tr

/-- C06 (greedy). An accepted frame of links leaves the older frames untouched; positions are joined
only through declared pairs; every declared pair is joined or blocked by a joined pair at smaller or
equal distance that shares an end with it; the remaining positions start trajectories numbered
consecutively, in increasing order of position, after the existing ones. -/
theorem C06_greedy {D : Type} [LinearOrder D] (n : Nat) (calls : List (MCall D)) (ti ti' : MIndex)
    (h : MIndex.history n calls = (.ok (), ti)) (size : Nat) (ds : List D) (pf pt : List Nat)
    (ha : MIndex.addFrameLinks size ds pf pt ti = (.ok (), ti')) :
    (∃ row, ti'.pos2tr = ti.pos2tr ++ [row] ∧ row.length = size) ∧
    (∀ a b, ti'.Joined a b → ∃ d, Declared ds pf pt d a b) ∧
    (∀ d a b, Declared ds pf pt d a b →
      ∃ d' a' b', Declared ds pf pt d' a' b' ∧ ti'.Joined a' b' ∧ d' ≤ d ∧ (a' = a ∨ b' = b)) ∧
    (∀ b, b < size → (¬ ∃ a, ti'.Joined a b) →
      ti'.getTraj ti.pos2tr.length b = .ok (ti.tr2pos.length +
        Nat.card {b' : Nat // b' < b ∧ ¬ ∃ a, ti'.Joined a b'})) ∧
    ti'.tr2pos.length = ti.tr2pos.length + Nat.card {b : Nat // b < size ∧ ¬ ∃ a, ti'.Joined a b} := by
  obtain ⟨hg, hs⟩ := MIndex.history_good h
  have hne : ti.pos2tr ≠ [] := List.length_pos_iff.1 hg.frames
  have hlast := List.getLast?_eq_some_getLast hne
  set prev := ti.pos2tr.getLast hne with hprev
  have hargs := MIndex.addFrameLinks_args hlast ha
  obtain ⟨row, trs, h1, h2, h3, h4, h5, h6⟩ := MIndex.addFrameLinks_ok hg hlast hargs
  rw [h1] at ha
  simp only [Prod.mk.injEq, true_and] at ha
  subst ha
  set links := TrajMap.greedy (MIndex.sortedBonds ds pf pt) with hlinks
  set unl := (List.range size).filter (fun b => b ∉ links.map Prod.snd) with hunl
  have hlt : ∀ x ∈ links, x.1 < prev.length ∧ x.2 < size := by
    intro x hx
    obtain ⟨d, hd⟩ := TrajMap.greedy_sub _ hx
    obtain ⟨i, k1, k2, k3⟩ := MIndex.mem_sortedBonds.1 hd
    exact ⟨hargs.from_lt _ (List.mem_of_getElem? k2), hargs.to_lt _ (List.mem_of_getElem? k3)⟩
  have hfr := hg.frames
  have hgetp : (ti.pos2tr ++ [row])[(ti.pos2tr ++ [row]).length - 2]? = some prev := by
    rw [List.length_append, List.length_singleton, List.getElem?_append_left (by omega),
      show ti.pos2tr.length + 1 - 2 = ti.pos2tr.length - 1 by omega, ← List.getLast?_eq_getElem?]
    exact hlast
  have hgetr : (ti.pos2tr ++ [row])[(ti.pos2tr ++ [row]).length - 1]? = some row := by simp
  have hprevlt : ∀ a tr : Nat, prev[a]? = some tr → tr < ti.tr2pos.length := by
    intro a tr hp
    obtain ⟨T, hT, -⟩ := hg.valid.traj (ti.pos2tr.length - 1) a tr (MIndex.getTraj_ok.2
      ⟨prev, by rw [← List.getLast?_eq_getElem?]; exact hlast, hp⟩)
    exact (List.getElem?_eq_some_iff.1 hT).1
  have hprevnd : prev.Nodup := hg.nodup _ (List.getLast_mem hne)
  have hjoin : ∀ a b, MIndex.Joined ⟨trs, ti.pos2tr ++ [row]⟩ a b ↔ (a, b) ∈ links := by
    intro a b
    unfold MIndex.Joined
    constructor
    · rintro ⟨tr, k1, k2⟩
      obtain ⟨r1, e1, e2⟩ := MIndex.getTraj_ok.1 k1
      obtain ⟨r2, e3, e4⟩ := MIndex.getTraj_ok.1 k2
      simp only [hgetp, Option.some.injEq] at e1
      simp only [hgetr, Option.some.injEq] at e3
      subst e1 e3
      have hbs : b < size := by rw [← h2]; exact (List.getElem?_eq_some_iff.1 e4).1
      by_cases hb : b ∈ links.map Prod.snd
      · obtain ⟨⟨a0, b0⟩, hm, rfl⟩ := List.mem_map.1 hb
        have := h4 a0 b0 hm
        simp only at e4
        rw [e4] at this
        obtain ⟨g1, g2⟩ := List.getElem?_eq_some_iff.1 e2
        obtain ⟨g3, g4⟩ := List.getElem?_eq_some_iff.1 this.symm
        have : a = a0 := (List.Nodup.getElem_inj_iff hprevnd).1 (g2.trans g4.symm)
        subst this
        exact hm
      · have hbu : b ∈ unl := by rw [hunl, List.mem_filter]; simp [hbs]; simpa using hb
        obtain ⟨i, hi⟩ := List.mem_iff_getElem?.1 hbu
        have := h5 i b hi
        rw [e4] at this
        have h7 := Option.some.inj this
        have := hprevlt a tr e2
        omega
    · intro hm
      have hlt' := hlt _ hm
      have e2 : prev[a]? = some (prev[a]'hlt'.1) := List.getElem?_eq_getElem hlt'.1
      refine ⟨prev[a]'hlt'.1, MIndex.getTraj_ok.2 ⟨prev, hgetp, e2⟩, MIndex.getTraj_ok.2 ⟨row, hgetr, ?_⟩⟩
      rw [h4 a b hm]; exact e2
  have hnotj : ∀ b, (¬ ∃ a, MIndex.Joined ⟨trs, ti.pos2tr ++ [row]⟩ a b) ↔ b ∉ links.map Prod.snd := by
    intro b
    rw [not_iff_not]
    constructor
    · rintro ⟨a, hab⟩; exact List.mem_map.2 ⟨_, (hjoin a b).1 hab, rfl⟩
    · intro hb
      obtain ⟨⟨a, b'⟩, hm, rfl⟩ := List.mem_map.1 hb
      exact ⟨a, (hjoin a b').2 hm⟩
  have hcard : ∀ m, Nat.card {b' : Nat // b' < m ∧ ¬ ∃ a, MIndex.Joined ⟨trs, ti.pos2tr ++ [row]⟩ a b'} =
      ((List.range m).filter (fun b => b ∉ links.map Prod.snd)).length := by
    intro m
    have hnd : ((List.range m).filter (fun b => b ∉ links.map Prod.snd)).Nodup :=
      List.nodup_range.filter _
    rw [← List.toFinset_card_of_nodup hnd, ← Nat.card_eq_finsetCard]
    apply Nat.card_congr
    apply Equiv.subtypeEquivRight
    intro b
    rw [hnotj]
    simp [List.mem_filter]
  refine ⟨⟨row, rfl, h2⟩, ?_, ?_, ?_, ?_⟩
  · intro a b hab
    obtain ⟨d, hd⟩ := TrajMap.greedy_sub _ ((hjoin a b).1 hab)
    exact ⟨d, MIndex.mem_sortedBonds.1 hd⟩
  · intro d a b hd
    obtain ⟨d', ⟨a', b'⟩, k1, k2, k3, k4⟩ := TrajMap.greedy_stable _ (MIndex.sortedBonds_sorted ds pf pt)
      ((MIndex.mem_sortedBonds (x := (d, (a, b)))).2 hd)
    exact ⟨d', a', b', MIndex.mem_sortedBonds.1 k1, (hjoin a' b').2 k2, k3, k4⟩
  · intro b hb hnj
    rw [hnotj] at hnj
    rw [hcard]
    refine MIndex.getTraj_ok.2 ⟨row, by simp, ?_⟩
    apply h5
    have hsplit : List.range size = List.range b ++ (b :: List.range' (b + 1) (size - b - 1)) := by
      rw [List.range_eq_range', List.range_eq_range', ← List.range'_succ]
      have := List.range'_append (s := 0) (m := b) (n := size - b - 1 + 1) (step := 1)
      simp only [Nat.zero_add, Nat.one_mul] at this
      rw [this]; congr 1; omega
    rw [hunl, hsplit, List.filter_append, List.filter_cons_of_pos (by simpa using hnj),
      List.getElem?_append_right (by simp)]
    simp
  · rw [hcard, h6]

/-- Non-vacuity of C06: an accepted frame with conflicting declared pairs and a birth. -/
example : ∃ ti, MIndex.history 2
    [MCall.links 3 ([2, 1, 3] : List ℚ) [0, 1, 0] [0, 0, 1]] = (.ok (), ti) := by
  obtain ⟨ti, h⟩ := C06_total (D := ℚ) 2 [] (MIndex.init 2) rfl 3 [2, 1, 3] [0, 1, 0] [0, 0, 1]
    (by refine ⟨rfl, rfl, ?_, ?_⟩ <;> simp)
  exact ⟨ti, (MIndex.history_concat (calls := [])).2 ⟨_, rfl, h⟩⟩

/-! ## C07 -/

/-- C07. A call that throws `invalid_argument` leaves the index exactly as it was — from any state. -/
theorem C07_rejected_unchanged {D : Type} [LinearOrder D] (c : MCall D) (ti : MIndex)
    (h : (c.run ti).1 = .error .invalidArgument) : (c.run ti).2 = ti := by
  cases c with
  | links n ds pf pt =>
    simp only [MCall.run] at h ⊢
    unfold MIndex.addFrameLinks at h ⊢
    split at h
    · rename_i c1; rw [if_pos c1]; rfl
    · rename_i c1
      rw [if_neg c1]
      split at h
      · rename_i c2; rw [if_pos c2]; rfl
      · exfalso
        have : MIndex.OnlyUb (do
            let s ← MIndexM.get
            let prev ← MIndexM.lift (backR s.pos2tr)
            MIndexM.setPos (s.pos2tr ++ [List.replicate n 0])
            let used ← MIndex.forAll MIndex.linkStep ((MIndex.sortedBonds ds pf pt).map Prod.snd)
              (List.replicate prev.length false, List.replicate n false)
            MIndex.forAll (fun _ p => MIndex.newStep used.2 p) (List.range used.2.length) ()) :=
          MIndex.OnlyUb.get.bind fun _ => (MIndex.OnlyUb.lift fun e => MIndex.backR_err).bind fun _ =>
            (MIndex.OnlyUb.setPos _).bind fun _ =>
            (MIndex.OnlyUb.forAll MIndex.linkStep_onlyUb _ _).bind fun _ =>
            MIndex.OnlyUb.forAll (fun _ _ => MIndex.newStep_onlyUb _ _) _ _
        have := this ti _ h
        cases this
  | explicit input =>
    simp only [MCall.run] at h ⊢
    unfold MIndex.addFrameExplicit at h ⊢
    dsimp only at h ⊢
    split at h
    · rename_i c1; rw [if_pos c1]; rfl
    · rename_i c1
      rw [if_neg c1]
      rw [MIndex.run_bind_ok (a := ti) (s' := ti) (by rfl)] at h ⊢
      generalize hold : List.takeWhile _ _ = old at h ⊢
      generalize hnew : List.dropWhile _ _ = new at h ⊢
      have hst := MIndex.checkOld_state old ti
      cases hc : MIndex.checkOld old ti with
      | mk r s =>
        rw [hc] at hst
        simp only at hst
        subst hst
        cases r with
        | error e => rw [MIndex.run_bind_error hc]
        | ok u =>
          rw [MIndex.run_bind_ok hc] at h ⊢
          split at h
          · rename_i c2; rw [if_pos c2]; rfl
          · exfalso
            have : ∀ nb, MIndex.OnlyUb (do
                let s ← MIndexM.get
                MIndexM.setTr (s.tr2pos ++ new.map (fun _ => MTraj.mk1 (s.pos2tr.length : Int) 0))
                let s ← MIndexM.get
                MIndexM.setPos (s.pos2tr ++ [input])
                MIndex.forAll (fun _ ptr => MIndex.updateStep nb ptr) (input.zipIdx.map Prod.swap) ()) :=
              fun nb => MIndex.OnlyUb.get.bind fun _ => (MIndex.OnlyUb.setTr _).bind fun _ =>
                MIndex.OnlyUb.get.bind fun _ => (MIndex.OnlyUb.setPos _).bind fun _ =>
                MIndex.OnlyUb.forAll (fun _ _ => MIndex.updateStep_onlyUb _ _) _ _
            have := this _ _ _ h
            cases this

/-- Explicit frames that the library should accept: no repetition, old trajectories continue from
the last frame, the new numbers have no gap. -/
def ExplicitWf (ti : MIndex) (input : List Nat) : Prop :=
  input.Nodup ∧
  (∀ tr ∈ input, tr < ti.tr2pos.length → ∃ q, ti.getTraj (ti.pos2tr.length - 1) q = .ok tr) ∧
  (∀ a b c, a ∈ input → c ∈ input → ti.tr2pos.length ≤ a → a ≤ b → b ≤ c → b ∈ input)

/-- The new numbers, if any, start right after the existing ones: what the library does NOT check. -/
def StartsAtNext (ti : MIndex) (input : List Nat) : Prop :=
  (∀ tr ∈ input, tr < ti.tr2pos.length) ∨ ti.tr2pos.length ∈ input

theorem explicitWf_iff {ti : MIndex} {last input : List Nat} (hlast : ti.pos2tr.getLast? = some last) :
    ExplicitWf ti input ↔ MIndex.ExplicitArgs ti last input := by
  have hq : ∀ tr, (∃ q, ti.getTraj (ti.pos2tr.length - 1) q = .ok tr) ↔ tr ∈ last := by
    intro tr
    rw [List.getLast?_eq_getElem?] at hlast
    rw [List.mem_iff_getElem?]
    constructor
    · rintro ⟨q, hq⟩
      obtain ⟨row, h1, h2⟩ := MIndex.getTraj_ok.1 hq
      rw [hlast] at h1; cases h1
      exact ⟨q, h2⟩
    · rintro ⟨q, hq⟩
      exact ⟨q, MIndex.getTraj_ok.2 ⟨last, hlast, hq⟩⟩
  constructor
  · rintro ⟨h1, h2, h3⟩; exact ⟨h1, fun tr a b => (hq tr).1 (h2 tr a b), h3⟩
  · intro h; exact ⟨h.nodup, fun tr a b => (hq tr).2 (h.cont tr a b), h.nogap⟩

/-- C07 for `add_Frame(first, last)` on an index with at least one trajectory, reached by accepted
calls: the exact outcome. Malformed frames are rejected with the index unchanged; well-formed frames
whose new numbers start at `size()` are recorded and leave a valid index; well-formed frames whose
new numbers start further (not checked by the code) access a trajectory that does not exist.
Missing with respect to the full claim: that last case should be rejected, as should any frame on an
index without trajectories (see the counterexamples). -/
theorem C07_explicit_partial {D : Type} [LinearOrder D] (n : Nat) (calls : List (MCall D))
    (ti : MIndex) (h : MIndex.history n calls = (.ok (), ti)) (hnb : 0 < ti.tr2pos.length)
    (input : List Nat) :
    (¬ ExplicitWf ti input → MIndex.addFrameExplicit input ti = (.error .invalidArgument, ti)) ∧
    (ExplicitWf ti input → StartsAtNext ti input →
      ∃ ti', MIndex.addFrameExplicit input ti = (.ok (), ti') ∧ ti'.Valid ∧
        ti'.pos2tr = ti.pos2tr ++ [input] ∧
        (∀ p tr : Nat, input[p]? = some tr → ∃ T, ti'.tr2pos[tr]? = some T ∧
          T.at_ (ti.pos2tr.length : Int) = .ok p) ∧
        ti'.tr2pos.length = ti.tr2pos.length +
          (input.filter (fun x => decide (ti.tr2pos.length ≤ x))).length) ∧
    (ExplicitWf ti input → ¬ StartsAtNext ti input →
      (MIndex.addFrameExplicit input ti).1 = .error .ub) := by
  obtain ⟨hg, -⟩ := MIndex.history_good h
  have hlast := List.getLast?_eq_some_getLast (List.length_pos_iff.1 hg.frames)
  rw [explicitWf_iff hlast]
  refine ⟨(MIndex.explicit_unfold hg hnb hlast).1, ?_, MIndex.explicit_skip hg hnb hlast⟩
  intro ha hf
  obtain ⟨trs, h1, h2, h3⟩ := MIndex.explicit_ok hg hnb hlast ha hf
  refine ⟨_, h1, h2.valid, rfl, ?_, h3⟩
  intro p tr hp
  exact h2.valid.traj ti.pos2tr.length p tr (MIndex.getTraj_ok.2 ⟨input, by simp, hp⟩)

/-- C07 for `add_Frame(size, distances, p_from, p_to)`: the exact outcome. Mismatched lengths or a
new position beyond the frame are rejected with the index unchanged; otherwise, if the old positions
exist, the result is a valid index.  Missing: the code does not check the old positions, and an
inexistent one is an out-of-range access. -/
theorem C07_links_partial {D : Type} [LinearOrder D] (n : Nat) (calls : List (MCall D))
    (ti : MIndex) (h : MIndex.history n calls = (.ok (), ti)) (size : Nat) (ds : List D)
    (pf pt : List Nat) :
    (¬ (ds.length = pf.length ∧ pf.length = pt.length ∧ ∀ p ∈ pt, p < size) →
      MIndex.addFrameLinks size ds pf pt ti = (.error .invalidArgument, ti)) ∧
    (LinksWf ((n :: calls.map MCall.size).getLast (by simp)) size ds pf pt →
      ∃ ti', MIndex.addFrameLinks size ds pf pt ti = (.ok (), ti') ∧ ti'.Valid) ∧
    (ds.length = pf.length → pf.length = pt.length → (∀ p ∈ pt, p < size) →
      (∃ p ∈ pf, (n :: calls.map MCall.size).getLast (by simp) ≤ p) →
      (MIndex.addFrameLinks size ds pf pt ti).1 = .error .ub) := by
  obtain ⟨hg, hs⟩ := MIndex.history_good h
  have hne : ti.pos2tr ≠ [] := List.length_pos_iff.1 hg.frames
  have hlast := List.getLast?_eq_some_getLast hne
  have hl : (ti.pos2tr.getLast hne).length = (n :: calls.map MCall.size).getLast (by simp) := by
    simp only [← hs, List.getLast_map]
  refine ⟨?_, ?_, ?_⟩
  · intro hb
    unfold MIndex.addFrameLinks
    by_cases c1 : ds.length ≠ pf.length ∨ pf.length ≠ pt.length
    · rw [if_pos c1]; rfl
    · rw [if_neg c1]
      rw [if_pos]
      · rfl
      · simp only [List.any_eq_true, decide_eq_true_eq]
        by_contra hc
        push Not at hc c1
        exact hb ⟨c1.1, c1.2, hc⟩
  · intro hw
    obtain ⟨ti', h'⟩ := C06_total n calls ti h size ds pf pt hw
    exact ⟨ti', h', (MIndex.call_good hg (c := .links size ds pf pt) h').1.valid⟩
  · rintro e1 e2 e3 ⟨p, hp, hpl⟩
    cases hc : MIndex.addFrameLinks size ds pf pt ti with
    | mk r s =>
      cases r with
      | ok u =>
        have := (MIndex.addFrameLinks_args hlast hc).from_lt p hp
        omega
      | error e =>
        simp only
        unfold MIndex.addFrameLinks at hc
        rw [if_neg (by simp [e1, e2]), if_neg (by
          simp only [List.any_eq_true, decide_eq_true_eq, not_exists, not_and, not_le]; exact e3)] at hc
        have : MIndex.OnlyUb (do
            let s ← MIndexM.get
            let prev ← MIndexM.lift (backR s.pos2tr)
            MIndexM.setPos (s.pos2tr ++ [List.replicate size 0])
            let used ← MIndex.forAll MIndex.linkStep ((MIndex.sortedBonds ds pf pt).map Prod.snd)
              (List.replicate prev.length false, List.replicate size false)
            MIndex.forAll (fun _ p => MIndex.newStep used.2 p) (List.range used.2.length) ()) :=
          MIndex.OnlyUb.get.bind fun _ => (MIndex.OnlyUb.lift fun e => MIndex.backR_err).bind fun _ =>
            (MIndex.OnlyUb.setPos _).bind fun _ =>
            (MIndex.OnlyUb.forAll MIndex.linkStep_onlyUb _ _).bind fun _ =>
            MIndex.OnlyUb.forAll (fun _ _ => MIndex.newStep_onlyUb _ _) _ _
        rw [this ti e (by rw [hc])]

/-- Counterexample to C07: on an index of two trajectories, the explicit frame `[3]` (skipping
number 2) passes all the checks and accesses trajectory 3 out of range. -/
theorem C07_skip_counterexample :
    (MIndex.addFrameExplicit [3] (MIndex.init 2)).1 = .error .ub := by decide +kernel

/-- Counterexample to C07: when the index has no trajectory, `nbtrajs-1` wraps around, every number
is considered old, and any explicit non-empty frame without repetition is an out-of-range access. -/
theorem C07_empty_counterexample (ti : MIndex) (hnb : ti.tr2pos.length = 0) (input : List Nat)
    (hin : input.Nodup) (hne : input ≠ []) : (MIndex.addFrameExplicit input ti).1 = .error .ub := by
  rw [MIndex.explicit_none hnb hin hne]

/-- Counterexample to C07: an inexistent old position is not checked. -/
theorem C07_from_counterexample :
    (MIndex.addFrameLinks 1 [(1 : ℚ)] [5] [0] (MIndex.init 2)).1 = .error .ub := by decide +kernel

/-- Non-vacuity of C07: a well-formed explicit frame, a malformed one, on a reached index. -/
example : ExplicitWf (MIndex.init 2) [2, 0] ∧ StartsAtNext (MIndex.init 2) [2, 0] ∧
    ¬ ExplicitWf (MIndex.init 2) [0, 0] := by
  refine ⟨⟨by decide, ?_, ?_⟩, .inr (by decide), fun h => absurd h.1 (by decide)⟩
  · intro tr htr hlt
    simp [MIndex.init] at htr hlt
    rcases htr with rfl | rfl
    · omega
    · exact ⟨0, rfl⟩
  · intro a b c ha hc hla hab hbc
    simp [MIndex.init] at ha hc hla
    rcases hc with rfl | rfl
    · have : b = 2 := by omega
      simp [this]
    · omega

/-! ## C08 -/

/-- Counterexample to C08: a trajectory of one step at time 0 is said to span [0,1] although it does
not exist at time 1. -/
theorem C08_span_counterexample :
    (MTraj.mk1 0 7).span 0 1 = true ∧ (MTraj.mk1 0 7).exist 1 = false := by decide

/-- C08, the part that holds: existing at both ends implies spanning; conversely spanning implies
existing at both ends unless `t1` is exactly one past the last step, and in that exceptional case the
trajectory does not exist at `t1`.  Missing: the converse at `t1 = get_finish()`. -/
theorem C08_span_partial (T : MTraj) (t0 t1 : Int) (h : t0 ≤ t1) :
    (T.exist t0 = true → T.exist t1 = true → T.span t0 t1 = true) ∧
    (t1 ≠ T.finish → (T.span t0 t1 = true ↔ T.exist t0 = true ∧ T.exist t1 = true)) ∧
    (t1 = T.finish → T.start ≤ t0 → T.span t0 t1 = true ∧ T.exist t1 = false) := by
  have hs : T.span t0 t1 = true ↔ T.start ≤ t0 ∧ t1 ≤ T.start + (T.steps.length : Int) := by
    simp only [MTraj.span, Bool.and_eq_true, decide_eq_true_eq]; rfl
  have hf : T.finish = T.start + (T.steps.length : Int) := rfl
  rw [← Bool.not_eq_true, hs, MIndex.exist_iff, MIndex.exist_iff, hf]
  omega

/-- C08, reading: a trajectory built by the constructor and successive `push_back`s returns at each
time the position pushed for that time, exists exactly at these times, and nothing else. -/
theorem C08_read (start : Int) (p0 : Nat) (ps : List Nat) (t : Int) :
    let T := ps.foldl MTraj.pushBack (MTraj.mk1 start p0)
    (∀ i p : Nat, (p0 :: ps)[i]? = some p → T.at_ (start + i) = .ok p) ∧
    (T.exist t = true ↔ ∃ i : Nat, i ≤ ps.length ∧ t = start + i) ∧
    (T.exist t = false → T.at_ t = .error .ub) := by
  intro T
  have hT : T = ⟨start, p0 :: ps⟩ := by
    have : ∀ (ps : List Nat) (T0 : MTraj), ps.foldl MTraj.pushBack T0 = ⟨T0.start, T0.steps ++ ps⟩ := by
      intro ps
      induction ps with
      | nil => intro T0; simp
      | cons a l ih => intro T0; rw [List.foldl_cons, ih]; simp [MTraj.pushBack]
    rw [show T = _ from this ps _]; rfl
  rw [hT]
  refine ⟨?_, ?_, ?_⟩
  · intro i p hi
    rw [MIndex.at_ok]
    refine ⟨by simp, ?_⟩
    rw [show (start + (i : Int) - start).toNat = i by omega]
    exact hi
  · rw [MIndex.exist_iff]
    simp only [List.length_cons]
    constructor
    · intro h; exact ⟨(t - start).toNat, by omega, by omega⟩
    · rintro ⟨i, h1, rfl⟩; omega
  · intro h
    unfold MTraj.at_
    rw [if_neg (by rw [h]; simp)]

/-- Non-vacuity of C08. -/
example : ((MTraj.mk1 3 7).pushBack 9).exist 4 = true ∧ ((MTraj.mk1 3 7).pushBack 9).span 3 4 = true ∧
    (4 : Int) ≠ ((MTraj.mk1 3 7).pushBack 9).finish := by decide

end Colloids
